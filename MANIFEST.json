{
 "claims": [
  {
   "property": "C01",
   "status": "proved",
   "theorems": [
    "Verif.Props.C01_roundtrip"
   ],
   "note": ""
  },
  {
   "property": "C02",
   "status": "proved",
   "theorems": [
    "Verif.Props.C02_unescape_escape"
   ],
   "note": ""
  },
  {
   "property": "C03",
   "status": "proved",
   "theorems": [
    "Verif.Props.C03_escaped_legal"
   ],
   "note": ""
  },
  {
   "property": "C04",
   "status": "proved",
   "theorems": [
    "Verif.Props.C04_append_escaped"
   ],
   "note": ""
  },
  {
   "property": "C05",
   "status": "proved",
   "theorems": [
    "Verif.Props.C05_unescape_buffer"
   ],
   "note": ""
  },
  {
   "property": "C06",
   "status": "proved",
   "theorems": [
    "Verif.Props.C06_append_unescaped"
   ],
   "note": ""
  },
  {
   "property": "C07",
   "status": "partial",
   "theorems": [
    "Verif.Props.C07_unescape_semantics_partial",
    "Verif.Props.C07_unescape_semantics_false",
    "Verif.Props.C07_swallow"
   ],
   "note": "False as stated: a lone surrogate escape followed by another \\u escape swallows it (negation proved, exact behaviour proved). Proved for all bodies without that pattern."
  },
  {
   "property": "C08",
   "status": "proved",
   "theorems": [
    "Verif.Props.C08_length"
   ],
   "note": ""
  },
  {
   "property": "C09",
   "status": "proved",
   "theorems": [
    "Verif.Props.C09_reparse_stable"
   ],
   "note": ""
  },
  {
   "property": "C10",
   "status": "partial",
   "theorems": [
    "Verif.Props.C10_rfc_accepted_partial",
    "Verif.Props.C10_exact",
    "Verif.Props.C10_false",
    "Verif.Props.C10_wrong_tree"
   ],
   "note": "False as stated: a string value without escaped quote that ends in an escaped backslash is rejected or misread (negation and wrong-tree witness proved). Proved for all RFC texts whose string values avoid that, and for no other (C10_exact)."
  },
  {
   "property": "C100",
   "status": "partial",
   "theorems": [
    "Verif.Props.C100_append_partial",
    "Verif.Props.C100_unmarshal_partial",
    "Verif.Props.C100_false",
    "Verif.Props.C100_false_again",
    "Verif.Props.C100_tail"
   ],
   "note": "Exactly when a test passes. False of the code: a test that does not pass may panic (AppendJSON for a value without the method, a nil value, a nil pointer as expected value; C100_false), and a test whose data come from a reader reads nothing in its second run (C100_false_again). C100_tail: what follows the first value in the data is not looked at. Go values, their methods, encoding/json and reflect.DeepEqual are parameters."
  },
  {
   "property": "C101",
   "status": "proved",
   "theorems": [
    "Verif.Props.C101_nodes",
    "Verif.Props.C101_array",
    "Verif.Props.C101_working",
    "Verif.Props.C101_children",
    "Verif.Props.C101_text"
   ],
   "note": "Counted in nodes, elements of the arrays and bytes; strings and keys are substrings of the text and take no memory of their own. Arrays that were given up while growing are not counted; each is less than half of its successor."
  },
  {
   "property": "C102",
   "status": "proved",
   "theorems": [
    "Verif.Props.C102_flags",
    "Verif.Props.C102_usage",
    "Verif.Props.C102_runs",
    "Verif.Props.C102_late",
    "Verif.Props.C102_order"
   ],
   "note": "parseFlags is a transcription of flag.Parse of the Go library with the flags that njson.go defines; the text of the usage message and exit codes are not modelled."
  },
  {
   "property": "C103",
   "status": "proved",
   "theorems": [
    "Verif.Props.C103_exclusive",
    "Verif.Props.C103_content",
    "Verif.Props.C103_own",
    "Verif.Props.C103_needs_append"
   ],
   "note": "The program is a step relation: code of the program appends chunks, is handed the slice, returns or panics in any interleaving; sync.Pool is a bag. That appenders append and that the slice is not kept or written to after the call are built into the steps; C103_needs_append is the witness for the first condition."
  },
  {
   "property": "C104",
   "status": "partial",
   "theorems": [
    "Verif.Props.C104_same_partial",
    "Verif.Props.C104_returns_partial",
    "Verif.Props.C104_false_map",
    "Verif.Props.C104_false_pointer",
    "Verif.Props.C104_false_keys",
    "Verif.Props.C104_false_order"
   ],
   "note": "Proved for values without maps that are nil or have entries, nil pointers in fields without omitempty, floats beyond the precision of a float32, types with marshal methods, and hints for strings (C104_same_partial; C104_returns_partial: both return). False of the code for the first three (C104_false_map, C104_false_pointer, C104_false_keys); the order is by tag in one and by declaration in the other (C104_false_order)."
  },
  {
   "property": "C105",
   "status": "proved",
   "theorems": [
    "Verif.Props.C105_any",
    "Verif.Props.C105_decoder"
   ],
   "note": "The two models of toInterface (maps as functions, maps as entries) are proved equal on the way. C105_decoder: the decoder that NewTypeDecoder returns for an interface type stores the same, but overwrites the variable also when it fails."
  },
  {
   "property": "C106",
   "status": "partial",
   "theorems": [
    "Verif.Props.C106_same_partial",
    "Verif.Props.C106_false_array",
    "Verif.Props.C106_false_grow",
    "Verif.Props.C106_false_element",
    "Verif.Props.C106_false_null",
    "Verif.Props.C106_false_types",
    "Verif.Props.C106_false_embedded",
    "Verif.Props.C106_false_map"
   ],
   "note": "Proved, with termination of both, for the trees and variables in ReadAlike (C106_same_partial). False of the code outside: an empty array for a nil slice, arrays that do not fit, errors in elements, null, strings for numbers and numbers for strings, fields below nil embedded pointers, nil maps (C106_false_*). Keys that occur twice, and numerals that only strconv reads, are outside ReadAlike as well."
  },
  {
   "property": "C107",
   "status": "proved",
   "theorems": [
    "Verif.Props.C107_frame",
    "Verif.Props.C107_alive",
    "Verif.Props.C107_grows",
    "Verif.Props.C107_unbounded"
   ],
   "note": "The decoders of the model do not change the document; a custom Decoder that calls methods of the node that change it is outside."
  },
  {
   "property": "C108",
   "status": "partial",
   "theorems": [
    "Verif.Props.C108_stored",
    "Verif.Props.C108_close_partial",
    "Verif.Props.C108_accepted",
    "Verif.Props.C108_overflow",
    "Verif.Props.C108_false"
   ],
   "note": "False as stated: 0.3 is not stored as the nearest float64, and numbers beyond the range are stored as infinities without an error (C108_overflow: every such integer). Proved: exactly what is stored in terms of ParseFloat (float32: the nearest float32 to that float64), an error bound of 2^-49 for numbers of moderate size, and that well-formed numbers with exponents below 2^63 are never rejected."
  },
  {
   "property": "C109",
   "status": "proved",
   "theorems": [
    "Verif.Props.C109_place",
    "Verif.Props.C109_places",
    "Verif.Props.C109_unique",
    "Verif.Props.C109_json"
   ],
   "note": "The trees s that the mutations give to n itself are stated by C22-C25 and C31."
  },
  {
   "property": "C11",
   "status": "proved",
   "theorems": [
    "Verif.Props.C11_language"
   ],
   "note": ""
  },
  {
   "property": "C110",
   "status": "proved",
   "theorems": [
    "Verif.Props.C110_new",
    "Verif.Props.C110_reads",
    "Verif.Props.C110_root"
   ],
   "note": "The text of a number is the one that FormatFloat gives (C45)."
  },
  {
   "property": "C111",
   "status": "proved",
   "theorems": [
    "Verif.Props.C111_set",
    "Verif.Props.C111_replace",
    "Verif.Props.C111_append",
    "Verif.Props.C111_new"
   ],
   "note": "With C109 later edits of a linked node are edits of the target's tree at that place; copies are left alone by C26."
  },
  {
   "property": "C112",
   "status": "proved",
   "theorems": [
    "Verif.Props.C112_escaped",
    "Verif.Props.C112_unchanged",
    "Verif.Props.C112_length"
   ],
   "note": "The characters of a byte string are its UTF-8 sequences, invalid bytes counting as single characters that become \\ufffd."
  },
  {
   "property": "C113",
   "status": "partial",
   "theorems": [
    "Verif.Props.C113_exact",
    "Verif.Props.C113_kept_partial",
    "Verif.Props.C113_never",
    "Verif.Props.C113_false"
   ],
   "note": "False as stated: \\u followed by four bytes is replaced whatever these bytes are (negation proved; C113_never: always). C113_exact states the result for every string."
  },
  {
   "property": "C114",
   "status": "proved",
   "theorems": [
    "Verif.Props.C114_misses"
   ],
   "note": "Slice(i, len), which should apply and does not, is C25_slice_end."
  },
  {
   "property": "C115",
   "status": "proved",
   "theorems": [
    "Verif.Props.C115_steps",
    "Verif.Props.C115_cut",
    "Verif.Props.C115_nearest",
    "Verif.Props.C115_signs"
   ],
   "note": "C115_cut: exactly, for every numeral; C115_nearest: without the cut for exponents of at most five digits or numerals of at most 9600 digits before and after the point. C40_exact follows: when the result is NaN. math.Pow10 is stated by the rounded powers of ten in its tables."
  },
  {
   "property": "C116",
   "status": "partial",
   "theorems": [
    "Verif.Props.C116_tables",
    "Verif.Props.C116_reads",
    "Verif.Props.C116_calls",
    "Verif.Props.C116_compiles_partial",
    "Verif.Props.C116_default",
    "Verif.Props.C116_false",
    "Verif.Props.C116_lost"
   ],
   "note": "What the file declares (C116_tables, C116_reads: the text can be read in one way only) and what its functions return (C116_calls). Exactly when it compiles: C116_compiles_partial; with the default prefix C116_default. False of the code for the empty prefix, where constants and functions have the same names (C116_false), and a refused argument leaves an empty file (C116_lost). Identifiers are those of ASCII characters."
  },
  {
   "property": "C117",
   "status": "proved",
   "theorems": [
    "Verif.Props.C117_shortest",
    "Verif.Props.C117_shortest32",
    "Verif.Props.C117_rest",
    "Verif.Props.C117_injective"
   ],
   "note": "With a model of strconv's shortest format (Model/FormatFloat.lean) in place of an arbitrary formatting function. A float64 that is too small for a float32 is written as 0e+00 with 32 bits, one that is too large as +Inf or -Inf (C117_rest). The assumptions of other claims about strconv hold of this model: strconv_goFloats, strconv_floats64, strconv_zeroText, strconv_shortest32, strconv_shortestTexts."
  },
  {
   "property": "C118",
   "status": "partial",
   "theorems": [
    "Verif.Props.C118_order_partial",
    "Verif.Props.C118_far_partial",
    "Verif.Props.C118_false"
   ],
   "note": "False of the code: 0.3 and 0.30 are read as different floats, and 0.3 as a larger one than 0.3000000000000000000001 (C118_false). It holds among the numerals that are left to strconv (integers, fractions of more than 18 digits, exponents above 300) and for numbers of moderate size that differ by more than a 2^47th part."
  },
  {
   "property": "C119",
   "status": "proved",
   "theorems": [
    "Verif.Props.C119_commute",
    "Verif.Props.C119_trees",
    "Verif.Props.C119_json",
    "Verif.Props.C119_sharp"
   ],
   "note": "For documents of fewer than 2^64-1 nodes. The condition on the values is needed: a copy of a value that contains the other node is taken before or after its edit (C119_sharp). Strip is not among the edits."
  },
  {
   "property": "C12",
   "status": "proved",
   "theorems": [
    "Verif.Props.C12_suffix_stable"
   ],
   "note": ""
  },
  {
   "property": "C120",
   "status": "partial",
   "theorems": [
    "Verif.Props.C120_partial",
    "Verif.Props.C120_success_partial",
    "Verif.Props.C120_decodes_partial",
    "Verif.Props.C120_perm",
    "Verif.Props.C120_false"
   ],
   "note": "Proved for values that fit the type (C120_partial), which for types without slices and arrays is whenever one of the calls succeeds (C120_success_partial). False of the code otherwise: what is stored before an error depends on the order, and in arrays errors are ignored, so that [{\"A\":1,\"b\":5}] and [{\"b\":5,\"A\":1}] into a [1]struct{A int; B string} are stored differently, both without an error; the order also decides between an error and a panic for nil maps (C120_false)."
  },
  {
   "property": "C121",
   "status": "partial",
   "theorems": [
    "Verif.Props.C121_dropped",
    "Verif.Props.C121_compact_partial",
    "Verif.Props.C121_same_iff",
    "Verif.Props.C121_unmarshal_partial",
    "Verif.Props.C121_false"
   ],
   "note": "Proved for RFC 8259 texts whose string values end well (the texts that Parse reads correctly, C10_exact), with a scanner as specification; C121_dropped is for everything that is accepted. False of the code otherwise: the text of three strings [\"\\\\\",\", 1,\",\",2\"] is accepted and comes back with the space inside the second string removed (C121_false)."
  },
  {
   "property": "C122",
   "status": "partial",
   "theorems": [
    "Verif.Props.C122_struct_partial",
    "Verif.Props.C122_place",
    "Verif.Props.C122_panics",
    "Verif.Props.C122_false"
   ],
   "note": "Proved for pointer types without such methods (C122_struct_partial for the fields of a struct, with C122_place for every place). False of the code (C122_false): with a marshal method the method is called on the nil pointer; if its receiver is a value (as for *time.Time), Marshal panics, wherever the pointer is in the argument (C122_panics); so it does for a nil pointer field with omitempty whose element type has an Omit method, although ptrOmiter was meant for this case: the method set of the pointer type contains the method, so customOmiter finds it first. A nil pointer in an interface{} panics whatever its type."
  },
  {
   "property": "C123",
   "status": "partial",
   "theorems": [
    "Verif.Props.C123_field_partial",
    "Verif.Props.C123_place",
    "Verif.Props.C123_never",
    "Verif.Props.C123_panics",
    "Verif.Props.C123_false"
   ],
   "note": "Proved for pointer types without unmarshal methods (C123_field_partial for the fields of a struct, C123_place for every place). False of the code (C123_false): for a pointer type with an unmarshal method, such as *time.Time, the method is called on the nil pointer, also for null; the field is nil afterwards for every text and every method (C123_never), or Unmarshal panics (always if the receiver is a value, C123_panics)."
  },
  {
   "property": "C124",
   "status": "partial",
   "theorems": [
    "Verif.Props.C124_fields",
    "Verif.Props.C124_calm_partial",
    "Verif.Props.C124_exact",
    "Verif.Props.C124_value",
    "Verif.Props.C124_false"
   ],
   "note": "Proved for all values in which no element of a slice and no value of a map is a nil pointer with a marshal method that panics on it; fields that are nil pointers are left out before any method is called, omit methods included. False of the code for the rest (C124_false): []*time.Time{nil} makes the method panic; C124_exact says that the method panics exactly on such values, if no other method fails or panics, C124_value that all nil pointers to types with methods that have value receivers are among them."
  },
  {
   "property": "C125",
   "status": "proved",
   "theorems": [
    "Verif.Props.C125_reads",
    "Verif.Props.C125_decoder",
    "Verif.Props.C125_unmarshal",
    "Verif.Props.C125_extra",
    "Verif.Props.C125_generated",
    "Verif.Props.C125_generated_extra"
   ],
   "note": "The pairs of values are those of SameRead (GSameRead for generated code), relations that follow the type; values of types with unmarshal methods are the same on both sides, as the methods are called with the whole text. C125_extra and C125_generated_extra: any members without fields, put anywhere among the members of an object, are a case. UnmarshalNodeJSON methods are functions of the tree (Univ.Unmarshals)."
  },
  {
   "property": "C126",
   "status": "proved",
   "theorems": [
    "Verif.Props.C126_place",
    "Verif.Props.C126_method",
    "Verif.Props.C126_field"
   ],
   "note": "C126_field for the fields of the struct, on any heap with the object as a tree; the paths of fields named later in the object are apart from the field's (which holds unless a field and an embedded struct around it are both known fields). C126_place for every place (GDec, which by C79_stores_partial is what the generated code does). Unlike Unmarshal of package unjson (C123)."
  },
  {
   "property": "C127",
   "status": "partial",
   "theorems": [
    "Verif.Props.C127_agree_partial",
    "Verif.Props.C127_last",
    "Verif.Props.C127_differ",
    "Verif.Props.C127_false"
   ],
   "note": "False for duplicate keys: Get returns the first member, ToInterface (and Unmarshal, C105) keeps the last (C127_false, a parsed object; C127_differ: whenever the two members have different Go values). C127_agree_partial: without duplicate keys the three agree. C127_last: what the map has under every key, duplicates included."
  },
  {
   "property": "C128",
   "status": "partial",
   "theorems": [
    "Verif.Props.C128_get_partial",
    "Verif.Props.C128_escaped",
    "Verif.Props.C128_set_partial",
    "Verif.Props.C128_plain",
    "Verif.Props.C128_false",
    "Verif.Props.C128_set_false",
    "Verif.Props.C128_unmarshal_false"
   ],
   "note": "False for keys with escapes: Get, ToInterface and Unmarshal compare the raw text of the key (C128_false, C128_unmarshal_false; C128_escaped: such a member is never found under the string its key denotes, unless that is the text of another key). Set does not escape its key: Set with the key a\":1,\"b writes an object with two members (C128_set_false). C128_get_partial: keys without backslash. C128_set_partial: the object is read back exactly when the quotes of the key are escaped (EscBody)."
  },
  {
   "property": "C129",
   "status": "proved",
   "theorems": [
    "Verif.Props.C129_exact",
    "Verif.Props.C129_cause",
    "Verif.Props.C129_nil",
    "Verif.Props.C129_first"
   ],
   "note": "The calls that are reached are given by the relation UPanics over JSON trees (Spec/GenDec.lean). C129_exact: the method panics exactly when the node is not null and a call that panics is reached, and returns in all other cases; C129_cause: such a call is one of UnmarshalJSON or UnmarshalText on a pointer that is not nil, of a type with that method; C129_first: after an error no further method is called. The content of the variable after a panic is not modelled."
  },
  {
   "property": "C13",
   "status": "proved",
   "theorems": [
    "Verif.Props.C13_error_final"
   ],
   "note": ""
  },
  {
   "property": "C130",
   "status": "proved",
   "theorems": [
    "Verif.Props.C130_text",
    "Verif.Props.C130_encoder",
    "Verif.Props.C130_tree",
    "Verif.Props.C130_names",
    "Verif.Props.C130_errors",
    "Verif.Props.C130_collide"
   ],
   "note": "The order of iteration is the order of the list of entries in the model; SameVal relates two values that differ in these orders at any depth. C130_text: for every set of types and methods (methods that may see the orders in the order of members of their texts only, OrderBlind); C130_tree: without methods, as trees; C130_names: for trees without a name twice the difference is one that does not matter to Unmarshal (C120). Which error is returned, and whether there is an error or a panic, does depend on the order (C130_errors), and different keys that are not valid UTF-8 may be written as one name (C130_collide)."
  },
  {
   "property": "C131",
   "status": "proved",
   "theorems": [
    "Verif.Props.C131_text",
    "Verif.Props.C131_causes",
    "Verif.Props.C131_errors"
   ],
   "note": "As C130, for generated code; the maps that are written have keys that are numbers or booleans (NumKeys; with others generated code does not write JSON: C78_false_keys). Methods may see the order of iteration in the order of the members of their texts only (MethodsBlind)."
  },
  {
   "property": "C132",
   "status": "partial",
   "theorems": [
    "Verif.Props.C132_unmarshal_partial",
    "Verif.Props.C132_decoder_partial",
    "Verif.Props.C132_false"
   ],
   "note": "Proved for texts in which no object has a name twice. False of the code otherwise (C132_false): with {\"L\":[{\"X\":1}],\"L\":[{\"Y\":2},{}]} into a struct with a slice L of structs, the slice is made anew for the second L only the first time; when the text is read again the element of the first L shows through."
  },
  {
   "property": "C133",
   "status": "partial",
   "theorems": [
    "Verif.Props.C133_method_partial",
    "Verif.Props.C133_text_partial",
    "Verif.Props.C133_false",
    "Verif.Props.C133_false_names"
   ],
   "note": "Proved for JSON in which no object has a name twice, variables without slices that have elements, and structs of which no known field is part of another. False of the code otherwise: a slice that has to grow becomes too long (C79_false_slice) the first time, but gets the right length the second time (C133_false); a name that is there twice does the same to an empty variable (C133_false_names)."
  },
  {
   "property": "C134",
   "status": "proved",
   "theorems": [
    "Verif.Props.C134_method",
    "Verif.Props.C134_text",
    "Verif.Props.C134_errors",
    "Verif.Props.C134_apart"
   ],
   "note": "Also by example: calls that fail may leave different values, because what comes before the error is stored (C134_errors); if a field of a struct is a field of its own as well, the order matters (C134_apart). Both are outside the claim."
  },
  {
   "property": "C135",
   "status": "partial",
   "theorems": [
    "Verif.Props.C135_decoder",
    "Verif.Props.C135_cache_decoder",
    "Verif.Props.C135_cache_encoder",
    "Verif.Props.C135_encoder_partial",
    "Verif.Props.C135_false",
    "Verif.Props.C135_false_exists"
   ],
   "note": "Proved for NewTypeDecoder and both methods of Cache. False of NewTypeEncoder (C135_false): it returns the nil *typeEncoder of newTypeEncoder as an Encoder, which is not nil; Encode on it panics."
  },
  {
   "property": "C136",
   "status": "proved",
   "theorems": [
    "Verif.Props.C136_steps",
    "Verif.Props.C136_run",
    "Verif.Props.C136_new",
    "Verif.Props.C136_least",
    "Verif.Props.C136_full"
   ],
   "note": "Steps are counted by Model/ParserSteps.lean, which follows Parser.lean branch by branch: a step for each round of a loop over bytes, and for each node or child that is written, cleared, copied or allocated. 20 steps for a byte and 21 for a call. C136_least: the count is at least half of the bytes consumed. C136_full: the nodes of the document have to be counted, since one byte makes a full document copy its array, again at every call that fails."
  },
  {
   "property": "C137",
   "status": "proved",
   "theorems": [
    "Verif.Props.C137_parse",
    "Verif.Props.C137_bound",
    "Verif.Props.C137_deep",
    "Verif.Props.C137_nested",
    "Verif.Props.C137_append"
   ],
   "note": "Depths are counted by Model/Depth.lean, which follows Parser.lean and Node.lean branch by branch. With each call of parseValue in progress there is at most one of parseArray or parseObject."
  },
  {
   "property": "C138",
   "status": "partial",
   "theorems": [
    "Verif.Props.C138_nodes_partial",
    "Verif.Props.C138_text_partial",
    "Verif.Props.C138_history_partial",
    "Verif.Props.C138_doubles",
    "Verif.Props.C138_false"
   ],
   "note": "False of the code: 2n+2 calls make a document of n+1 nodes, without raw texts and keys, whose text has more than 2^n bytes (C138_doubles), so no factor bounds it (C138_false). Proved for documents in which no node has two parents, and for the call sequences of C29_no_sharing_partial, which build such documents."
  },
  {
   "property": "C139",
   "status": "proved",
   "theorems": [
    "Verif.Props.C139_parse",
    "Verif.Props.C139_new",
    "Verif.Props.C139_set",
    "Verif.Props.C139_replace",
    "Verif.Props.C139_append",
    "Verif.Props.C139_others",
    "Verif.Props.C139_grows",
    "Verif.Props.C139_replaced"
   ],
   "note": "C139_append gives the number for every list of values by a list of costs. A value has to have a tree (be live, not part of a loop), as in C22-C25; calls that do not apply change nothing (C114). C139_grows: no sequence of calls without Reset takes a node away."
  },
  {
   "property": "C14",
   "status": "partial",
   "theorems": [
    "Verif.Props.C14_eof_partial",
    "Verif.Props.C14_false",
    "Verif.Props.C14_exact"
   ],
   "note": "False as stated: 'fx' gives UnexpectedEOF but cannot be completed (negation proved). C14_exact gives the exact alternative: either some continuation is accepted, or the input ends in a mistyped literal of the reported type and every continuation fails, with the error it then gives."
  },
  {
   "property": "C140",
   "status": "partial",
   "theorems": [
    "Verif.Props.C140_exact",
    "Verif.Props.C140_made_partial",
    "Verif.Props.C140_safe_partial",
    "Verif.Props.C140_default",
    "Verif.Props.C140_false"
   ],
   "note": "False of the code: customOmiter calls method.Func.Type(), and for a method of an interface type Func is the zero reflect.Value, so that NewTypeEncoder, NewTypeDecoder, Marshal and Unmarshal panic for a struct with an omitempty field of type interface{ Omit() string } (C140_false). C140_exact says for which types it panics; when it does not, the omiter is the one that the other claims about codecs are about (C140_made_partial)."
  },
  {
   "property": "C141",
   "status": "proved",
   "theorems": [
    "Verif.Props.C141_get",
    "Verif.Props.C141_index",
    "Verif.Props.C141_empty",
    "Verif.Props.C141_chain",
    "Verif.Props.C141_split",
    "Verif.Props.C141_lookup"
   ],
   "note": "C141_empty lists what every call on such a Node returns. Lookup of an element of an array by its index is C32 (false for some keys that are no index)."
  },
  {
   "property": "C142",
   "status": "partial",
   "theorems": [
    "Verif.Props.C142_kept_partial",
    "Verif.Props.C142_lost",
    "Verif.Props.C142_node_partial",
    "Verif.Props.C142_generated",
    "Verif.Props.C142_false"
   ],
   "note": "False of the code for an empty node, whose AppendJSON returns nil (C142_node_partial), and for package unjson: if there is no encoder for the type of x, or for the type of a value in an interface{} anywhere in x, AppendJSON returns nil with the error, and what was in out is lost (C142_lost, C142_false). C142_kept_partial: in all other cases, with any error, the slice begins with out. That what is appended without an error does not depend on out is C87."
  },
  {
   "property": "C143",
   "status": "proved",
   "theorems": [
    "Verif.Props.C143_same",
    "Verif.Props.C143_different",
    "Verif.Props.C143_edits"
   ],
   "note": "The document states have fewer than 2^64 nodes per document. Not part of the content are ID, Document and the ids that an iteration gives. Values that are inserted must not contain the node (C28)."
  },
  {
   "property": "C144",
   "status": "partial",
   "theorems": [
    "Verif.Props.C144_built_partial",
    "Verif.Props.C144_parsed_partial",
    "Verif.Props.C144_api",
    "Verif.Props.C144_parsed",
    "Verif.Props.C144_false",
    "Verif.Props.C144_false_keys"
   ],
   "note": "Proved for two nodes that are built from escaped texts (string values and keys), with C144_api, and for two nodes that come from Parse, with C144_parsed. False of the code for a built node and a parsed one, as a string that ends in a backslash is misread (C144_false: three elements and four), and for keys that are not escaped (C144_false_keys)."
  },
  {
   "property": "C145",
   "status": "proved",
   "theorems": [
    "Verif.Props.C145_same",
    "Verif.Props.C145_linear",
    "Verif.Props.C145_exact"
   ],
   "note": "Steps are counted by Model/AppendSteps.lean, which C145_same shows to be AppendJSON. Writing bytes to the slice is not counted (in Go, amortised time in proportion to the bytes). Of a loop AppendJSON does not return (C28_cycles)."
  },
  {
   "property": "C146",
   "status": "proved",
   "theorems": [
    "Verif.Props.C146_ends",
    "Verif.Props.C146_back",
    "Verif.Props.C146_set_set",
    "Verif.Props.C146_set_del",
    "Verif.Props.C146_set_own",
    "Verif.Props.C146_append_remove",
    "Verif.Props.C146_replace_replace",
    "Verif.Props.C146_replace_own",
    "Verif.Props.C146_setter",
    "Verif.Props.C146_sharp"
   ],
   "note": "Edits are the setters, Set, Append, Replace, Slice, Remove and Del (not Strip, which edits several nodes). The second value must not contain the node: C146_sharp shows by example that it would be another value after the first call. Values have finite trees and close no loop, as in C22-C25."
  },
  {
   "property": "C147",
   "status": "proved",
   "theorems": [
    "Verif.Props.C147_stays",
    "Verif.Props.C147_until"
   ],
   "note": "Setters are SetInt, SetUint, SetFloat, SetString, SetStringHTML, SetStringRaw, SetTrue, SetFalse and SetNull; every other call, Strip too, keeps types and raw texts. What the children are is C22-C25 and C109."
  },
  {
   "property": "C148",
   "status": "proved",
   "theorems": [
    "Verif.Props.C148_marshal",
    "Verif.Props.C148_encoder",
    "Verif.Props.C148_field",
    "Verif.Props.C148_spare"
   ],
   "note": "Spec/UnShown.lean says when two values differ only in what is not written. C148_field and C148_spare show that fields that are not exported or tagged -, and elements behind the length, are such differences; a hidden field is in an example."
  },
  {
   "property": "C149",
   "status": "partial",
   "theorems": [
    "Verif.Props.C149_keeps_partial",
    "Verif.Props.C149_decoder_partial",
    "Verif.Props.C149_reads",
    "Verif.Props.C149_null",
    "Verif.Props.C149_skipped",
    "Verif.Props.C149_absent",
    "Verif.Props.C149_false"
   ],
   "note": "Proved for every JSON value but null. False of the code for null, which stores the zero value in the whole struct, also in fields that are not exported (C149_null, C149_false; encoding/json leaves the struct as it is). C149_reads is the claim for every place inside a variable where there is a struct. Types with unmarshal methods are left to the methods."
  },
  {
   "property": "C15",
   "status": "proved",
   "theorems": [
    "Verif.Props.C15_error_position"
   ],
   "note": ""
  },
  {
   "property": "C150",
   "status": "proved",
   "theorems": [
    "Verif.Props.C150_append",
    "Verif.Props.C150_field",
    "Verif.Props.C150_hidden",
    "Verif.Props.C150_spare",
    "Verif.Props.C150_seen"
   ],
   "note": "Spec/GenShown.lean says when two values differ only in what is not written. The counterpart of C148 for generated code; unlike there, a nil slice and a nil map are written like empty ones. Maps are iterated in the same order for both values (C131 is about the order)."
  },
  {
   "property": "C151",
   "status": "partial",
   "theorems": [
    "Verif.Props.C151_escaped",
    "Verif.Props.C151_append",
    "Verif.Props.C151_parts",
    "Verif.Props.C151_unescaped_partial",
    "Verif.Props.C151_both",
    "Verif.Props.C151_injective",
    "Verif.Props.C151_false"
   ],
   "note": "Proved for escaping. For unescaping the claim is false of a body that is cut between the two escapes of a pair of surrogates (C151_false), and it is proved for all cuts after which no such escape is left over directly before another one (C151_unescaped_partial)."
  },
  {
   "property": "C152",
   "status": "partial",
   "theorems": [
    "Verif.Props.C152_language",
    "Verif.Props.C152_kept",
    "Verif.Props.C152_rfc_partial",
    "Verif.Props.C152_numbers",
    "Verif.Props.C152_false"
   ],
   "note": "C152_language is exact, for the language that Parse accepts (C11). For RFC 8259 values the claim is false of strings that end in a backslash (C152_false: of two strings the first call reads more than the first, see C10); C152_rfc_partial is for all other ones."
  },
  {
   "property": "C153",
   "status": "partial",
   "theorems": [
    "Verif.Props.C153_times",
    "Verif.Props.C153_enough",
    "Verif.Props.C153_fixed",
    "Verif.Props.C153_again_partial",
    "Verif.Props.C153_false"
   ],
   "note": "C153_times is exact for every number of calls. False of the code for objects that have the key more than once (C153_false, as in C33); C153_again_partial is for all other trees, C153_enough says how many calls are needed, C153_fixed when a call changes nothing."
  },
  {
   "property": "C154",
   "status": "partial",
   "theorems": [
    "Verif.Props.C154_removes_partial",
    "Verif.Props.C154_order_partial",
    "Verif.Props.C154_false"
   ],
   "note": "Proved for the trees on which each of the calls removes its key (StripOk, C33), for any number of keys. False of the code for objects with duplicate keys: which of the members is left depends on the order of the calls (C154_false)."
  },
  {
   "property": "C16",
   "status": "proved",
   "theorems": [
    "Verif.Props.C16_parse_total",
    "Verif.Props.C16_node"
   ],
   "note": ""
  },
  {
   "property": "C17",
   "status": "proved",
   "theorems": [
    "Verif.Props.C17_parse_frame"
   ],
   "note": ""
  },
  {
   "property": "C18",
   "status": "proved",
   "theorems": [
    "Verif.Props.C18_reuse",
    "Verif.Props.C18_reset"
   ],
   "note": "Call sequences are lists of calls; a client that reacts to results is covered because the results are equal at every step. Nodes are compared up to the constant offset of the revision counter."
  },
  {
   "property": "C19",
   "status": "proved",
   "theorems": [
    "Verif.Props.C19_values_array",
    "Verif.Props.C19_values_object",
    "Verif.Props.C19_get",
    "Verif.Props.C19_index",
    "Verif.Props.C19_lookup_object",
    "Verif.Props.C19_lookup_array",
    "Verif.Props.C19_lookup"
   ],
   "note": "Stated for every node with a finite tree, not only parsed ones; C12/C13 give the tree of parsed nodes. C19_lookup is for paths of any length; which element a key selects in an array is stated exactly (C32_exact)."
  },
  {
   "property": "C20",
   "status": "proved",
   "theorems": [
    "Verif.Props.C20_stale"
   ],
   "note": ""
  },
  {
   "property": "C21",
   "status": "proved",
   "theorems": [
    "Verif.Props.C21_appendJSON"
   ],
   "note": "The model's AppendJSON has no access to the document for writing."
  },
  {
   "property": "C22",
   "status": "proved",
   "theorems": [
    "Verif.Props.C22_set",
    "Verif.Props.C22_set_get"
   ],
   "note": ""
  },
  {
   "property": "C23",
   "status": "proved",
   "theorems": [
    "Verif.Props.C23_del",
    "Verif.Props.C23_del_get"
   ],
   "note": ""
  },
  {
   "property": "C24",
   "status": "proved",
   "theorems": [
    "Verif.Props.C24_append",
    "Verif.Props.C24_append_index"
   ],
   "note": ""
  },
  {
   "property": "C25",
   "status": "partial",
   "theorems": [
    "Verif.Props.C25_replace",
    "Verif.Props.C25_replace_range",
    "Verif.Props.C25_remove",
    "Verif.Props.C25_slice_partial",
    "Verif.Props.C25_slice_end",
    "Verif.Props.C25_slice_false"
   ],
   "note": "Replace and Remove as stated. Slice(i, len) is a no-op in the code (it requires j < len), so the statement for Slice is false at j = len (negation proved); all other i, j are proved."
  },
  {
   "property": "C26",
   "status": "proved",
   "theorems": [
    "Verif.Props.C26_frame"
   ],
   "note": ""
  },
  {
   "property": "C27",
   "status": "proved",
   "theorems": [
    "Verif.Props.C27_documents_independent",
    "Verif.Props.C27_set_copies",
    "Verif.Props.C27_append_copies",
    "Verif.Props.C27_replace_copies"
   ],
   "note": ""
  },
  {
   "property": "C28",
   "status": "partial",
   "theorems": [
    "Verif.Props.C28_no_cycles_partial",
    "Verif.Props.C28_cycles",
    "Verif.Props.C28_false"
   ],
   "note": "False as stated: a.Append(b); b.Append(a) with two orphan arrays makes a cycle (negation proved: AppendJSON returns for no fuel). Proved for every call sequence from empty documents in which no orphan is inserted below itself and Append gets no dead node; C28_cycles: every call that does insert an orphan below itself makes AppendJSON of the target run forever, so the condition is exact."
  },
  {
   "property": "C29",
   "status": "partial",
   "theorems": [
    "Verif.Props.C29_no_sharing_partial",
    "Verif.Props.C29_shares",
    "Verif.Props.C29_false",
    "Verif.Props.C29_disjoint"
   ],
   "note": "False as stated: a copied root keeps its root flag and is linked a second time (negation proved). Proved for every call sequence in which linked orphans have no parent yet; C29_disjoint derives that trees sharing a node are nested; C29_shares: linking an orphan that has another parent always makes sharing."
  },
  {
   "property": "C30",
   "status": "partial",
   "theorems": [
    "Verif.Props.C30_serialises_partial",
    "Verif.Props.C30_dangles",
    "Verif.Props.C30_false"
   ],
   "note": "False as stated: Append of an invalid Node stores a dangling id (negation proved). Proved for every call sequence in which Append gets live nodes; C30_dangles: after Append of a dead node serialising the array never succeeds."
  },
  {
   "property": "C31",
   "status": "proved",
   "theorems": [
    "Verif.Props.C31_setString",
    "Verif.Props.C31_setLiteral",
    "Verif.Props.C31_setNumber"
   ],
   "note": ""
  },
  {
   "property": "C32",
   "status": "partial",
   "theorems": [
    "Verif.Props.C32_lookup_index_partial",
    "Verif.Props.C32_exact",
    "Verif.Props.C32_false",
    "Verif.Props.C32_wraps"
   ],
   "note": "C32_exact states what every key selects. False as stated: the empty key selects element 0 and numerals from 2^63 on wrap around (negations proved). Proved for non-empty keys of value below 2^63 and for keys with a non-digit."
  },
  {
   "property": "C33",
   "status": "partial",
   "theorems": [
    "Verif.Props.C33_strip_partial",
    "Verif.Props.C33_strip_exact",
    "Verif.Props.C33_strip_frame",
    "Verif.Props.C33_false",
    "Verif.Props.C33_leftovers"
   ],
   "note": "False as stated: only the first member with the key is removed per object and arrays are not descended into (negations proved). The exact resulting tree is proved for every document without sharing, and the property for trees with the key at most once per object and not below arrays."
  },
  {
   "property": "C34",
   "status": "proved",
   "theorems": [
    "Verif.Props.C34_next",
    "Verif.Props.C34_dead",
    "Verif.Props.C34_before_first",
    "Verif.Props.C34_len"
   ],
   "note": "For iterations without edits of the node; see C85 and C86 for edits during the iteration."
  },
  {
   "property": "C35",
   "status": "proved",
   "theorems": [
    "Verif.Props.C35_toInterface",
    "Verif.Props.C35_unique",
    "Verif.Props.C35_dead",
    "Verif.Props.C35_last_wins"
   ],
   "note": "ParseFloat is a parameter here; map keys are the raw keys."
  },
  {
   "property": "C36",
   "status": "partial",
   "theorems": [
    "Verif.Props.C36_reparse_partial",
    "Verif.Props.goodEnd_escaped",
    "Verif.Props.C36_false"
   ],
   "note": "False as stated: Text of a string ending in a backslash and without a quote serialises to text that Parse misreads (negation proved). Proved: reparsing succeeds exactly when every string value contains a quote or does not end in a backslash."
  },
  {
   "property": "C37",
   "status": "partial",
   "theorems": [
    "Verif.Props.C37_json",
    "Verif.Props.C37_tree",
    "Verif.Props.C37_invalid",
    "Verif.Props.C37_text_partial",
    "Verif.Props.C37_text_false"
   ],
   "note": "The WrapUnmarshalJSON half is proved in full. WrapUnmarshalText passes the raw escaped text instead of the string value (negation proved); proved for texts without escapes."
  },
  {
   "property": "C38",
   "status": "proved",
   "theorems": [
    "Verif.Props.C38_one_owner",
    "Verif.Props.C38_get_blank",
    "Verif.Props.C38_late_inert",
    "Verif.Props.C38_double_put"
   ],
   "note": "For documents reset fewer than 2^64 times (the revision counter wraps). sync.Pool is modelled as a bag with atomic operations."
  },
  {
   "property": "C39",
   "status": "proved",
   "theorems": [
    "Verif.Props.C39_types",
    "Verif.Props.C39_isValue",
    "Verif.Props.C39_distinct"
   ],
   "note": ""
  },
  {
   "property": "C40",
   "status": "partial",
   "theorems": [
    "Verif.Props.C40_malformed",
    "Verif.Props.C40_wellformed_partial",
    "Verif.Props.C40_exact",
    "Verif.Props.C40_false"
   ],
   "note": "C40_exact says exactly which numerals give NaN. Every text that is not a numeral gives NaN: proved for all texts. The converse is proved for exponents below 2^63 and is false beyond (0e-18446744073709551300 is NaN): negation proved."
  },
  {
   "property": "C41",
   "status": "proved",
   "theorems": [
    "Verif.Props.C41_exact",
    "Verif.Props.C41_rounded"
   ],
   "note": "Also for longer numerals."
  },
  {
   "property": "C42",
   "status": "partial",
   "theorems": [
    "Verif.Props.C42_parseInt_partial",
    "Verif.Props.C42_parseUint_partial",
    "Verif.Props.C42_small_partial",
    "Verif.Props.C42_setInt_partial",
    "Verif.Props.C42_lossy",
    "Verif.Props.C42_false",
    "Verif.Props.C42_parseInt",
    "Verif.Props.C42_parseUint",
    "Verif.Props.C42_text"
   ],
   "note": "False as stated: integers go through float64 (9007199254740993 reads as 9007199254740992 with ok; the largest int64 is rejected). C42_parseInt and C42_parseUint say for every decimal integer exactly when they succeed and what they return, C42_text for every text in terms of ParseFloat."
  },
  {
   "property": "C43",
   "status": "partial",
   "theorems": [
    "Verif.Props.C43_integers_partial",
    "Verif.Props.C43_long_fraction_partial",
    "Verif.Props.C43_large_exponent_partial",
    "Verif.Props.C43_fast_path_partial",
    "Verif.Props.C43_false",
    "Verif.Props.C43_false_exponent"
   ],
   "note": "False as stated (0.3 parses to 0.30000000000000004). Correct rounding is proved for integers of any length, fractions of more than 18 digits, exponents above 300 (unless the exponent has more than five digits and there are more than 9600 others: C43_false_exponent) and integers below 2^53 times 10^0..10^22; see C63 for an error bound on the rest."
  },
  {
   "property": "C44",
   "status": "partial",
   "theorems": [
    "Verif.Props.C44_partial",
    "Verif.Props.C44_false",
    "Verif.Props.C44_wraps"
   ],
   "note": "False as stated (18446744073709551617.0 parses to 1). Proved for numerals without exponent whose fraction is absent or longer than 18 digits. C44_wraps says what happens to the others: the digits count modulo 2^64."
  },
  {
   "property": "C45",
   "status": "proved",
   "theorems": [
    "Verif.Props.C45_exponent",
    "Verif.Props.C45_plain",
    "Verif.Props.C45_format",
    "Verif.Props.C45_format32",
    "Verif.Props.C45_other"
   ],
   "note": "strconv's shortest text is a parameter with the documented shape; the model of strconv has it (C117)."
  },
  {
   "property": "C46",
   "status": "proved",
   "theorems": [
    "Verif.Props.C46_tag",
    "Verif.Props.C46_field"
   ],
   "note": "reflect.StructTag.Lookup is taken as a lookup in a list of key/value pairs."
  },
  {
   "property": "C47",
   "status": "partial",
   "theorems": [
    "Verif.Props.C47_encodes",
    "Verif.Props.C47_valid_partial",
    "Verif.Props.C47_parse_partial",
    "Verif.Props.C47_false",
    "Verif.Props.C47_false_raw",
    "Verif.Props.C47_false_float"
   ],
   "note": "False as stated (strings with a backslash and no other escape, raw fields, float64 beyond float32). C47_encodes gives the exact tree for every value; valid and accepted by Parse when the strings are of good text and the floats fit float32."
  },
  {
   "property": "C48",
   "status": "partial",
   "theorems": [
    "Verif.Props.C48_exact",
    "Verif.Props.C48_leaves",
    "Verif.Props.C48_partial",
    "Verif.Props.C48_false",
    "Verif.Props.survives_comesBack",
    "Verif.Unjson.comesBack_decodes",
    "Verif.Unjson.conv",
    "Verif.Unjson.survives_back",
    "Verif.Props.repr64_small"
   ],
   "note": "C48_exact: exactly the values that the inductive predicate ComesBack describes come back (types in which no struct has two written fields of one name; strings and floats that are written as JSON). C48_partial: For every value that the inductive predicate Survives describes (booleans, integers that are a float64, strings of valid UTF-8 not ending in a backslash unless they contain a quote, floats whose text is read back, pointers, non-nil slices, arrays, nil maps, structs with distinct names incl. embedded structs, contents of interface{}) of a supported type without marshal/unmarshal methods: when Marshal returns a text, Unmarshal of it into a zero variable stores the same value. The claim as stated is false of the code: C48_false has eight counterexamples (nil slice, 2^53+1, empty map, pointer to nil pointer, embedded pointer, map panics, escaped map key, invalid UTF-8)."
  },
  {
   "property": "C49",
   "status": "partial",
   "theorems": [
    "Verif.Props.C49_reported_partial",
    "Verif.Props.C49_no_false_alarm",
    "Verif.Props.C49_swallowed",
    "Verif.Props.C49_false"
   ],
   "note": "False as stated: decoding a JSON array into a slice or an array never returns an error (C49_swallowed, for all types); the slice is cut before the first element that does not fit. Proved for types without slices and arrays."
  },
  {
   "property": "C50",
   "status": "partial",
   "theorems": [
    "Verif.Props.C50_types",
    "Verif.Props.C50_partial",
    "Verif.Props.C50_no_pointer",
    "Verif.Props.C50_nil_map",
    "Verif.Props.C50_nil_pointer",
    "Verif.Props.C50_false"
   ],
   "note": "C50_types: exactly the types into which Unmarshal can panic (zero variable). False as stated: every nil map and every nil pointer destination panics (proved for all types), also maps with defined key types and defined empty interface types. Proved for types without maps and for non-nil maps of such types."
  },
  {
   "property": "C51",
   "status": "partial",
   "theorems": [
    "Verif.Props.C51_signed_partial",
    "Verif.Props.C51_unsigned_partial",
    "Verif.Props.C51_stored",
    "Verif.Props.C51_narrow",
    "Verif.Props.C51_false",
    "Verif.Props.C51_signed",
    "Verif.Props.C51_unsigned",
    "Verif.Props.C51_rejected",
    "Verif.Props.C51_itself",
    "Verif.Props.C51_text_signed",
    "Verif.Props.C51_text_unsigned"
   ],
   "note": "False as stated: narrow types wrap (C51_narrow, for all of them), numbers go through float64. C51_signed and C51_unsigned say for every decimal integer and every integer type exactly what is stored, C51_rejected which integers are rejected, C51_text_* the same for numbers of every form in terms of ParseFloat."
  },
  {
   "property": "C52",
   "status": "partial",
   "theorems": [
    "Verif.Props.C52_single_partial",
    "Verif.Props.C52_shortest_partial",
    "Verif.Props.C52_false"
   ],
   "note": "False for float64 (the text has float32 precision); proved for values of float32. strconv's text is a parameter with the documented shape; with the model of strconv it is the shortest decimal of the nearest float32 (C52_shortest_partial)."
  },
  {
   "property": "C53",
   "status": "partial",
   "theorems": [
    "Verif.Props.C53_members",
    "Verif.Props.C53_omit_partial",
    "Verif.Props.C53_false"
   ],
   "note": "The members are exactly the kept fields in order. False for arrays of zeros (length 2, left out); the exact rule is proved instead."
  },
  {
   "property": "C54",
   "status": "partial",
   "theorems": [
    "Verif.Props.C54_decoding_field",
    "Verif.Props.C54_fields",
    "Verif.Props.C54_unique_partial",
    "Verif.Props.C54_false"
   ],
   "note": "False when a shallower field follows a deeper one of the same name; the exact set of used fields is proved, and the claim for all other types."
  },
  {
   "property": "C55",
   "status": "proved",
   "theorems": [
    "Verif.Props.C55_same",
    "Verif.Props.C55_stable",
    "Verif.Props.C55_race_free",
    "Verif.Props.C55_progress"
   ],
   "note": "all interleavings of any number of goroutines calling Decoder and Encoder; two calls for one type return the same object or the same error; an entry is never replaced; also no data race on the maps, no write to a nil map, no deadlock. sync.RWMutex is modelled by its documentation."
  },
  {
   "property": "C56",
   "status": "proved",
   "theorems": [
    "Verif.Props.C56_reads",
    "Verif.Props.C56_writes",
    "Verif.Props.C56_stream",
    "Verif.Props.C56_values",
    "Verif.Props.C56_last_partial",
    "Verif.Props.C56_last_false"
   ],
   "note": "for every buffer size >= 2 and every way the reader delivers the content (no 100 empty reads in a row, end of file with or after the last piece); texts without newline (proved for values without marshal methods: marshal_oneLine). C56_last_false: a last line without newline that fills the buffer of bufio is lost, Decode returns io.EOF; outside the claim, LineEncoder ends every line with a newline."
  },
  {
   "property": "C57",
   "status": "proved",
   "theorems": [
    "Verif.Props.C57_any_buffer",
    "Verif.Props.C57_empty_buffer",
    "Verif.Props.C57_short_panics"
   ],
   "note": ""
  },
  {
   "property": "C58",
   "status": "proved",
   "theorems": [
    "Verif.Props.C58_names_distinct",
    "Verif.Props.C58_invalid"
   ],
   "note": ""
  },
  {
   "property": "C59",
   "status": "proved",
   "theorems": [
    "Verif.Props.C59_info",
    "Verif.Props.C59_isValue"
   ],
   "note": ""
  },
  {
   "property": "C60",
   "status": "proved",
   "theorems": [
    "Verif.Props.C60_printJSON"
   ],
   "note": ""
  },
  {
   "property": "C61",
   "status": "partial",
   "theorems": [
    "Verif.Props.C61_partial",
    "Verif.Props.C61_false",
    "Verif.Props.C61_close_partial",
    "Verif.Props.C61_zero",
    "Verif.Props.C61_go_partial",
    "Verif.Props.C61_false_go"
   ],
   "note": "False as stated (the float nearest to 0.3). Proved for numbers printed without point and exponent (integral, below 1e21) and for zero. For every finite number the one read back has the same sign and differs by at most a 2^48th part (C61_close_partial), under what strconv documents about its shortest texts (Spec/NumBack.lean), which holds of the model of strconv (C61_go_partial, C61_false_go)."
  },
  {
   "property": "C62",
   "status": "proved",
   "theorems": [
    "Verif.Props.C62_nonfinite",
    "Verif.Props.C62_minus_inf"
   ],
   "note": "Stated for a document with one value; by C31 and C01 a number node writes its text in every document."
  },
  {
   "property": "C63",
   "status": "proved",
   "theorems": [
    "Verif.Props.C63_error"
   ],
   "note": "Assumes no fused multiply-add (as on amd64)."
  },
  {
   "property": "C64",
   "status": "partial",
   "theorems": [
    "Verif.Props.C64_exact",
    "Verif.Props.C64_partial",
    "Verif.Props.C64_false"
   ],
   "note": "C64_exact: exactly the number and string nodes whose text is a numeral in range succeed, with the value. The claim is false for string nodes whose text is a numeral; proved for all nodes whose raw text is not a numeral."
  },
  {
   "property": "C65",
   "status": "proved",
   "theorems": [
    "Verif.Props.C65_typed"
   ],
   "note": "For types without unmarshal methods; what a method does to the variable is arbitrary."
  },
  {
   "property": "C66",
   "status": "proved",
   "theorems": [
    "Verif.Props.C66_first_value"
   ],
   "note": "For types without unmarshal methods."
  },
  {
   "property": "C67",
   "status": "proved",
   "theorems": [
    "Verif.Props.C67_reject"
   ],
   "note": ""
  },
  {
   "property": "C68",
   "status": "proved",
   "theorems": [
    "Verif.Props.C68_encodes",
    "Verif.Props.inForce_exists"
   ],
   "note": "For types without marshal methods and without an omit method."
  },
  {
   "property": "C69",
   "status": "proved",
   "theorems": [
    "Verif.Props.C69_decodes",
    "Verif.Props.C69_from_node"
   ],
   "note": "For types without unmarshal methods."
  },
  {
   "property": "C70",
   "status": "proved",
   "theorems": [
    "Verif.Props.C70_encoder",
    "Verif.Props.C70_decoder",
    "Verif.Props.C70_nil"
   ],
   "note": "A nil pointer makes Encode panic (Type of the zero reflect.Value)."
  },
  {
   "property": "C71",
   "status": "proved",
   "theorems": [
    "Verif.Props.C71_encoder",
    "Verif.Props.C71_decoder"
   ],
   "note": ""
  },
  {
   "property": "C72",
   "status": "proved",
   "theorems": [
    "Verif.Props.C72_encoder",
    "Verif.Props.C72_decoder",
    "Verif.Props.C72_marshal",
    "Verif.Props.C72_unmarshal",
    "Verif.Props.C72_example"
   ],
   "note": "Divergence in the model is: no amount of fuel gives a result (C73_fuel, C74_fuel: results do not depend on fuel)."
  },
  {
   "property": "C73",
   "status": "proved",
   "theorems": [
    "Verif.Props.C73_fuel",
    "Verif.Props.C73_returns",
    "Verif.Props.C73_returns_any",
    "Verif.Props.C73_success"
   ],
   "note": ""
  },
  {
   "property": "C74",
   "status": "proved",
   "theorems": [
    "Verif.Props.C74_fuel",
    "Verif.Props.C74_returns",
    "Verif.Props.C74_endless"
   ],
   "note": "C74_returns includes types with unmarshal methods, which are functions of the universe and so terminate by assumption."
  },
  {
   "property": "C75",
   "status": "proved",
   "theorems": [
    "Verif.Props.C75_round",
    "Verif.Unjson.survives_parts"
   ],
   "note": "The class is the inductive predicate Survives; slices come back with capacity trimmed (GV.trim)."
  },
  {
   "property": "C76",
   "status": "partial",
   "theorems": [
    "Verif.Props.C76_append_partial",
    "Verif.Props.C76_append_never",
    "Verif.Props.C76_append_false"
   ],
   "note": "Exact characterisation of the types for which the generated method compiles (ACompiles). The claim is false of the code: fields of type interface{}, pointers to anything but structs or types with methods, defined string types, structs without fields, and types that are not structs give code that does not compile. The compiler is modelled by what the Go specification says about the code in the templates."
  },
  {
   "property": "C77",
   "status": "proved",
   "theorems": [
    "Verif.Props.C77_append_ends",
    "Verif.Props.C77_append_supported",
    "Verif.Props.C77_append_false"
   ],
   "note": "C77_append_false: type T struct { Next *T } makes the generator recurse without end."
  },
  {
   "property": "C78",
   "status": "partial",
   "theorems": [
    "Verif.Props.C78_writes_partial",
    "Verif.Props.C78_valid_partial",
    "Verif.Props.C78_exact",
    "Verif.Props.C78_nil",
    "Verif.Props.C78_example",
    "Verif.Props.C78_false_keys",
    "Verif.Props.C78_false_float",
    "Verif.Props.C78_false_raw",
    "Verif.Props.C78_false_iface"
   ],
   "note": "The written text is a function of type and value; an error is returned exactly when a method that is called to write it fails, and there is a panic exactly when such a method panics (C78_exact; if one fails and another panics, the first decides). For values whose maps have boolean or number keys, floats are finite, names need no escaping, without raw fields and interface types with methods; Parse reads the text iff every string contains a quote or does not end in a backslash. The claim is false of the code for the rest: map[string]T gives {\"\"k\"\":1} (and a key can inject members), NaN is written, raw strings are not escaped, a nil json.Marshaler panics."
  },
  {
   "property": "C79",
   "status": "partial",
   "theorems": [
    "Verif.Props.C79_stores_partial",
    "Verif.Props.C79_returned",
    "Verif.Props.C79_one",
    "Verif.Props.C79_accepts",
    "Verif.Props.C79_keeps",
    "Verif.Props.C79_text",
    "Verif.Props.C79_false_slice",
    "Verif.Props.C79_false_slice_general",
    "Verif.Props.C79_false_types",
    "Verif.Props.C79_false_null",
    "Verif.Props.C79_false_keys"
   ],
   "note": "What is stored and which error is returned is given exactly by the relation GDec over JSON trees, a function of type, content and tree (C79_one); accepted trees exactly (C79_accepts); other fields keep their content, also on errors (C79_keeps). The claim as stated is false of the code: a slice that grows keeps zeros at its end, a number sets a string to the empty string without an error, strings with numerals are taken as numbers, narrow integers wrap, null for a struct field is an error, names written with escapes are not recognised. Unmarshal methods and time.Parse are parameters; the methods may panic, then the generated method panics (C129), else they leave behind a value of the type (UHooks)."
  },
  {
   "property": "C80",
   "status": "partial",
   "theorems": [
    "Verif.Props.C80_roundtrip_partial",
    "Verif.Props.C80_example",
    "Verif.Props.C80_false"
   ],
   "note": "The two methods may be generated with different iteration orders. For every value that the inductive predicate Reads describes (integers and floats that come back from their text, strings of valid UTF-8 that do not end in a backslash unless they contain a quote, pointers, slices, nil and empty maps, structs with distinct names, no methods): what comes back is related to the value by Back (equal except that empty slices become nil, nil maps become empty, members left out by omitempty are zero), and is written as the same text. The claim as stated is false of the code: C80_false (2^53+1, empty slices, invalid UTF-8, backslash, maps with entries, two fields with one name). Maps with entries never come back: generated AppendJSON is right only for keys that generated UnmarshalNodeJSON does not compile for."
  },
  {
   "property": "C81",
   "status": "partial",
   "theorems": [
    "Verif.Props.C81_names",
    "Verif.Props.C81_winner",
    "Verif.Props.C81_order",
    "Verif.Props.C81_members",
    "Verif.Props.C81_order_free_partial",
    "Verif.Props.C81_false"
   ],
   "note": "All of it except independence of the iteration order, which holds if no two fields with the same name have the same tag text (C81_order_free_partial) and is false otherwise (C81_false)."
  },
  {
   "property": "C82",
   "status": "partial",
   "theorems": [
    "Verif.Props.C82_returns_partial",
    "Verif.Props.C82_false"
   ],
   "note": "False of the code for a type that gets AppendJSON from an embedded type: the generated method shadows the promoted one and calls itself."
  },
  {
   "property": "C83",
   "status": "partial",
   "theorems": [
    "Verif.Props.C83_compiles_partial",
    "Verif.Props.C83_never",
    "Verif.Props.C83_false"
   ],
   "note": "Exact characterisation of the types for which the generated method compiles (UCompiles). The claim is false of the code: fields of type interface{}, time.Duration, types with UnmarshalNodeJSON, maps with keys other than string or interface{}, and structs without readable fields give code that does not compile."
  },
  {
   "property": "C84",
   "status": "partial",
   "theorems": [
    "Verif.Props.C84_supported",
    "Verif.Props.C84_one",
    "Verif.Props.C84_names",
    "Verif.Props.C84_winner",
    "Verif.Props.C84_order_free_partial",
    "Verif.Props.C84_false_order",
    "Verif.Props.C84_false_recursive",
    "Verif.Props.C84_false_skipped"
   ],
   "note": "All of it for fields of the types in Can, except independence of the iteration order, which holds if no two fields that take part have the same name and is false otherwise (C84_false_order). Fields of array types are skipped even if they have unmarshal methods (C84_false_skipped). For recursive types the generator does not return (C84_false_recursive)."
  },
  {
   "property": "C85",
   "status": "proved",
   "theorems": [
    "Verif.Props.C85_count",
    "Verif.Props.C85_adds",
    "Verif.Props.C85_assigns",
    "Verif.Props.C85_slices",
    "Verif.Props.C85_stale",
    "Verif.Props.C85_slice_add"
   ],
   "note": "One node and one iterator over it, any sequence of calls on the two; the capacity that append chooses is a parameter of each call. C85_stale: whether an assigned value is seen depends on whether the array was replaced before. C85_slice_add: Slice and then Append overwrites children that the iterator has not visited."
  },
  {
   "property": "C86",
   "status": "partial",
   "theorems": [
    "Verif.Props.C86_del",
    "Verif.Props.C86_remove",
    "Verif.Props.C86_ahead_partial",
    "Verif.Props.C86_skips",
    "Verif.Props.C86_false"
   ],
   "note": "What is seen after one Del or Remove is given exactly (C86_del, C86_remove). The claim holds when the deleted member was not yet visited (C86_ahead_partial), apart from a zero entry at the end. It is false of the code for the member the iterator is at: C86_skips (in general), C86_false (a loop that deletes everything leaves half)."
  },
  {
   "property": "C87",
   "status": "partial",
   "theorems": [
    "Verif.Props.C87_exact",
    "Verif.Props.C87_total",
    "Verif.Props.C87_encoder",
    "Verif.Props.C87_rejects",
    "Verif.Props.C87_one",
    "Verif.Props.C87_argument_partial",
    "Verif.Props.C87_pointer_receiver",
    "Verif.Props.C87_false",
    "Verif.Props.C87_order"
   ],
   "note": "What is written, which error is returned and when it panics is given exactly by the relation WArg over types and values (C87_exact, C87_encoder), which has one outcome (C87_one); the types that are refused exactly (C87_rejects). Methods of the type of the argument are used (C87_argument_partial). The claim is false of the code (C87_false): marshal methods of struct types are ignored in fields without tag options, also behind pointers, slices and maps, unless the type has unmarshal methods; methods with pointer receiver make Marshal panic; so does a nil interface value; the output of MarshalText is not escaped. C87_order: for types with unmarshal but without marshal methods what is written depends on the order of the fields. Methods of the program may panic; AppendJSON methods are assumed to append, interface types to have no omit method (Program)."
  },
  {
   "property": "C88",
   "status": "partial",
   "theorems": [
    "Verif.Props.C88_valid_partial",
    "Verif.Props.C88_encoder_partial"
   ],
   "note": "For types whose field names need no escaping and whose fields have no 8bit hint, values whose floats fit a float32, options that reject NaN and infinities, and MarshalText methods whose output needs no escaping; Parse reads the text if the strings in it end well (C10). Each of these restrictions is needed: C47_false_raw, C47_false_float, C87_false, C10."
  },
  {
   "property": "C89",
   "status": "partial",
   "theorems": [
    "Verif.Props.C89_exact",
    "Verif.Props.C89_total",
    "Verif.Props.C89_decoder",
    "Verif.Props.C89_from_node",
    "Verif.Props.C89_refused",
    "Verif.Props.C89_one",
    "Verif.Props.C89_typed",
    "Verif.Props.C89_first_value",
    "Verif.Props.C89_argument_partial",
    "Verif.Props.C89_inside",
    "Verif.Props.C89_false",
    "Verif.Props.C89_order"
   ],
   "note": "What the argument holds afterwards, which error is returned and when Unmarshal panics is given exactly by the relation ReadsArg over types, contents and JSON trees (C89_exact, C89_decoder, C89_from_node), which has one outcome (C89_one); the types that are refused exactly (C89_refused); Unmarshal returns (C89_total). Methods of the argument are used (C89_argument_partial), and methods of the type of an element itself (C89_inside). The claim is false of the code (C89_false): methods with pointer receiver (time.Time) are not looked for in fields and elements; for a nil pointer the method is called on nil; UnmarshalText gets the string with its escapes; nil interface values with methods make Unmarshal panic. C89_order: for struct types with unmarshal but without marshal methods what is read into a field depends on the fields before it. Methods of the program may panic; they are assumed to leave a value of the type behind and to look at the tree of their node only (Reading). Arguments whose type is an interface type do not occur in Go."
  },
  {
   "property": "C90",
   "status": "partial",
   "theorems": [
    "Verif.Props.C90_lookup",
    "Verif.Props.C90_parse",
    "Verif.Props.C90_field",
    "Verif.Props.C90_any",
    "Verif.Props.C90_any_text",
    "Verif.Props.C90_entries",
    "Verif.Props.C90_false"
   ],
   "note": "For conventional tags the claim holds (C90_lookup, C90_parse, C90_field), and for texts of any form Lookup is given exactly (C90_any_text, C90_entries; C90_any). It is false for tags that are not UTF-8 (C90_false): parseTag compares the index of the comma in the unquoted value with the length of the quoted tag, and each bad byte becomes three bytes, so an option can be taken for a part of the name."
  },
  {
   "property": "C91",
   "status": "partial",
   "theorems": [
    "Verif.Props.C91_exact",
    "Verif.Props.C91_agrees_partial",
    "Verif.Props.C91_false"
   ],
   "note": "What ParseFieldTag returns is given exactly (C91_exact); it uses the same name and never misses omitempty (C91_agrees_partial). The claim is false of the code (C91_false): any option that contains the word omitempty counts."
  },
  {
   "property": "C92",
   "status": "partial",
   "theorems": [
    "Verif.Props.C92_set_partial",
    "Verif.Props.C92_one_byte",
    "Verif.Props.C92_tables",
    "Verif.Props.C92_isSpace",
    "Verif.Props.C92_fromHex_false"
   ],
   "note": "Holds for texts in quotes or with at least two bytes (C92_set_partial) and for the tables of the packages (C92_tables: every entry). False for a single byte without quotes, which gives an empty table (C92_one_byte); no argument prints the committed table IsSpace under its name (C92_isSpace), and FromHex takes all letters for digits (C92_fromHex_false)."
  },
  {
   "property": "C93",
   "status": "proved",
   "theorems": [
    "Verif.Props.C93_lines",
    "Verif.Props.C93_accepting",
    "Verif.Props.C93_print",
    "Verif.Props.C93_new"
   ],
   "note": "For every writer, as a function of its own state that returns a count, an error or nil, and a new state."
  },
  {
   "property": "C94",
   "status": "proved",
   "theorems": [
    "Verif.Props.C94_token",
    "Verif.Props.C94_wanted",
    "Verif.Props.C94_found",
    "Verif.Props.C94_longest",
    "Verif.Props.C94_differs",
    "Verif.Props.C94_eof"
   ],
   "note": "For every document and text. Values are those of the language that Parse accepts (C11)."
  },
  {
   "property": "C95",
   "status": "proved",
   "theorems": [
    "Verif.Props.C95_quoted",
    "Verif.Props.C95_determines",
    "Verif.Props.C95_typeError"
   ],
   "note": "fmt's verbs %q, %v, %s, %d and strconv.Quote are modelled after the source of Go 1.13; which characters above U+00FF are printable is a parameter."
  },
  {
   "property": "C96",
   "status": "partial",
   "theorems": [
    "Verif.Props.C96_succeeds_partial",
    "Verif.Props.C96_methods_partial",
    "Verif.Props.C96_load",
    "Verif.Props.C96_false",
    "Verif.Props.C96_case"
   ],
   "note": "Exactly when the command succeeds (C96_succeeds_partial) and exactly what it generates (C96_methods_partial), for at most one type argument. False of the code for more: type arguments after the first are ignored (C96_false). C96_case: an unknown mode of -case is the same as none. Packages regexp, go/types and alxarch/meta and the file system are parameters."
  },
  {
   "property": "C97",
   "status": "partial",
   "theorems": [
    "Verif.Props.C97_imports",
    "Verif.Props.C97_header",
    "Verif.Props.C97_compiles_partial",
    "Verif.Props.C97_false",
    "Verif.Props.C97_false_declared"
   ],
   "note": "Exact characterisation of when the file compiles (C97_compiles_partial). The claim is false of the code: a package named like a standard package (strconv, time, json by path) does not import it (C97_false), and types that already have one of the methods get a second one (C97_false_declared); types whose name begins with an underscore or a character outside ASCII give no code or code that does not compile; and C76, C83."
  },
  {
   "property": "C98",
   "status": "partial",
   "theorems": [
    "Verif.Props.C98_writes",
    "Verif.Props.C98_untouched",
    "Verif.Props.C98_others",
    "Verif.Props.C98_name",
    "Verif.Props.C98_filename",
    "Verif.Props.C98_known",
    "Verif.Props.C98_again_partial",
    "Verif.Props.C98_false",
    "Verif.Props.C98_false_example"
   ],
   "note": "All of it except that a failing run changes no file: the file is emptied before the output is formatted, so the output of the run before is lost and every later run fails to load the package (C98_false). C98_again_partial: the parser accepts the file that was written, and no file of that name was written by hand."
  },
  {
   "property": "C99",
   "status": "partial",
   "theorems": [
    "Verif.Props.C99_reset",
    "Verif.Props.C99_adds",
    "Verif.Props.C99_first_partial",
    "Verif.Props.C99_false"
   ],
   "note": "The first call after generating prints everything. False of the code for the next one: printing empties the buffer, also when it fails (C99_false)."
  }
 ]
}