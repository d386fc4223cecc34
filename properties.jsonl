{"id": "C01", "title": "Escape then unescape is the identity on UTF-8 text", "statement": "For every valid UTF-8 string s and either value of the HTML flag, Unescaped(Escaped(s, HTML, false)) returns exactly s.", "quantifier": "every valid UTF-8 byte string of any length, both HTML settings", "why_tests_cant": "The domain of byte strings is infinite; tests sample a handful of literals.", "anchors": ["strjson/escape.go:Escaped", "strjson/unescape.go:Unescaped"]}
{"id": "C02", "title": "Escaping repairs invalid UTF-8 by U+FFFD and loses nothing else", "statement": "For every byte string s (valid UTF-8 or not), Unescaped(Escaped(s, HTML, false)) is s with each byte that does not start a well-formed UTF-8 sequence replaced by U+FFFD (EF BF BD), everything else unchanged.", "quantifier": "every byte string of any length, both HTML settings", "why_tests_cant": "The domain of byte strings is infinite; tests sample a handful of literals.", "anchors": ["strjson/escape.go:Escaped", "strjson/unescape.go:Unescaped"]}
{"id": "C03", "title": "Escaped output is always a legal JSON string body", "statement": "For every byte string s, Escaped(s, HTML, false) is a sequence of RFC 8259 string characters (no raw control byte, no unescaped quote, every backslash starts a legal escape), it is valid UTF-8, contains no DEL byte and no U+2028/U+2029; with HTML set it contains no '<', '>' or '&'.", "quantifier": "every byte string of any length, both HTML settings", "why_tests_cant": "The domain of byte strings is infinite; tests sample a handful of literals.", "anchors": ["strjson/escape.go:Escaped", "strjson/bytemaps.go:bytemapToJSON"]}
{"id": "C04", "title": "AppendEscaped appends exactly what Escaped returns", "statement": "For every buffer dst and string s, AppendEscaped(dst, s, HTML) equals dst followed by Escaped(s, HTML, false), and Escaped(s, HTML, true) is the same text between two double quotes.", "quantifier": "every destination buffer, every byte string, both HTML settings", "why_tests_cant": "Two separately written loops must agree on every input; a test compares them on a dozen literals.", "anchors": ["strjson/escape.go:AppendEscaped", "strjson/escape.go:Escaped"]}
{"id": "C05", "title": "Unescape into a large enough buffer is safe and equals Unescaped", "statement": "For every string s and every buffer at least as long as s, Unescape(dst, s) does not panic, writes only inside the buffer, returns n <= len(s), dst[:n] equals Unescaped(s) and dst[n:] is not modified.", "quantifier": "every byte string (including malformed escapes), every buffer content of length >= len(s)", "why_tests_cant": "The documented sizing guarantee ('a buffer with the same size as the input is big enough for all cases') is a universal bound over all inputs.", "anchors": ["strjson/unescape.go:Unescape", "strjson/unescape.go:writeStringAt", "strjson/unescape.go:Unescaped"]}
{"id": "C06", "title": "AppendUnescaped appends exactly what Unescaped returns, whatever the spare capacity", "statement": "For every dst (any length, any capacity, any bytes in its spare capacity) and every s, AppendUnescaped(dst, s) equals dst followed by Unescaped(s).", "quantifier": "every destination slice with every capacity and spare content, every byte string", "why_tests_cant": "Correctness must not depend on leftover bytes in spare capacity or on which of two allocation branches runs.", "anchors": ["strjson/unescape.go:AppendUnescaped"]}
{"id": "C07", "title": "Unescaped implements JSON string semantics", "statement": "For every legal JSON string body, Unescaped returns the UTF-8 text it denotes: two-character escapes, \\uXXXX of any scalar value, surrogate pairs combined, a lone surrogate read as U+FFFD and the text after it kept.", "quantifier": "every RFC 8259 string body of any length", "why_tests_cant": "The domain of byte strings is infinite; tests sample a handful of literals.", "anchors": ["strjson/unescape.go:Unescaped", "strjson/bytemaps.go:bytemapFromHex"]}
{"id": "C08", "title": "Unescaped never grows its input and is the identity without backslashes", "statement": "For every byte string s, len(Unescaped(s)) <= len(s); if s has no backslash, Unescaped(s) = s.", "quantifier": "every byte string of any length", "why_tests_cant": "The domain of byte strings is infinite; tests sample a handful of literals.", "anchors": ["strjson/unescape.go:Unescaped"]}
{"id": "C09", "title": "Parse - serialise - parse is stable", "statement": "For every input s that Parse accepts, serialising the root gives text that Parse accepts with an empty tail and the same tree, so serialising again gives the same bytes.", "quantifier": "every accepted input of any size and nesting depth", "why_tests_cant": "The domain of byte strings is infinite; tests sample a handful of literals.", "anchors": ["parser.go:Parse", "document.go:appendJSON"]}
{"id": "C10", "title": "Every RFC 8259 text is accepted with the tree it denotes", "statement": "For every JSON text in the sense of RFC 8259, Parse succeeds and the returned node's tree (types, raw scalars, keys, order of children) is the one the text denotes.", "quantifier": "every RFC 8259 JSON text, any nesting depth", "why_tests_cant": "The domain of byte strings is infinite; tests sample a handful of literals.", "anchors": ["parser.go:parseValue", "parser.go:parseArray", "parser.go:parseObject"]}
{"id": "C11", "title": "Parse accepts exactly its documented-by-code language", "statement": "There is an inductively defined grammar (JSON with unvalidated number tails and string bodies) such that Parse succeeds with tree t and tail r exactly when the input is white space, a text of t, and r.", "quantifier": "every byte string", "why_tests_cant": "The domain of byte strings is infinite; tests sample a handful of literals.", "anchors": ["parser.go:parseValue", "parser.go:parseArray", "parser.go:parseObject"]}
{"id": "C12", "title": "Appending text after a complete value does not change how it parses", "statement": "If Parse(s) succeeds with tail r and the value is not a top-level number touching the end of s, then for every t Parse(s+t) succeeds with the same tree and tail r+t; and s is always the consumed text followed by the tail.", "quantifier": "every accepted input, every suffix", "why_tests_cant": "Quantifies over all continuations of a stream.", "anchors": ["parser.go:Parse"]}
{"id": "C13", "title": "A ParseError is final", "statement": "If Parse(s) returns a *ParseError, then for every t Parse(s+t) returns a *ParseError of the same type at the same position.", "quantifier": "every rejected input, every suffix", "why_tests_cant": "Quantifies over all continuations: retrying with more data can never help.", "anchors": ["parser.go:Parse", "error.go:ParseError"]}
{"id": "C14", "title": "UnexpectedEOF means more input can help", "statement": "If Parse(s) returns UnexpectedEOF, it hands s back unchanged and there is a continuation t such that Parse(s+t) succeeds ('Caller can append more data and re-parse').", "quantifier": "every truncated input", "why_tests_cant": "An existential over continuations for each of infinitely many inputs.", "anchors": ["parser.go:Parse", "error.go:UnexpectedEOF"]}
{"id": "C15", "title": "Error positions point into the input", "statement": "If Parse(s) returns a *ParseError e then 0 <= e.Pos() < len(s), the returned tail is empty and the returned Node is the zero Node.", "quantifier": "every rejected input", "why_tests_cant": "The domain of byte strings is infinite; tests sample a handful of literals.", "anchors": ["parser.go:abort", "error.go:ParseError"]}
{"id": "C16", "title": "Parse terminates and never indexes out of range", "statement": "For every document state and every input, Parse returns (it neither loops nor panics); on success the returned node id is the previous node count and every child id stored is smaller than the new node count and larger than its parent's.", "quantifier": "every document (any reuse history), every byte string", "why_tests_cant": "Termination and absence of panics are universal statements.", "anchors": ["parser.go:Parse", "parser.go:node", "parser.go:appendV"]}
{"id": "C17", "title": "Parsing never disturbs nodes already in the document", "statement": "After any Parse on a document, successful or not, every node that existed before has the same type, raw value and children; a failed Parse leaves the document's node count and revision unchanged.", "quantifier": "every document state, every input", "why_tests_cant": "The parser writes into the document's own backing array; that no live node is touched must hold for every input and state.", "anchors": ["parser.go:Parse", "parser.go:parser", "parser.go:node"]}
{"id": "C18", "title": "Reused documents are indistinguishable from fresh ones", "statement": "The outcome of any sequence of calls on a document does not depend on what its spare node capacity and spare value capacity contain: after Reset, Parse and all node operations give the same results as on a new Document.", "quantifier": "every earlier use of the document, every later call sequence", "why_tests_cant": "The leftovers are the product of an unbounded history.", "anchors": ["parser.go:node", "parser.go:appendV", "document.go:Reset", "document.go:grow", "document.go:ncopy"]}
{"id": "C19", "title": "Navigation of a parsed node agrees with the parsed tree", "statement": "For every parsed object or array node, Values() lists the children in textual order with their keys, Get(k) is the first member whose key is k (or an invalid node when there is none), Index(i) is the i-th element, and Lookup(path...) is the iterated Get/Index.", "quantifier": "every parsed tree, every key, every index, every path", "why_tests_cant": "The domain of byte strings is infinite; tests sample a handful of literals.", "anchors": ["node.go:Get", "node.go:Index", "node.go:Lookup", "node.go:Values", "document.go:lookup"]}
{"id": "C20", "title": "Nodes from before Reset or Close are inert", "statement": "After a document has been Reset (or Closed) at least once and fewer than 2^64 times since a Node was obtained, every read through that Node returns the invalid/zero result and every mutation through it leaves every document unchanged.", "quantifier": "every Node, every history of resets and later document contents", "why_tests_cant": "Histories of API calls are unbounded; tests exercise a few fixed short sequences.", "anchors": ["node.go:get", "node.go:Document", "document.go:Reset", "document.go:Close"]}
{"id": "C21", "title": "AppendJSON appends the compact JSON of the node's tree", "statement": "For every node whose tree is t and every dst, AppendJSON(dst) returns dst followed by the compact serialisation of t and no error, and it does not modify the document.", "quantifier": "every document state, every node with a finite tree, every dst", "why_tests_cant": "The domain of byte strings is infinite; tests sample a handful of literals.", "anchors": ["document.go:appendJSON", "node.go:AppendJSON"]}
{"id": "C22", "title": "Set then Get", "statement": "After n.Set(k, v) on an object node with a valid value, n.Get(k) has v's tree (as it was before the call); every other key's first value is unchanged; the number of members grows by one exactly when k was absent.", "quantifier": "every acyclic document state, every object node, key and value (same or other document) that does not contain the target", "why_tests_cant": "Histories of API calls are unbounded; tests exercise a few fixed short sequences.", "anchors": ["node.go:Set", "document.go:copyOrAdopt", "document.go:ncopy"]}
{"id": "C23", "title": "Del removes exactly the first member with the key", "statement": "After n.Del(k) the members are those before minus the first one whose key is k (as a multiset); if keys are distinct Get(k) is invalid and every other key is unchanged; if k is absent nothing changes.", "quantifier": "every document state, every object node, every key", "why_tests_cant": "Histories of API calls are unbounded; tests exercise a few fixed short sequences.", "anchors": ["node.go:Del"]}
{"id": "C24", "title": "Append then Index", "statement": "After n.Append(v1..vm) on an array of length l with valid values, its length is l+m, Index(i) for i<l is unchanged and Index(l+j) has the tree vj had before the call.", "quantifier": "every acyclic document state, every array node, every list of values that do not contain the target", "why_tests_cant": "Histories of API calls are unbounded; tests exercise a few fixed short sequences.", "anchors": ["node.go:Append", "document.go:copyOrAdopt"]}
{"id": "C25", "title": "Replace, Remove and Slice act on exactly the addressed elements", "statement": "On an array of length l: Replace(i, v) changes only element i to v's tree; Remove(i) deletes element i and keeps the order of the rest; Slice(i, j) keeps exactly elements i..j-1 for all 0 <= i < j <= l; out-of-range arguments change nothing.", "quantifier": "every document state, every array node, every index", "why_tests_cant": "Histories of API calls are unbounded; tests exercise a few fixed short sequences.", "anchors": ["node.go:Replace", "node.go:Remove", "node.go:Slice"]}
{"id": "C26", "title": "A mutation is visible only through trees that contain the mutated node", "statement": "After any single mutation of node n (SetX, Set, Del, Append, Replace, Remove, Slice), every node whose tree did not contain n has exactly the tree it had before, in every document.", "quantifier": "every document state, every mutation, every other node", "why_tests_cant": "Histories of API calls are unbounded; tests exercise a few fixed short sequences.", "anchors": ["node.go:Set", "node.go:Del", "node.go:Append", "node.go:Replace", "node.go:Remove", "node.go:Slice", "document.go:node.reset"]}
{"id": "C27", "title": "Values taken from another document are deep copies", "statement": "After n.Set/Append/Replace with a value from another document, no later sequence of mutations of the source document changes n's tree, and vice versa.", "quantifier": "every pair of documents, every later mutation sequence", "why_tests_cant": "Histories of API calls are unbounded; tests exercise a few fixed short sequences.", "anchors": ["document.go:copyOrAdopt", "document.go:ncopy"]}
{"id": "C28", "title": "Building a document never creates a cycle", "statement": "Starting from any documents produced by Parse and the constructors, after any sequence of Set/Append/Replace every node has a finite tree, so AppendJSON terminates.", "quantifier": "every sequence of API calls", "why_tests_cant": "Histories of API calls are unbounded; tests exercise a few fixed short sequences.", "anchors": ["document.go:copyOrAdopt", "node.go:Set", "node.go:Append", "node.go:Replace"]}
{"id": "C29", "title": "A node never ends up with two parents", "statement": "After any sequence of Set/Append/Replace, no node id occurs twice among the children of the document, so mutating one subtree never changes another.", "quantifier": "every sequence of API calls", "why_tests_cant": "Histories of API calls are unbounded; tests exercise a few fixed short sequences.", "anchors": ["document.go:copyOrAdopt", "document.go:ncopy"]}
{"id": "C30", "title": "Serialisation never fails on a document built from valid calls", "statement": "After any sequence of constructor and mutation calls, AppendJSON of every live node whose tree is finite returns no error.", "quantifier": "every sequence of API calls, including calls given stale or zero Nodes", "why_tests_cant": "Histories of API calls are unbounded; tests exercise a few fixed short sequences.", "anchors": ["node.go:Append", "node.go:Set", "node.go:Replace", "document.go:appendJSON"]}
{"id": "C31", "title": "Setters are read back by the matching getters", "statement": "After n.SetString(s) (or SetStringHTML) on a live node with s valid UTF-8, n.Unescaped() = s and Type() is String; after SetTrue/SetFalse ToBool returns the value; after SetNull Type() is Null; the children are dropped and the serialisation is the scalar.", "quantifier": "every live node, every previous content, every valid UTF-8 string", "why_tests_cant": "The domain of byte strings is infinite; tests sample a handful of literals.", "anchors": ["node.go:SetString", "node.go:SetStringRaw", "node.go:SetTrue", "node.go:SetFalse", "node.go:SetNull"]}
{"id": "C32", "title": "Lookup addresses array elements by their decimal index", "statement": "For an array node, Lookup(key) selects element i exactly when key is a non-empty decimal numeral of value i with i < length, and otherwise yields an invalid node.", "quantifier": "every array, every key string of any length", "why_tests_cant": "The domain of byte strings is infinite; tests sample a handful of literals.", "anchors": ["document.go:lookup"]}
{"id": "C33", "title": "Strip removes the key everywhere below the node", "statement": "After n.Strip(k) no object in n's tree has a member with key k, and nothing else is removed.", "quantifier": "every document state with a finite tree at n, every key", "why_tests_cant": "Histories of API calls are unbounded; tests exercise a few fixed short sequences.", "anchors": ["node.go:Strip"]}
{"id": "C34", "title": "Iteration visits every child exactly once, in order", "statement": "Calling Next until it returns false yields, in order, exactly the children; Index() is the running position; once Next has returned false it keeps returning false until Reset; Reset restarts from the first child; Close ends the iteration for good.", "quantifier": "every node, every sequence of Next/Reset/Close calls", "why_tests_cant": "Histories of API calls are unbounded; tests exercise a few fixed short sequences.", "anchors": ["node.go:IterV"]}
{"id": "C35", "title": "ToInterface is the tree as Go values", "statement": "For every node with a finite tree, ToInterface returns the corresponding Go value: arrays in order, objects as maps in which the last duplicate wins, strings unescaped; it fails exactly when some number in the tree does not parse.", "quantifier": "every finite tree", "why_tests_cant": "The domain of byte strings is infinite; tests sample a handful of literals.", "anchors": ["document.go:toInterface", "document.go:toInterfaceMap", "document.go:toInterfaceSlice"]}
{"id": "C36", "title": "Documents built through the API serialise to text that parses back", "statement": "For every tree whose strings were produced by escaping and whose keys are escaped text, serialising and parsing returns the same tree with empty tail.", "quantifier": "every finite tree built from Text/SetString values, well-formed numbers and escaped keys", "why_tests_cant": "The domain of byte strings is infinite; tests sample a handful of literals.", "anchors": ["document.go:appendJSON", "document.go:Text", "parser.go:Parse"]}
{"id": "C37", "title": "Custom unmarshalers receive exactly the node's JSON", "statement": "WrapUnmarshalJSON passes to UnmarshalJSON exactly the bytes AppendJSON(nil) yields for every valid node, and returns a type error without calling it for invalid nodes; WrapUnmarshalText passes the string value and only for String nodes.", "quantifier": "every node", "why_tests_cant": "The domain of byte strings is infinite; tests sample a handful of literals.", "anchors": ["node.go:WrapUnmarshalJSON", "node.go:WrapUnmarshalText"]}
{"id": "C38", "title": "A pooled document is blank and has one owner", "statement": "If callers Put a document at most once per Get, then at every point of every interleaving no two holders own the same document and Get returns a document with no nodes whose revision differs from every Node handed out before.", "quantifier": "every interleaving of Get and Put by any number of goroutines, any choice the pool makes (including dropping documents)", "why_tests_cant": "Quantifies over schedules and over the nondeterminism of sync.Pool.", "anchors": ["document.go:Pool", "document.go:Get", "document.go:Put", "document.go:Close"]}
{"id": "C39", "title": "A type mask decomposes into its types", "statement": "For every Type t, Types() returns exactly the single-bit types contained in t, each once, in increasing order, and their union is t; IsValue is true exactly for masks meeting one of the six JSON types.", "quantifier": "all 256 masks", "why_tests_cant": "Finite, but the mask arithmetic is only tested on a few values.", "anchors": ["types.go:Types", "types.go:IsValue"]}
{"id": "C40", "title": "ParseFloat rejects exactly the malformed numbers", "statement": "ParseFloat(s) is NaN exactly when s is not of the form -?digits[.digits][(e|E)[+-]*digits]; in particular every RFC 8259 number parses.", "quantifier": "every byte string", "why_tests_cant": "The domain of byte strings is infinite; tests sample a handful of literals.", "anchors": ["numjson/numjson.go:ParseFloat"]}
{"id": "C41", "title": "Small integers parse exactly", "statement": "For every decimal numeral of at most 18 digits with absolute value at most 2^53, with or without a leading minus, ParseFloat returns exactly that integer.", "quantifier": "every such numeral, leading zeros included", "why_tests_cant": "About 10^16 values.", "anchors": ["numjson/numjson.go:ParseFloat"]}
{"id": "C42", "title": "ToInt and ParseInt return the exact integer or fail", "statement": "If s is the decimal form of an int64 i then ParseInt(s) = (i, true), so SetInt(i) followed by ToInt returns (i, true).", "quantifier": "every int64", "why_tests_cant": "2^64 values.", "anchors": ["numjson/numjson.go:ParseInt", "node.go:ToInt", "node.go:SetInt"]}
{"id": "C43", "title": "ParseFloat is correctly rounded", "statement": "For every JSON number, ParseFloat returns the float64 nearest to its decimal value (as strconv.ParseFloat does).", "quantifier": "every JSON number", "why_tests_cant": "The domain of byte strings is infinite; tests sample a handful of literals.", "anchors": ["numjson/numjson.go:ParseFloat"]}
{"id": "C44", "title": "Long digit strings never wrap around", "statement": "For every JSON number whose integer part exceeds 2^64 the parsed value is not smaller than 2^63: digit accumulation does not overflow silently.", "quantifier": "every JSON number of any length", "why_tests_cant": "The domain of byte strings is infinite; tests sample a handful of literals.", "anchors": ["numjson/numjson.go:ParseFloat"]}
{"id": "C45", "title": "FormatFloat only strips a zero from a two-digit negative exponent", "statement": "AppendFloat(dst, f, bits) keeps dst as a prefix and its text is strconv's shortest form with a trailing e-0d rewritten to e-d and nothing else changed; the numeral denotes the same number.", "quantifier": "every float, every dst", "why_tests_cant": "Universal over strconv outputs and buffers.", "anchors": ["numjson/format.go:AppendFloat"]}
{"id": "C46", "title": "Struct tags are parsed as a name and a set of hints", "statement": "For every tag text, the field name is the part before the first comma and omitempty/8bit/html is on exactly when it occurs as one of the comma-separated options after it.", "quantifier": "every tag string", "why_tests_cant": "The domain of byte strings is infinite; tests sample a handful of literals.", "anchors": ["unjson/options.go:parseTag", "unjson/options.go:parseHints"]}
{"id": "C47", "title": "Marshal produces valid JSON", "statement": "For every value of a supported type without custom marshalers, AppendJSON(out, x) either fails leaving no partial claim or returns out followed by a text that Parse accepts with an empty tail.", "quantifier": "every supported type, every value", "why_tests_cant": "The domain of byte strings is infinite; tests sample a handful of literals.", "anchors": ["unjson/encode.go", "unjson/codec.go:encode"]}
{"id": "C48", "title": "Unmarshal inverts Marshal", "statement": "For every supported type and value, Unmarshal(Marshal(x)) into a zero variable of the type yields x.", "quantifier": "every supported type, every value", "why_tests_cant": "The domain of byte strings is infinite; tests sample a handful of literals.", "anchors": ["unjson/encode.go", "unjson/decode.go", "unjson/codec.go"]}
{"id": "C49", "title": "Decoding errors are reported", "statement": "If some element of a JSON array cannot be decoded into the element type, Unmarshal returns an error.", "quantifier": "every slice/array type, every JSON array", "why_tests_cant": "The domain of byte strings is infinite; tests sample a handful of literals.", "anchors": ["unjson/decode.go:sliceDecoder", "unjson/decode.go:arrayDecoder"]}
{"id": "C50", "title": "Unmarshal never panics", "statement": "For every JSON text and every destination of a supported type, Unmarshal returns normally.", "quantifier": "every supported type, every JSON text, every destination content", "why_tests_cant": "The domain of byte strings is infinite; tests sample a handful of literals.", "anchors": ["unjson/decode.go:mapDecoder", "unjson/decode.go"]}
{"id": "C51", "title": "Integers that do not fit are rejected", "statement": "Unmarshal of a JSON integer outside the range of the destination integer type returns an error instead of storing another number.", "quantifier": "every integer width, every JSON number", "why_tests_cant": "The domain of byte strings is infinite; tests sample a handful of literals.", "anchors": ["unjson/decode.go:intDecoder", "unjson/decode.go:uintDecoder"]}
{"id": "C52", "title": "float64 values are marshalled with full precision", "statement": "Marshal of a float64 x yields a numeral that denotes x.", "quantifier": "every finite float64", "why_tests_cant": "2^64 values.", "anchors": ["unjson/encode.go:newEncoder", "unjson/encode.go:floatEncoder"]}
{"id": "C53", "title": "omitempty drops exactly the empty values", "statement": "A struct field with omitempty is left out of the output exactly when it is the empty value of its type (false, 0, nil, zero length); fields without omitempty are always written, in declaration order.", "quantifier": "every struct type of supported fields, every value", "why_tests_cant": "The domain of byte strings is infinite; tests sample a handful of literals.", "anchors": ["unjson/omit.go:newOmiter", "unjson/codec.go:encode"]}
{"id": "C54", "title": "Field resolution prefers shallower fields", "statement": "When two fields of a struct (through embedding) have the same JSON name, the shallower one is used for both encoding and decoding, and each name is emitted at most once.", "quantifier": "every tree of embedded structs", "why_tests_cant": "The domain of byte strings is infinite; tests sample a handful of literals.", "anchors": ["unjson/codec.go:merge", "unjson/codec.go:cmpIndex", "unjson/codec.go:Get"]}
{"id": "C55", "title": "The codec cache hands out one codec per type", "statement": "For every interleaving of concurrent Decoder (or Encoder) calls on one Cache, all calls for the same type return the same codec, and a cached codec is never replaced.", "quantifier": "every number of goroutines, every interleaving", "why_tests_cant": "Quantifies over schedules.", "anchors": ["unjson/cache.go:Decoder", "unjson/cache.go:Encoder"]}
{"id": "C56", "title": "Line streams decode to the encoded sequence", "statement": "Writing any sequence of values with LineEncoder and reading them back with LineDecoder yields the texts line by line, each parsed on its own, for every chunking of the underlying reader.", "quantifier": "every sequence of values whose encodings contain no newline, every ReadLine chunking", "why_tests_cant": "Histories of API calls are unbounded; tests exercise a few fixed short sequences.", "anchors": ["unjson/stream.go:LineDecoder", "unjson/stream.go:LineEncoder"]}
{"id": "C57", "title": "Unescape never writes outside its buffer", "statement": "For every destination buffer, of any length, and every string: if Unescape returns n then n is at most the buffer length, the bytes from n on are unchanged and the buffer keeps its length; with an empty buffer it returns 0.", "quantifier": "every buffer, every byte string", "why_tests_cant": "The domain of byte strings is infinite; tests sample a handful of literals.", "anchors": ["strjson/unescape.go:Unescape"]}
{"id": "C58", "title": "Type names identify type masks", "statement": "String() is different for any two masks made of the six JSON types; outside them exactly TypeInvalid and the two unused single bits print InvalidToken.", "quantifier": "all pairs of the 256 masks", "why_tests_cant": "Finite, but only a few values are tested.", "anchors": ["types.go:String"]}
{"id": "C59", "title": "Type and root flag of a node do not interfere", "statement": "For every info word and type: constructors store their type with the root flag, setters store their type and keep the flag, Parse and adoption change the flag and keep the type.", "quantifier": "all 65536 info words, all 256 types", "why_tests_cant": "The flag is internal; its corruption only shows in later insertions.", "anchors": ["types.go:info", "node.go:SetNull", "document.go:copyOrAdopt"]}
{"id": "C60", "title": "PrintJSON writes exactly the node's JSON", "statement": "PrintJSON passes to the writer exactly the bytes of AppendJSON(nil) when that succeeds, and nothing when it fails.", "quantifier": "every node", "why_tests_cant": "The domain of byte strings is infinite; tests sample a handful of literals.", "anchors": ["node.go:PrintJSON"]}
{"id": "C61", "title": "SetFloat and ToFloat are inverse", "statement": "SetFloat(f) followed by ToFloat returns (f, true) for every finite float64 f.", "quantifier": "every finite float64", "why_tests_cant": "2^64 values.", "anchors": ["node.go:SetFloat", "node.go:ToFloat", "numjson/format.go:FormatFloat"]}
{"id": "C62", "title": "NaN and infinities become invalid JSON without an error", "statement": "Number and SetFloat accept NaN and +Inf; AppendJSON then returns the bytes NaN or +Inf without an error, and Parse rejects them. A negative infinity is written as -Inf, which Parse takes for a number although it is none.", "quantifier": "NaN and +Inf", "why_tests_cant": "A defect nobody thought of testing.", "anchors": ["document.go:Number", "numjson/format.go:AppendFloat"]}
{"id": "C63", "title": "ParseFloat is off by at most a few units in the last place", "statement": "For every numeral whose integer and fraction digits fit in an uint64, with an exponent of at most 300 in size and a value that is zero or between 1e-307 and 1e308, ParseFloat returns a finite float whose relative error is at most 2^-49.", "quantifier": "every such numeral", "why_tests_cant": "The number of numerals is astronomical and the error is largest on rare ones.", "anchors": ["numjson/numjson.go:ParseFloat"]}
{"id": "C64", "title": "Numeric accessors succeed only on numbers", "statement": "ToFloat, ToInt and ToUint report ok = false on every node that is not of number type.", "quantifier": "every node", "why_tests_cant": "Depends on the raw text of every type.", "anchors": ["node.go:ToFloat", "node.go:ToInt", "node.go:ToUint"]}
{"id": "C65", "title": "Unmarshal leaves a value of the right type", "statement": "Whatever the text and whatever error is returned, after Unmarshal into a variable of type T the variable holds a value of type T: integers are in range, slices are no longer than their backing array, arrays have their length, structs all their fields, recursively.", "quantifier": "every type without unmarshal methods, every JSON text, every destination content", "why_tests_cant": "Quantifies over all types and texts.", "anchors": ["unjson/decode.go", "unjson/codec.go"]}
{"id": "C66", "title": "Unmarshal depends on the first value of the text only", "statement": "The result of Unmarshal (content, error or panic) is determined by the type, the content of the destination and the first JSON value of the text: it depends neither on what follows that value, which is not checked, nor on white space before it, nor on the document taken from the pool.", "quantifier": "every two texts with the same first value, every two pooled documents", "why_tests_cant": "Relates pairs of executions.", "anchors": ["unjson/unjson.go:UnmarshalFromString", "unjson/unjson.go:Unmarshal"]}
{"id": "C67", "title": "A text that does not parse leaves the destination alone", "statement": "If Parse rejects the text then Unmarshal returns an error and the destination keeps its content.", "quantifier": "every text that Parse rejects, every destination", "why_tests_cant": "The set of rejected texts is infinite.", "anchors": ["unjson/unjson.go:UnmarshalFromString"]}
{"id": "C68", "title": "Encoder options mean what they say", "statement": "An Encoder made with options encodes a value (or what a pointer points to) as the JSON tree given by the encoding rules under those options: field names from the tags with key Options.Tag (\"json\" when empty), omit method Options.OmitMethod (\"Omit\" when empty), OmitEmpty, AllowNaN and AllowInf as given; the text is appended to the output. Otherwise it returns an error.", "quantifier": "all options, every type and value without marshal methods, every output prefix", "why_tests_cant": "The domain of byte strings is infinite; tests sample a handful of literals.", "anchors": ["unjson/options.go:normalize", "unjson/encode.go:NewTypeEncoder", "unjson/encode.go:Encode"]}
{"id": "C69", "title": "A Decoder applies to every node of every document", "statement": "A Decoder made by NewTypeDecoder(typ, tag), and UnmarshalFromNode, decode any node of any document, root or not, parsed or built by hand, exactly as the decoding rules say for the JSON tree below the node, with field names from the tags with the given key.", "quantifier": "every tag key, every destination without unmarshal methods, every node with a JSON tree", "why_tests_cant": "The domain of byte strings is infinite; tests sample a handful of literals.", "anchors": ["unjson/decode.go:NewTypeDecoder", "unjson/unjson.go:UnmarshalFromNode"]}
{"id": "C70", "title": "Values of a wrong type are rejected unchanged", "statement": "An Encoder returns an error and the unchanged output for nil and for every value whose type is neither its type nor a pointer to it, and panics for every nil pointer; a Decoder for a pointer type returns an error for nil and for every value of another type and leaves it alone; AppendJSON(out, nil) appends null; Unmarshal into nil or a non-pointer is an error.", "quantifier": "every type and value, every output prefix, every node and text", "why_tests_cant": "The domain of byte strings is infinite; tests sample a handful of literals.", "anchors": ["unjson/encode.go:Encode", "unjson/decode.go:Decode", "unjson/unjson.go:AppendJSON"]}
{"id": "C71", "title": "Codecs exist for every supported type", "statement": "NewTypeEncoder and NewTypeDecoder terminate and return a codec for every type whose components are all supported, including recursive types, as long as no struct embeds itself.", "quantifier": "every supported type, all options", "why_tests_cant": "Recursion over all types, including cyclic ones.", "anchors": ["unjson/encode.go:NewTypeEncoder", "unjson/decode.go:NewTypeDecoder", "unjson/codec.go:merge"]}
{"id": "C72", "title": "A struct that embeds itself makes codec construction diverge", "statement": "For every struct type that embeds (a pointer to) itself, directly or through other embedded structs, NewTypeEncoder, NewTypeDecoder, Marshal and Unmarshal do not return.", "quantifier": "every such type without marshal methods, all options", "why_tests_cant": "Non-termination is not observable by a test.", "anchors": ["unjson/codec.go:merge"]}
{"id": "C73", "title": "Marshal terminates, and fails only for a reason", "statement": "AppendJSON returns for every value without marshal methods whose types (dynamic ones included) are finite; it returns no error when all types are supported and all floats finite, and the text then is that of the tree given by the encoding rules.", "quantifier": "every such type and value, every output prefix", "why_tests_cant": "Termination and success over all values.", "anchors": ["unjson/unjson.go:AppendJSON", "unjson/encode.go", "unjson/codec.go"]}
{"id": "C74", "title": "Unmarshal terminates", "statement": "Unmarshal returns for every text and every destination of a type that does not embed itself and contains no endless chain of pointers; for a destination with an endless chain of pointers (type P *P) it returns for no text whose value is not null.", "quantifier": "every text, every destination", "why_tests_cant": "Termination over all texts and types.", "anchors": ["unjson/unjson.go:Unmarshal", "unjson/decode.go", "unjson/codec.go"]}
{"id": "C75", "title": "Marshal then Unmarshal both return and give the value back", "statement": "For every value built from booleans, integers that are exact as float64, floats whose text reads back, strings of valid UTF-8 that survive escaping, pointers to non-nil-pointer values, non-nil slices, arrays, nil maps, structs with distinct names and JSON contents of interface{}: Marshal returns a text without an error and Unmarshal of that text into a zero variable returns no error and stores the value.", "quantifier": "every such value of every supported type without endless pointers or self-embedding, every pooled document", "why_tests_cant": "The domain of byte strings is infinite; tests sample a handful of literals.", "anchors": ["unjson/unjson.go:Marshal", "unjson/unjson.go:Unmarshal"]}
{"id": "C76", "title": "Generated AppendJSON methods compile", "statement": "For every type for which the generator returns an AppendJSON method without an error, the method compiles.", "quantifier": "every package, every type in it, all generator options", "why_tests_cant": "The domain of byte strings is infinite; tests sample a handful of literals.", "anchors": ["internal/generator/append.go:Appender", "internal/generator/append.go:TypeAppender"]}
{"id": "C77", "title": "The AppendJSON generator terminates, and supports exactly the documented types", "statement": "The generator of AppendJSON returns for a type exactly when the type is not recursive through the fields that take part (types with marshal methods end the recursion); it returns code exactly for the types made of booleans, numbers, strings, empty interfaces, pointers, slices, maps, structs and types with marshal methods, without struct fields that have omitempty and no omit method; what it returns is the same every time.", "quantifier": "every package, every type in it, all generator options", "why_tests_cant": "Recursion over all types, including cyclic ones.", "anchors": ["internal/generator/append.go:TypeAppender", "internal/generator/append.go:StructAppender", "internal/generator/append.go:TypeOmiter"]}
{"id": "C78", "title": "Generated AppendJSON methods write valid JSON for the value", "statement": "A generated AppendJSON method appends null for a nil receiver and otherwise a JSON text for the value: an object with a member for every field that takes part and is not omitted, elements of slices in order, entries of maps under their keys, escaped strings, shortest floats, the output of marshal methods as it is; Parse reads it back as that tree. It returns an error only if a marshal method does, and never panics.", "quantifier": "every struct type for which the generated method compiles, every value of it, every output prefix", "why_tests_cant": "The domain of byte strings is infinite; tests sample a handful of literals.", "anchors": ["internal/generator/append.go"]}
{"id": "C81", "title": "A generated AppendJSON method writes each name once, and always for the same field", "statement": "The fields that take part have different names; every field that is not left out shares its name with one of them; among fields with one name the one with the smallest tag text is written; members are ordered by tag text; the method does not depend on the order in which the generator iterates over the map of fields.", "quantifier": "every package, every struct type, all generator options, every iteration order", "why_tests_cant": "Iteration over maps is random; the orders are n! many.", "anchors": ["internal/generator/append.go:StructAppender", "internal/generator/options.go:parseField"]}
{"id": "C82", "title": "A generated AppendJSON method returns", "statement": "For every type, generated AppendJSON returns (or panics) on every receiver.", "quantifier": "every package, every type in it, every receiver", "why_tests_cant": "Non-termination is not observable by a test.", "anchors": ["internal/generator/append.go:Appender", "internal/generator/append.go:TypeAppender"]}
{"id": "C79", "title": "Generated UnmarshalNodeJSON methods store what the JSON denotes", "statement": "A generated UnmarshalNodeJSON method returns for every node, unless an unmarshal method that it calls panics; null leaves the value alone without an error; otherwise the value is changed to what the JSON tree denotes (members of objects into the fields with their names, elements of arrays into slices, members into maps, null into pointers, slices and maps makes them nil), or an error is returned when the tree does not fit the type. Fields that are not named in the object keep their content; the variable holds a value of its type afterwards.", "quantifier": "every type for which the generated method compiles, every content of the variable, every node and every text", "why_tests_cant": "The domain of byte strings is infinite; tests sample a handful of literals.", "anchors": ["internal/generator/unmarshal.go"]}
{"id": "C83", "title": "Generated UnmarshalNodeJSON methods compile", "statement": "For every type for which the generator returns an UnmarshalNodeJSON method without an error, the method compiles.", "quantifier": "every package, every type in it, all generator options", "why_tests_cant": "The domain of byte strings is infinite; tests sample a handful of literals.", "anchors": ["internal/generator/unmarshal.go:Unmarshaler", "internal/generator/unmarshal.go:TypeUnmarshaler"]}
{"id": "C84", "title": "The UnmarshalNodeJSON generator knows the fields of a struct, always the same", "statement": "The generator of UnmarshalNodeJSON returns code exactly for the finite types made of booleans, numbers, strings, empty interfaces, pointers, slices, maps, structs, times, durations and types with unmarshal methods; the fields that the code knows have different names, and every field that takes part shares its name with one of them; which fields these are does not depend on the order in which the generator iterates over the map of fields.", "quantifier": "every package, every type in it, all generator options, every iteration order", "why_tests_cant": "Recursion over all types; iteration over maps is random.", "anchors": ["internal/generator/unmarshal.go:TypeUnmarshaler", "internal/generator/unmarshal.go:StructUnmarshaler", "internal/generator/options.go:parseField"]}
{"id": "C80", "title": "Generated methods are inverse to each other", "statement": "For every type for which both generated methods compile: the text that AppendJSON writes for a value is accepted by Parse, UnmarshalNodeJSON of it into a zero value of the type returns no error, and the value found there is the one that was written; AppendJSON of it writes the same text again.", "quantifier": "every type for which both generated methods compile, every value of it, every document that Parse is called on", "why_tests_cant": "The domain of byte strings is infinite; tests sample a handful of literals.", "anchors": ["internal/generator/append.go", "internal/generator/unmarshal.go"]}
{"id": "C85", "title": "Children may be added and assigned during an iteration", "statement": "Whatever is done to a node during an iteration over its Values(), Next returns true exactly as often as the node had children at the time of Values(). If members with new keys or elements are added meanwhile, the iteration yields the children that were there, in their order; if children are assigned, the keys are still the ones that were there; if the node is only sliced, the iteration is not disturbed.", "quantifier": "every node, every sequence of calls of Next and of methods of the node in any order, every choice of capacities by append", "why_tests_cant": "The domain of byte strings is infinite; tests sample a handful of literals.", "anchors": ["node.go:Values", "node.go:Next", "node.go:Set", "node.go:Append"]}
{"id": "C86", "title": "Children may be deleted during an iteration", "statement": "If a member is deleted (Del) or an element is removed (Remove) during an iteration, the iteration yields all the other children that were not yet visited, and nothing else.", "quantifier": "every node, every point of the iteration, every child", "why_tests_cant": "The domain of byte strings is infinite; tests sample a handful of literals.", "anchors": ["node.go:Del", "node.go:Remove", "node.go:Next"]}
{"id": "C87", "title": "Marshal uses the marshal methods of types", "statement": "Wherever Marshal writes a value of a type with AppendJSON, MarshalJSON or MarshalText, it writes what the method returns (AppendJSON before MarshalJSON before MarshalText, the output of MarshalText as a JSON string), and returns an error if the method does; omitempty asks the omit method of a type that has one. What is written is a function of the options, the type and the value; the types that are refused are refused with one error.", "quantifier": "every set of types and methods, every value of every type, all options, every output prefix", "why_tests_cant": "The domain of byte strings is infinite; tests sample a handful of literals.", "anchors": ["unjson/encode.go", "unjson/cache.go:96-109", "unjson/codec.go:130-137", "unjson/omit.go"]}
{"id": "C88", "title": "Marshal writes JSON if the marshal methods do", "statement": "If the AppendJSON and MarshalJSON methods of the program give JSON texts, then what Marshal and AppendJSON of package unjson append without an error is a JSON text (RFC 8259), and Parse reads it.", "quantifier": "every set of types and methods, every value of every type, all options, every output prefix", "why_tests_cant": "The domain of byte strings is infinite; tests sample a handful of literals.", "anchors": ["unjson/encode.go", "unjson/codec.go", "unjson/unjson.go"]}
{"id": "C89", "title": "Unmarshal uses the unmarshal methods of types", "statement": "Wherever Unmarshal reads into a variable of a type with UnmarshalNodeJSON, UnmarshalJSON or UnmarshalText, it calls the method (UnmarshalNodeJSON before UnmarshalJSON before UnmarshalText; UnmarshalJSON with the JSON text of the value, UnmarshalText with the string), and returns an error if the method does. What the argument holds afterwards is of its type, and is a function of the type, the former content and the first value of the text; the types that are refused are refused with one error, before the text is looked at.", "quantifier": "every set of types and methods, every argument of every type, every text, every tag key, every node", "why_tests_cant": "The domain of byte strings is infinite; tests sample a handful of literals.", "anchors": ["unjson/decode.go", "unjson/cache.go:111-125", "unjson/unjson.go:40-81"]}
{"id": "C90", "title": "Struct tags mean what their text says", "statement": "For a conventional struct tag (key:\"value\" pairs, separated by spaces, values written as Go string literals) the name and the hints of a field are those of the value of the first pair with the tag key: the name is what precedes the first comma, and a hint is set exactly when it is one of the options after it. For a text of any form, the entries up to where it stops being a conventional tag count.", "quantifier": "every tag text, every tag key", "why_tests_cant": "The domain of byte strings is infinite; tests sample a handful of literals.", "anchors": ["unjson/options.go:parseTag", "unjson/options.go:parseField"]}
{"id": "C91", "title": "The generator and unjson read struct tags alike", "statement": "For every struct tag, ParseFieldTag of the generator finds the name that unjson uses, and omitempty exactly when it is one of the options of the tag.", "quantifier": "every tag text, every tag key", "why_tests_cant": "The domain of byte strings is infinite; tests sample a handful of literals.", "anchors": ["internal/generator/options.go:ParseFieldTag", "unjson/options.go:parseTag"]}
{"id": "C92", "title": "bytemaper prints the tables it is asked for", "statement": "For an argument name:text the program bytemaper prints under the name a table with 256 entries, which is 1 exactly for the bytes of the text; for the known names it prints the table of the function with the name. The tables in bytemaps.go, strjson and numjson are printed by it.", "quantifier": "every name, every text, every byte", "why_tests_cant": "All texts over all bytes; the program is run by hand when a table changes.", "anchors": ["internal/bytemaper/bytemaper.go", "bytemaps.go", "strjson/bytemaps.go", "numjson/bytemaps.go"]}
{"id": "C93", "title": "Errors of a writer are returned and lose nothing else", "statement": "Encode of a LineEncoder calls Write once for each value that has a text, with the text and a newline, and returns the error of Write; a value that has no text is not written. A failing Write does not change what later calls write. PrintJSON calls Write once with the JSON text of the node and returns its results.", "quantifier": "every writer (whatever it accepts, whenever it fails), every sequence of values, every buffer content", "why_tests_cant": "All writers with all failure patterns.", "anchors": ["unjson/stream.go:LineEncoder.Encode", "node.go:PrintJSON", "error.go"]}
{"id": "C94", "title": "A ParseError points at the first token that cannot stand there", "statement": "If Parse fails with a ParseError: the text at Pos is the token that the error reports as found; every text that begins with the same bytes up to the end of this token fails with the same error; and what the error reports as wanted can stand there: the text up to Pos, followed by any of the wanted bytes, by the wanted literal or (any value) by any value, can be completed to a text that Parse accepts. So the text up to Pos, if the token is one byte, is the longest beginning of the text that some accepted text has.", "quantifier": "every document, every text that fails, every continuation", "why_tests_cant": "The domain of byte strings is infinite; tests sample a handful of literals.", "anchors": ["parser.go:parseValue", "parser.go:parseArray", "parser.go:parseObject", "error.go:ParseError"]}
{"id": "C95", "title": "Error texts determine the error", "statement": "Two errors of Parse with the same text are equal: same kind, position, type, found and wanted token, whatever bytes the token has. The found text is quoted as a Go string literal that denotes exactly its bytes. The text of a type error determines the type that was found and, if it was not wanted, the wanted types.", "quantifier": "all pairs of documents and texts, all type masks, every choice of printable characters", "why_tests_cant": "The domain of byte strings is infinite; tests sample a handful of literals.", "anchors": ["error.go", "types.go:String"]}
{"id": "C96", "title": "The command generates the methods it is asked for", "statement": "The command njson, called as njson [flags] [package] [type...], generates for every struct type of the package that a type argument selects (by its name or a regular expression; without one every struct type), an UnmarshalNodeJSON method unless only -append is given and an AppendJSON method unless only -unmarshal is given, in the order of the types, with the options that the flags ask for. It fails exactly when the package cannot be loaded, the flags make no sense, no type is selected or a selected type is not supported.", "quantifier": "every package, every directory, all flags and arguments, every result of the parser and the file system", "why_tests_cant": "The domain of byte strings is infinite; tests sample a handful of literals.", "anchors": ["cmd/njson/njson.go", "internal/generator/generator.go", "internal/generator/append.go:WriteAppender", "internal/generator/unmarshal.go:WriteUnmarshaler"]}
{"id": "C97", "title": "The generated file compiles with its package", "statement": "The file that the command writes imports exactly the packages that its methods mention, each once, and compiles together with the other files of the package.", "quantifier": "every package, every directory, all flags and arguments, every order of imports", "why_tests_cant": "The domain of byte strings is infinite; tests sample a handful of literals.", "anchors": ["internal/generator/generator.go:Import", "internal/generator/generator.go:DumpTo", "internal/generator/append.go", "internal/generator/unmarshal.go"]}
{"id": "C98", "title": "The command writes one file and can be run again", "statement": "With -w the command writes its output to one file, NAME_njson.go or NAME_njson_test.go for a package of tests, and leaves the other files alone; without it, and when it fails, no file is changed. The file is recognised as generated, so that a later run generates the same methods.", "quantifier": "every package, every directory, all flags and arguments, every time, every order of imports", "why_tests_cant": "All directories and all sequences of runs.", "anchors": ["cmd/njson/njson.go", "internal/generator/generator.go:Filename", "internal/generator/generator.go:PrintTo"]}
{"id": "C99", "title": "Printing a generator again prints the same", "statement": "PrintTo and DumpTo print everything that was generated since Reset, under the header with the imports; printing does not change what a later call prints.", "quantifier": "every generator state, every sequence of calls", "why_tests_cant": "The domain of byte strings is infinite; tests sample a handful of literals.", "anchors": ["internal/generator/generator.go:PrintTo", "internal/generator/generator.go:DumpTo", "internal/generator/generator.go:Reset"]}
{"id": "C100", "title": "A test case of njsontest passes exactly for a method that does what is expected", "statement": "A test made by njsontest.AppendJSON or njsontest.Unmarshal passes exactly when the value has the method (of the interface, or of the name given by Method), and: without an Error option, AppendJSON returns no error and exactly the expected JSON, or UnmarshalNodeJSON of the node for the JSON data returns no error and leaves a value that is deeply equal; with an Error option, the method returns an error of this kind. Of several options of one kind the last counts. A test that does not pass fails; tests can be run again.", "quantifier": "all values, methods and options, all JSON data, every document from the pool, every run", "why_tests_cant": "The domain of byte strings is infinite; tests sample a handful of literals.", "anchors": ["njsontest/t.go", "njsontest/option.go"]}
{"id": "C101", "title": "Parse needs memory in proportion to the text", "statement": "A value that Parse reads takes one node for each JSON value in it, at most half as many as the bytes it is read from, rounded up; the array of nodes has fewer than twice the nodes in use unless it was larger before; the arrays of children of all nodes grow by fewer elements than the bytes that were read. A failing Parse adds nothing to the document and works with at most one node per byte. What AppendJSON writes for the value is never longer than the text that was read, and equal to it when it is as long.", "quantifier": "all documents with any earlier use and spare capacity, all byte strings, all depths of nesting", "why_tests_cant": "The domain of byte strings is infinite; tests sample a handful of literals.", "anchors": ["parser.go:Parse", "parser.go:node", "parser.go:appendV", "document.go:appendJSON"]}
{"id": "C102", "title": "The command line of njson", "statement": "The njson command accepts exactly the command lines that consist of flags (-NAME or --NAME, with the value after an equals sign or, for flags with a text, in the next word; boolean flags are true without a value) followed by -- or by the arguments. Each of the eleven flags then has the last value given for it, or its default, in whatever order they are given. A command line that is not accepted changes no file. What follows the first argument is not a flag, so njson PKG -w writes no file.", "quantifier": "all command lines, all directories", "why_tests_cant": "The domain of byte strings is infinite; tests sample a handful of literals.", "anchors": ["cmd/njson/njson.go:main"]}
{"id": "C103", "title": "Calls that share the pool of buffers do not see each other", "statement": "PrintJSON, WrapUnmarshalJSON and WrapUnmarshalText may run in any number of goroutines and inside each other: while Write, UnmarshalJSON or UnmarshalText runs, the slice it was given is exactly what the appender of the same call appended; no two running calls have the same buffer, and no slice of the program changes except when the program writes to it. This holds for appenders that append to their argument and code that does not keep the slice; an AppendJSON method that returns a slice of its own breaks it.", "quantifier": "all numbers of calls, all interleavings, all outputs, errors, panics and capacities", "why_tests_cant": "The domain of byte strings is infinite; tests sample a handful of literals.", "anchors": ["node.go:PrintJSON", "node.go:WrapUnmarshalJSON", "node.go:WrapUnmarshalText"]}
{"id": "C104", "title": "Generated code writes what Marshal writes", "statement": "For a value of a struct type for which njson generates AppendJSON, the generated method appends the JSON text that unjson.Marshal returns for the value: the same members with the same values, in the same order when the fields are declared in the order of their tags.", "quantifier": "all packages and struct types, all values of them, all options, all buffers", "why_tests_cant": "The domain of byte strings is infinite; tests sample a handful of literals.", "anchors": ["internal/generator/append.go", "unjson/encode.go", "unjson/unjson.go:Marshal"]}
{"id": "C105", "title": "Unmarshal into an interface{} stores what ToInterface returns", "statement": "For every text that starts with a JSON value, Unmarshal into a pointer to a variable of type interface{} stores the value that ToInterface returns for a node with that JSON value: nil, bool, float64, string, []interface{} or map[string]interface{}, whatever was in the variable before. When ToInterface fails, because a number in the value does not parse, Unmarshal returns a type error and leaves the variable as it was.", "quantifier": "all texts, trees, documents and previous values", "why_tests_cant": "The domain of byte strings is infinite; tests sample a handful of literals.", "anchors": ["unjson/decode.go:interfaceDecoder", "node.go:ToInterface", "document.go:toInterface"]}
{"id": "C106", "title": "Generated code reads what Unmarshal reads", "statement": "For a struct type for which njson generates UnmarshalNodeJSON, every text that starts with a JSON value and every previous content of the variable: Parse followed by the generated method stores what unjson.Unmarshal stores, and both return an error or neither does.", "quantifier": "all packages and struct types, all texts, all previous values, all options, all documents", "why_tests_cant": "The domain of byte strings is infinite; tests sample a handful of literals.", "anchors": ["internal/generator/unmarshal.go", "unjson/decode.go", "unjson/unjson.go:Unmarshal"]}
{"id": "C107", "title": "A LineDecoder keeps the nodes of all its lines", "statement": "A node of an earlier line, kept by a decoder or an UnmarshalNodeJSON method, has the same tree after any number of later calls of LineDecoder.Decode, whatever these return. The document of the LineDecoder holds exactly the values of all lines read so far, so it grows with the stream: there is no bound in terms of the longest line.", "quantifier": "all streams, sequences of calls, nodes and trees; all buffer sizes and ways to deliver the stream", "why_tests_cant": "The domain of byte strings is infinite; tests sample a handful of literals.", "anchors": ["unjson/stream.go:LineDecoder.Decode"]}
{"id": "C108", "title": "Unmarshal stores the nearest float or reports that there is none", "statement": "Unmarshal of a JSON number into a float64 or float32 variable stores the float of the type that is nearest to the number, and returns an error and leaves the variable alone when the number is beyond the largest float of the type.", "quantifier": "all number texts, both float types (defined types included), all previous contents of the variable", "why_tests_cant": "The domain of byte strings is infinite; tests sample a handful of literals.", "anchors": ["unjson/decode.go:floatDecoder.decode", "numjson/numjson.go:ParseFloat"]}
{"id": "C109", "title": "An edit changes a document exactly where the edited node is", "statement": "After any single mutation of node n (SetX, Set, Del, Append, Replace, Remove, Slice) that gives n the tree s, every node m whose tree contained n has its old tree with s at each place of n, and nothing else in it changed; in a document without sharing there is exactly one such place, and m writes the old text with the text of s there.", "quantifier": "every document state, every mutation, every node above the mutated one, every place", "why_tests_cant": "Histories of API calls are unbounded; tests exercise a few fixed short sequences.", "anchors": ["node.go:Set", "node.go:Del", "node.go:Append", "node.go:Replace", "node.go:Remove", "node.go:Slice", "document.go:node.reset"]}
{"id": "C110", "title": "A constructor makes the value it names and changes nothing else", "statement": "Null, False, True, Text, TextHTML, TextRaw, Number, Object and Array of a document return a node that did not exist before, whose tree is the named value (Text and TextHTML read back as the given text); every other tree of every document is unchanged and does not contain the new node. The first value made in an empty document is its Root.", "quantifier": "every document state (reused slots included), every constructor and argument", "why_tests_cant": "Histories of API calls are unbounded; tests exercise a few fixed short sequences.", "anchors": ["document.go:Null", "document.go:False", "document.go:True", "document.go:TextRaw", "document.go:Text", "document.go:TextHTML", "document.go:Object", "document.go:Array", "document.go:Number", "document.go:Root"]}
{"id": "C111", "title": "Inserting links an orphan of the same document and copies everything else", "statement": "After Set, Replace or Append, the inserted child is the given node itself if that node is an orphan of the target's document (a constructor or parse result that was not inserted yet, other than node 0 and the target), so later edits of it show in the target; otherwise it is a node that did not exist before. An orphan given to one Append several times is linked at its first occurrence and copied at the others.", "quantifier": "every document state, every target and value, every list of values of Append", "why_tests_cant": "Histories of API calls are unbounded; tests exercise a few fixed short sequences.", "anchors": ["document.go:copyOrAdopt", "node.go:Set", "node.go:Append", "node.go:Replace"]}
{"id": "C112", "title": "Escaped replaces exactly the characters that need it", "statement": "Escaped writes every string character by character: quote, backslash, the control characters with a short escape, the other bytes that need it as \\u00xx (with HTML escaping also < > &), U+2028 and U+2029; an invalid UTF-8 byte becomes \\ufffd; every other character is copied. A string is unchanged exactly when it has only characters of the last kind, and the result is at least as long as the string and at most six times as long.", "quantifier": "all strings, valid UTF-8 or not, with and without HTML escaping", "why_tests_cant": "The domain of byte strings is infinite; tests sample a handful of literals.", "anchors": ["strjson/escape.go:AppendEscaped", "strjson/escape.go:Escaped", "strjson/strjson.go:toJSON"]}
{"id": "C113", "title": "Unescaped keeps malformed escapes as they are", "statement": "Unescaped replaces the escapes of RFC 8259 and copies everything else: a backslash at the end, a backslash before an unknown letter, and \\u without four hexadecimal digits stay in the result.", "quantifier": "all strings", "why_tests_cant": "The domain of byte strings is infinite; tests sample a handful of literals.", "anchors": ["strjson/unescape.go:Unescaped", "strjson/unescape.go:AppendUnescaped"]}
{"id": "C114", "title": "A call that does not apply changes nothing", "statement": "Set and Del on a node that is no object, Del of an absent key, Append, Replace, Remove and Slice on a node that is no array, Append of nothing, Replace and Remove with an index out of range, Slice with a range that is empty or reaches the end, Set and Replace with an invalid or stale value, and every mutation of an invalid or stale node return and leave all documents as they were.", "quantifier": "all document states, all calls that do not apply", "why_tests_cant": "Histories of API calls are unbounded; tests exercise a few fixed short sequences.", "anchors": ["node.go:Set", "node.go:Del", "node.go:Append", "node.go:Replace", "node.go:Remove", "node.go:Slice"]}
{"id": "C115", "title": "What ParseFloat computes, operation by operation", "statement": "For every numeral without exponent whose fraction (or integer part, if there is no fraction) has at most 18 digits, and for every numeral with an exponent of at most 300, ParseFloat returns exactly num + dec*Pow10(-j), (num + dec*Pow10(-j))*Pow10(-exp) or num*Pow10(exp) + dec*Pow10(exp-j), where num and dec are the digits modulo 2^64, j is the number of digits and every operation is rounded to the nearest float64; every other numeral is rounded correctly in one step, its exponent being cut after five digits, or gives 0 if it has several exponent signs.", "quantifier": "all numerals of any length (below 2^63 bytes), all exponents, wrapped ones included", "why_tests_cant": "The domain of byte strings is infinite; tests sample a handful of literals.", "anchors": ["numjson/numjson.go:ParseFloat"]}
{"id": "C116", "title": "The file that bytemaper prints compiles and its functions read the tables", "statement": "For arguments whose names are identifiers, the printed file is a Go file that declares, in the order of the names, one constant per name whose value is the table with 256 entries, and one function per name that returns the entry of its argument (for names that begin with Is: whether the entry is 1); the last of several arguments with one name counts. The file compiles. A run that is refused does not change the file of the flag -w.", "quantifier": "all lists of arguments, all package names and prefixes, all bytes", "why_tests_cant": "The domain of byte strings is infinite; tests sample a handful of literals.", "anchors": ["internal/bytemaper/bytemaper.go:main", "internal/bytemaper/bytemaper.go:tpl"]}
{"id": "C117", "title": "The text of a float is its shortest decimal, without superfluous zeros", "statement": "FormatFloat and AppendFloat with 64 bits write a finite float64 other than zero as its sign and the decimal with the fewest digits that rounds to the float; of several with as many digits the one nearest to the float, of two equally near ones the even one. A decimal from 1e-6 on and below 1e21 is written without exponent, with no zero before other digits of the integer part and none at the end of the fraction; the others with one digit before the point, no zero at the end of the fraction, and an exponent with a sign and no leading zeros. Different floats have different texts. With 32 bits the same holds for the nearest float32. Zero is 0 or -0.", "quantifier": "all finite float64, all destinations, both bit sizes", "why_tests_cant": "The domain of byte strings is infinite; tests sample a handful of literals.", "anchors": ["numjson/format.go:AppendFloat", "numjson/format.go:FormatFloat"]}
{"id": "C118", "title": "Equal numbers are read as equal floats, a larger number never as a smaller float", "statement": "Two JSON numbers that denote the same number, such as 0.3 and 0.30, are read by ParseFloat as the same float64, and of two numbers with the same sign the one with the larger magnitude is never read as the float with the smaller magnitude.", "quantifier": "all pairs of JSON numbers of any length", "why_tests_cant": "The domain of byte strings is infinite; tests sample a handful of literals.", "anchors": ["numjson/numjson.go:ParseFloat"]}
{"id": "C119", "title": "Edits of two nodes give the same documents in either order", "statement": "An edit of one node and an edit of another node (the setters, Set, Append, Replace, Slice, Remove, Del), of one document or of two, whose inserted values contain neither of the two nodes, can be done in either order: every node has the same tree and is written as the same JSON afterwards. One of the two nodes may be inside the other, and both edits may insert the same value.", "quantifier": "all documents, all pairs of edits of two different nodes, all nodes that are looked at afterwards", "why_tests_cant": "Histories of API calls are unbounded; tests exercise a few fixed short sequences.", "anchors": ["node.go:Set", "node.go:Append", "node.go:Replace", "node.go:Slice", "node.go:Remove", "node.go:Del", "node.go:SetString", "document.go:copyOrAdopt"]}
{"id": "C120", "title": "The order of members does not matter to Unmarshal", "statement": "If two texts differ only in the order of members with different names, in any of their objects, then Unmarshal of one and of the other into a variable with the same content returns the same error or none, and leaves the same value in the variable.", "quantifier": "every type without methods, every content of the variable, every pair of texts whose values differ in the order of members with different names at any depth (equal names keep their order)", "why_tests_cant": "Orders of members are exponentially many, and whether two of them store the same depends on every pair of fields being independent of each other, embedded ones included, and on what happens after an error; a test has one order in its text, usually that of the fields.", "anchors": ["unjson/codec.go:structCodec.decode", "unjson/decode.go:mapDecoder.decode", "unjson/unjson.go:Unmarshal"]}
{"id": "C121", "title": "Parsing and serialising deletes exactly the white space between tokens", "statement": "For every RFC 8259 text that Parse accepts, AppendJSON of the node it returns writes the text without the white space outside of strings, and nothing else is changed: no byte of a string, number or key, no order, no duplicate member. So two RFC 8259 texts have the same tree, and are the same to Unmarshal, exactly if they differ in such white space only; and no more is written than was read, whatever text was accepted.", "quantifier": "every byte string, every document it is parsed into", "why_tests_cant": "The domain of byte strings is infinite; tests sample a handful of literals.", "anchors": ["parser.go:Parse", "parser.go:parseValue", "node.go:AppendJSON"]}
{"id": "C122", "title": "A nil pointer is written as null, or left out", "statement": "Wherever a value that Marshal is given contains a nil pointer, Marshal writes null for it, or nothing for a field with omitempty; whether the type has marshal or omit methods does not matter.", "quantifier": "every set of types and methods, every value of every type", "why_tests_cant": "The domain of byte strings is infinite; tests sample a handful of literals.", "anchors": ["unjson/encode.go:ptrEncoder.encode", "unjson/encode.go:newEncoder", "unjson/omit.go:newCustomOmiter", "unjson/omit.go:ptrOmiter.omit"]}
{"id": "C123", "title": "Unmarshal allocates the pointers it needs", "statement": "After Unmarshal has returned without an error, a pointer in the variable for which the text has a value points to something, unless the value is null, which makes it nil; whether the type has unmarshal methods does not matter, and the method is called on the new value.", "quantifier": "every set of types and methods, every type and content of the variable, every text", "why_tests_cant": "The domain of byte strings is infinite; tests sample a handful of literals.", "anchors": ["unjson/decode.go:ptrDecoder.decode", "unjson/decode.go:newDecoder", "unjson/decode.go:jsonDecoder.decode", "unjson/codec.go:structCodec.decode"]}
{"id": "C124", "title": "Generated AppendJSON methods write nil pointers as null, or leave them out", "statement": "Wherever a value contains a nil pointer, a generated AppendJSON method writes null for it, or nothing if it is a field of a struct; it does not panic, whether the type has marshal or omit methods or not.", "quantifier": "every struct type for which the generated method compiles, every set of methods of the types in it, every value", "why_tests_cant": "The domain of byte strings is infinite; tests sample a handful of literals.", "anchors": ["internal/generator/append.go:TypeAppender", "internal/generator/append.go:EnsureReversePath", "internal/generator/append.go:StructAppender", "internal/generator/append.go:TypeOmiter"]}
{"id": "C125", "title": "What has no place in a variable is ignored", "statement": "Members of an object whose name belongs to no field of the struct that the object is read into, and elements of an array behind the end of the Go array that it is read into, have no effect, at whatever depth they are: Unmarshal of a text with them, with others, or without them into a variable with the same content returns the same error or none (or panics alike), and leaves the same value in the variable. The same holds for generated UnmarshalNodeJSON methods and members that belong to no field.", "quantifier": "every type, with methods or without, every content of the variable, every pair of texts whose values differ only in such members and elements", "why_tests_cant": "The domain of byte strings is infinite; tests sample a handful of literals.", "anchors": ["unjson/codec.go:structCodec", "unjson/decode.go:arrayDecoder", "unjson/unjson.go:Unmarshal", "internal/generator/unmarshal.go:StructUnmarshaler"]}
{"id": "C126", "title": "Generated UnmarshalNodeJSON methods allocate the pointers they need", "statement": "After a generated UnmarshalNodeJSON method of a struct has returned without an error, a field of a pointer type that is named in the object is nil if the last member with its name is null, and points to something otherwise; the embedded pointers on the way to a named field are not nil. Wherever else a value is read into a pointer, the same holds. An unmarshal method of the type that is pointed to is called on the pointer that was there, or on a pointer to a new zero value, never on a nil pointer, and not for null.", "quantifier": "every struct type for which the generated method compiles, every set of methods of the types in it, every object and every content of the struct before", "why_tests_cant": "The domain of byte strings is infinite; tests sample a handful of literals.", "anchors": ["internal/generator/unmarshal.go:PointerUnmarshaler", "internal/generator/unmarshal.go:EnsurePath", "internal/generator/unmarshal.go:StructUnmarshaler", "internal/generator/unmarshal.go:TypeUnmarshaler"]}
{"id": "C127", "title": "All ways to read an object agree about a key", "statement": "For every object and key: the value under the key in the map that ToInterface returns for the object (and that Unmarshal stores in an interface{}) is what ToInterface returns for the node that Get(key) finds; a key that Get does not find is not in the map.", "quantifier": "every object node, every key, with the first or the last of several members with the same key", "why_tests_cant": "The domain of byte strings is infinite; tests sample a handful of literals.", "anchors": ["node.go:Get", "node.go:ToInterface", "document.go:toInterfaceMap"]}
{"id": "C128", "title": "A member is found under the string that its key denotes", "statement": "Get(k) on a parsed object finds the first member whose key, unescaped as JSON prescribes, is k; so do the map of ToInterface and the fields of a struct in Unmarshal. After Set(k, v), AppendJSON writes an object that Parse reads back with the same members and with v under a key that denotes k.", "quantifier": "every object, every key (any byte string), every value", "why_tests_cant": "The domain of byte strings is infinite; tests sample a handful of literals.", "anchors": ["node.go:Get", "node.go:Set", "node.go:ToInterface", "node.go:AppendJSON", "parser.go:Parse"]}
{"id": "C129", "title": "Generated UnmarshalNodeJSON methods panic only if a method they call panics", "statement": "A generated UnmarshalNodeJSON method panics exactly when it comes to a call of an UnmarshalJSON or UnmarshalText method of a type of the program that panics; the receiver of that call is never a nil pointer. Errors in front of that call in the document are returned instead, and null is never given to the method of the type itself. In all other cases, whatever the document and the content of the variable (nil pointers, nil slices, nil maps), it returns.", "quantifier": "every type for which the generated method compiles, every content of the variable, every document, all methods of the types in the program", "why_tests_cant": "The domain of byte strings is infinite; tests sample a handful of literals.", "anchors": ["internal/generator/unmarshal.go:TypeUnmarshaler", "internal/generator/unmarshal.go:Unmarshaler"]}
{"id": "C130", "title": "The order of iteration over maps does not matter to Marshal but for the order of members", "statement": "Go iterates over maps in random order. Two calls of Marshal (AppendJSON, Encode) for the same value either both succeed or both fail (with an error or a panic), and the two texts differ in the order of members only; as trees they are the same but for the order of members.", "quantifier": "every set of types and methods, every value, every order of iteration over each of its maps, all options", "why_tests_cant": "The domain of byte strings is infinite; tests sample a handful of literals.", "anchors": ["unjson/encode.go:mapEncoder", "unjson/codec.go:structCodec.encode"]}
{"id": "C131", "title": "The order of iteration over maps does not matter to generated AppendJSON but for the order of members", "statement": "Two calls of a generated AppendJSON method for the same value, with any two orders of iteration over each of its maps, either both succeed, with texts of trees that differ in the order of members only, or both fail; what can make them fail or panic is the same, and without a method that panics both return the error of a method.", "quantifier": "every struct type for which the generated method compiles, every value of it with number or boolean keys, every order of iteration over each map", "why_tests_cant": "The domain of byte strings is infinite; tests sample a handful of literals.", "anchors": ["internal/generator/append.go:TypeAppender"]}
{"id": "C132", "title": "Unmarshal of the same text into the same variable again changes nothing", "statement": "If Unmarshal(text, x) returns (with or without an error), then a second Unmarshal(text, x) returns the same and leaves the variable as the first one left it; so does a Decoder for a node of the same JSON. Unmarshal methods that are called have this property themselves.", "quantifier": "every set of types and methods, every variable, every text, every state of the pooled documents", "why_tests_cant": "Histories of API calls are unbounded; tests exercise a few fixed short sequences.", "anchors": ["unjson/unjson.go:UnmarshalFromString", "unjson/decode.go:sliceDecoder", "unjson/codec.go:structCodec.decode"]}
{"id": "C133", "title": "A generated UnmarshalNodeJSON applied again changes nothing", "statement": "If a generated UnmarshalNodeJSON method returns (with or without an error), then a second call for the same variable with the same JSON returns the same and leaves the variable as the first one left it. UnmarshalJSON and UnmarshalText methods that are called have this property themselves.", "quantifier": "every type for which the generated method compiles, every variable, every JSON tree", "why_tests_cant": "Histories of API calls are unbounded; tests exercise a few fixed short sequences.", "anchors": ["internal/generator/unmarshal.go"]}
{"id": "C134", "title": "The order of members does not matter to a generated UnmarshalNodeJSON", "statement": "Two calls of a generated UnmarshalNodeJSON, with JSON that differs only in the order of members with different names (in any of its objects), for variables with the same content: if one returns without an error, so does the other one, and the variables have the same content again (maps compared as maps). UnmarshalJSON and UnmarshalText methods that are called have this property themselves.", "quantifier": "every type for which the generated method compiles and of whose structs no known field is part of another, every pair of variables with the same content, every pair of trees that differ in the order of members", "why_tests_cant": "Histories of API calls are unbounded; tests exercise a few fixed short sequences.", "anchors": ["internal/generator/unmarshal.go"]}
{"id": "C135", "title": "A constructor of codecs that returns an error returns no codec", "statement": "NewTypeEncoder, NewTypeDecoder, Cache.Encoder and Cache.Decoder return a nil codec exactly if they return an error.", "quantifier": "every type (also nil), all options, every content of the cache", "why_tests_cant": "a typed nil pointer in an interface looks like nil when it is printed; tests look at the error first and then not at the codec", "anchors": ["unjson/encode.go:66-97", "unjson/decode.go:94-124", "unjson/cache.go:19-66"]}
{"id": "C136", "title": "Parse takes time in proportion to the text", "statement": "Whether it accepts the text or not, Parse takes at most a constant number of steps for each byte of the text, beyond steps in proportion to the nodes that the document already has and to the children that it removes from the document's array. So texts that are parsed one after another by one document, with Reset after each, take together a number of steps in proportion to the texts.", "quantifier": "every well-formed document, all texts, all sequences of texts of any number", "why_tests_cant": "tests do not measure time, and benchmarks use a few texts; that no text or history makes a growing array or a loop over left-over children quadratic is about all of them", "anchors": ["parser.go:14-398"]}
{"id": "C137", "title": "The calls of Parse and AppendJSON are nested as deep as the value", "statement": "Parse has as many calls of itself in progress, at most, as the value that it reads has levels, and AppendJSON as the value that it writes; for a text that is rejected Parse has no more than one for each byte and one. There is no other limit: a text of n opening brackets takes n nested calls.", "quantifier": "every well-formed document with any earlier use, all texts, all trees, all numbers of brackets", "why_tests_cant": "tests nest a few levels; the Go stack overflows, and the program ends, only for texts of some hundred megabytes", "anchors": ["parser.go:83-398", "document.go:256-299", "node.go:62-67"]}
{"id": "C138", "title": "The text of a node is in proportion to its document", "statement": "The tree of a node has no more nodes than its document, and the text that AppendJSON appends for it is no longer than what the nodes of the document hold: their raw texts, the keys of their children, 2 bytes for each node and 4 for each child.", "quantifier": "every document that a sequence of calls of any length can build, every node of it", "why_tests_cant": "The domain of byte strings is infinite; tests sample a handful of literals.", "anchors": ["document.go:256-299", "document.go:301-320", "document.go:343-366", "node.go:62-67"]}
{"id": "C139", "title": "A document grows by exactly the nodes that it is given", "statement": "Parse adds as many nodes as the value has, and none for a text that it rejects. A constructor adds one node. Set, Replace and Append add none for an orphan of the same document (at its first occurrence) and as many as the value has for every other value. No other call adds a node, and only Reset removes nodes: the nodes of a value that is deleted or replaced stay, so that replacing an element m times with values of another document leaves m copies.", "quantifier": "every document state, every call, all values and lists of values, call sequences of any length", "why_tests_cant": "Histories of API calls are unbounded; tests exercise a few fixed short sequences.", "anchors": ["document.go:301-320", "document.go:343-366", "parser.go:14-34", "node.go:268-333", "document.go:124-171"]}
{"id": "C140", "title": "The omiter of a field can be made for every type", "statement": "For a field with omitempty the constructors of codecs find the method that says whether the field is left out (named Omit, if no other name is set): a method func() bool of the type, of the type that it points to, or of the pointer to it; without one, the rule for the kind of the type. They do so, without panicking, for every type.", "quantifier": "every type, all method sets (also of interface types and with any signatures), every name of the method", "why_tests_cant": "tests have omit methods on structs only; the field must have an interface type that happens to have a method of that name", "anchors": ["unjson/omit.go:85-93", "unjson/omit.go:115-140", "unjson/omit.go:166-198"]}
{"id": "C141", "title": "What is not found is empty, but keeps its document", "statement": "Get, Index and Lookup return the first child with the key, or the child with the index, in the document of the receiver; if there is none (or the receiver is no object or array, is empty, stale or the zero Node), they return a Node whose ID is the largest uint and whose document is that of the receiver. That Node is empty, now and whatever is added to the document later: its type is invalid, all reads give zero values and false or an error, and edits through it change nothing. Once something in a chain of such calls is not found, nothing after it is; Lookup of a path is Lookup of its first part followed by Lookup of the rest. The zero Node has ID 0 and no document.", "quantifier": "every document state with fewer than 2^64 nodes, every Node, all keys, indices and paths, chains of any length", "why_tests_cant": "The domain of byte strings is infinite; tests sample a handful of literals.", "anchors": ["node.go:28-47", "node.go:156-158", "node.go:243-267", "document.go:61-97"]}
{"id": "C142", "title": "What AppendJSON returns begins with what it was given", "statement": "AppendJSON(out, x) of package unjson, Encode(out, x) of an Encoder, AppendJSON(out) of nodes and documents, and generated AppendJSON methods return a slice that begins with out, with an error or without one, so that a caller can cut off what a failed call has written. AppendJSON methods of the program do so themselves.", "quantifier": "every value of every type, all methods, all options, every node of every document, every generated method, every slice", "why_tests_cant": "The domain of byte strings is infinite; tests sample a handful of literals.", "anchors": ["unjson/unjson.go:95-104", "node.go:62-67", "document.go:252-299", "internal/generator/append.go:23-42", "unjson/encode.go:39-51", "unjson/encode.go:146-418", "unjson/codec.go:57-87"]}
{"id": "C143", "title": "Nodes with the same tree cannot be told apart", "statement": "Two nodes that have the same tree, in one document or in two, parsed or built, fresh or reused, give the same result for every reading call, and so do the nodes that any chain of calls of Get, Index and Lookup and steps of iterations leads to from both. Nodes with different trees can be told apart by Data and the keys that iterations give. The same Set, Append, Replace or Remove on both, with values that have the same tree, leaves both with the same tree.", "quantifier": "all pairs of document states, all pairs of nodes with finite trees, chains of calls of any length", "why_tests_cant": "The domain of byte strings is infinite; tests sample a handful of literals.", "anchors": ["node.go:28-175", "node.go:177-267", "document.go:61-97", "document.go:192-299", "node.go:268-333"]}
{"id": "C144", "title": "The JSON of a node determines its content", "statement": "If AppendJSON gives the same text for two nodes, of one document or of two, parsed or built through the API, then the two nodes have the same tree: the same kinds, raw texts, keys and children in the same order.", "quantifier": "all pairs of nodes with finite trees, all documents", "why_tests_cant": "The domain of byte strings is infinite; tests sample a handful of literals.", "anchors": ["document.go:252-299", "node.go:62-67", "parser.go:83-398", "node.go:268-290"]}
{"id": "C145", "title": "AppendJSON takes time in proportion to what it writes", "statement": "Whenever Node.AppendJSON returns, with or without an error, it has made at most two steps (calls of appendJSON and passes through its loops) for each byte it has written, and one more; for a node with a finite tree of n nodes it makes exactly 2n-1 steps.", "quantifier": "all documents and nodes in every state, also those with loops, shared nodes or missing ids, all destination slices", "why_tests_cant": "The domain of byte strings is infinite; tests sample a handful of literals.", "anchors": ["document.go:252-299", "node.go:62-67"]}
{"id": "C146", "title": "Edits of one node overwrite and undo each other", "statement": "Two sequences of edits of one node that leave the node with the same tree leave every node with the same tree. In particular, on every node that is looked at: of two Set calls with the same key, or two Replace calls with the same index, only the second has an effect; Set of a new key followed by Del, and Append followed by Remove of the new element, change nothing; so do Set(k, Get(k)) of a member and Replace(i, Index(i)) of an element; a setter leaves nothing of the edits before it.", "quantifier": "all documents, all nodes, all sequences of edits of any length, all nodes that are looked at afterwards", "why_tests_cant": "Histories of API calls are unbounded; tests exercise a few fixed short sequences.", "anchors": ["node.go:272-347", "node.go:371-449"]}
{"id": "C147", "title": "A Node is valid until its document is reset", "statement": "After any calls on any nodes and documents that do not reset its document, a valid Node is still valid and in its document, even if it has been deleted from the object or array that held it; if none of the calls is a setter for it, its type and raw text (Data) are unchanged. So a Node is valid exactly until Reset (fewer than 2^64 resets).", "quantifier": "all documents, all nodes, call sequences of any length", "why_tests_cant": "Histories of API calls are unbounded; tests exercise a few fixed short sequences.", "anchors": ["document.go:100-185", "document.go:301-364", "document.go:410-416", "node.go:34-60", "node.go:272-449"]}
{"id": "C148", "title": "Marshal sees only what it writes", "statement": "Fields that are not exported or whose tag is -, fields that are hidden by another field of the same name, and elements of the array of a slice behind its length do not matter to Marshal (AppendJSON, Encode), wherever they are in the value: for values that differ in them only, the two calls append the same text, or return the same error, or both panic. Methods of types see the whole value; for types that have a marshal or omit method it has to be the same.", "quantifier": "every set of types and methods, every pair of values that differ only in what is not written, all options, all slices to append to", "why_tests_cant": "The domain of byte strings is infinite; tests sample a handful of literals.", "anchors": ["unjson/codec.go:57-135", "unjson/encode.go:39-51", "unjson/encode.go:146-418", "unjson/omit.go"]}
{"id": "C149", "title": "Unmarshal leaves alone what the text does not name", "statement": "When Unmarshal (or a Decoder) reads a JSON value into a struct, with an error or without one, every part of the struct that is not in a field named by a member of the JSON keeps its content: fields that are not exported or whose tag is -, fields hidden by another one, and fields whose name is not there.", "quantifier": "every set of types and methods, every struct type, every content of the variable, every text, every tag key", "why_tests_cant": "Histories of API calls are unbounded; tests exercise a few fixed short sequences.", "anchors": ["unjson/codec.go:89-135", "unjson/decode.go", "unjson/unjson.go:UnmarshalFromString"]}
{"id": "C150", "title": "A generated AppendJSON sees only what it writes", "statement": "Fields that do not take part (not exported, tagged -, with a name that an earlier field has), elements of the array of a slice behind its length, and whether an empty slice or an empty map is nil do not matter to a generated AppendJSON method, wherever they are in the value: for values that differ in them only, it returns the same bytes and the same error, or panics, for both. Methods of types see the whole value; for types that have a marshal or omit method it has to be the same.", "quantifier": "every package, every struct type for which code is generated, every pair of its values that differ only in what is not written, all options, all slices to append to", "why_tests_cant": "The domain of byte strings is infinite; tests sample a handful of literals.", "anchors": ["internal/generator/append.go:44-118", "internal/generator/append.go:120-278"]}
{"id": "C151", "title": "Strings can be escaped and unescaped piece by piece", "statement": "A string that is cut between two characters can be escaped in parts: the escaped parts one after another are the escaped string, and so AppendEscaped can be called for one part after the other. The body of a JSON string that is cut between two characters or escapes can be unescaped in parts. Different strings have different escaped forms.", "quantifier": "all strings, all cuts between characters, any number of parts, with and without HTML escaping", "why_tests_cant": "tests escape whole strings; a decision that looks at the characters around a cut shows only for the right neighbours", "anchors": ["strjson/escape.go", "strjson/unescape.go"]}
{"id": "C152", "title": "Values that stand one after another in a text are read one after another", "statement": "Calls of Parse on one document, each with the tail that the one before has returned, read the values that stand one after another in a text, with white space between them (needed only behind numbers): all of them, in order, until the rest of the text is no value. Afterwards all the nodes have their trees, and whatever was in the document before is unchanged.", "quantifier": "every document in any state of reuse, all texts, any number of values", "why_tests_cant": "Histories of API calls are unbounded; tests exercise a few fixed short sequences.", "anchors": ["parser.go:14-34", "parser.go:83-398"]}
{"id": "C153", "title": "Strip called again", "statement": "After n.Strip(key) has returned, another n.Strip(key) changes nothing: the tree of n stays as the first call has left it.", "quantifier": "all well-formed heaps without sharing, nodes with a tree, keys and numbers of calls", "why_tests_cant": "The domain of byte strings is infinite; tests sample a handful of literals.", "anchors": ["node.go:347-367"]}
{"id": "C154", "title": "Strip called with several keys, in any order", "statement": "Calls of n.Strip, one for each of several keys, leave the tree of n without these keys; the order of the calls does not matter, up to the order of members in objects.", "quantifier": "all well-formed heaps without sharing, nodes with a tree, lists of keys and permutations of them", "why_tests_cant": "The domain of byte strings is infinite; tests sample a handful of literals.", "anchors": ["node.go:347-367"]}
