import Verif.Props.GenDec
import Verif.Proofs.GenFileCompile

/-! # The command `njson` (C96-C99) -/

namespace Verif.Props
open Verif Verif.Njson Verif.Unjson Verif.Gen Verif.GenFile

/-! ## C96: what is generated -/

/-- **C96 (partial)**: the command gets as far as writing its output *exactly* when the package can be loaded, the flags make sense, a struct type
is asked for by the second argument, and the generator supports all types that are asked for (with methods for reading whose text is Go).
Missing from the full claim: further arguments (`C96_false`). -/
theorem C96_succeeds_partial (W : World) (dir : List SrcFile) (f : Flags) (args : List Bytes) :
    (∃ fuel g, GenFile.build W fuel dir f args = .ok g) ↔
    ∃ name P o, PackageName W f args name ∧ Asked W f o ∧ load W dir name = some P ∧ asked W P args ≠ [] ∧
      ∀ typ ∈ asked W P args,
        (f.wantsUnmarshal → ∃ t, P.lookup typ = some t ∧ USupported P.env o t ∧
          ∃ fuel b, typeUnmarshaler P.env o fuel t = .ok b ∧ parses W.odd [.unmarshal (receiver typ) typ b!"UnmarshalNodeJSON" b] = true) ∧
        (f.wantsAppend → ∃ t, P.lookup typ = some t ∧ ASupported P.env o t) := by
  rw [build_iff]
  have key : ∀ (P : Package) (o : GenOptions) typ, CanWrite W.odd P o f typ ↔
      ((f.wantsUnmarshal → ∃ t, P.lookup typ = some t ∧ USupported P.env o t ∧
          ∃ fuel b, typeUnmarshaler P.env o fuel t = .ok b ∧ parses W.odd [.unmarshal (receiver typ) typ b!"UnmarshalNodeJSON" b] = true) ∧
        (f.wantsAppend → ∃ t, P.lookup typ = some t ∧ ASupported P.env o t)) := by
    intro P o typ
    unfold CanWrite
    constructor
    · rintro ⟨h1, h2⟩
      refine ⟨fun h => ?_, fun h => ?_⟩
      · obtain ⟨t, fuel, b, hl, hb, hp⟩ := h1 h
        exact ⟨t, hl, (C84_supported _ _ _).1 ⟨fuel, b, hb⟩, fuel, b, hb, hp⟩
      · obtain ⟨t, fuel, b, hl, hb⟩ := h2 h
        exact ⟨t, hl, (C77_append_supported _ _ _ _).1 ⟨fuel, b, hb⟩⟩
    · rintro ⟨h1, h2⟩
      refine ⟨fun h => ?_, fun h => ?_⟩
      · obtain ⟨t, hl, _, fuel, b, hb, hp⟩ := h1 h
        exact ⟨t, fuel, b, hl, hb, hp⟩
      · obtain ⟨t, hl, hs⟩ := h2 h
        obtain ⟨fuel, b, hb⟩ := (C77_append_supported _ _ _ []).2 hs
        exact ⟨t, fuel, b, hl, hb⟩
  simp only [key]

/-- **C96 (partial)**: and then the file has exactly the methods that are asked for: for every struct type of the package that the second argument
selects, in this order, one method for reading unless only writing was asked for, and one method for writing unless only reading was; each is what
the generator makes of the type (C76-C84) with the options that the flags ask for. -/
theorem C96_methods_partial {W : World} {fuel : Nat} {dir dir' : List SrcFile} {f : Flags} {args : List Bytes} {file : File}
    (h : main W fuel dir f args = (.ok file, dir')) :
    ∃ name P o, PackageName W f args name ∧ Asked W f o ∧ load W dir name = some P ∧ asked W P args ≠ [] ∧
      file.methods.map Method.key = (asked W P args).flatMap (wanted f) ∧ ∀ m ∈ file.methods, m.Of P o := by
  unfold main at h
  split at h
  · rename_i g hg
    obtain ⟨name, P, o, h1, h2, h3, h4, -, -, h5⟩ := build_ok hg
    have hm : file.methods = g.buffer := by
      unfold output at h
      split at h
      · cases h; rfl
      · split at h
        · cases h
        · simp only [Generator.printTo] at h
          split at h
          · cases h
          · rename_i file' hf
            split at hf
            · cases hf; cases h; rfl
            · cases hf
    rw [hm]
    exact ⟨name, P, o, h1, h2, h3, h4, h5.keys, h5.of⟩
  · cases h
  · cases h

/-- C96 is false of the code: types after the first are ignored, although the command says `[pkg] [type...]`. -/
theorem C96_false (W : World) (fuel : Nat) (dir : List SrcFile) (f : Flags) (pkg typ : Bytes) (more : List Bytes) :
    main W fuel dir f (pkg :: typ :: more) = main W fuel dir f [pkg, typ] := rfl

/-- And a mode of `-case` that does not exist is not an error: it is the same as none. -/
theorem C96_case (W : World) (fuel : Nat) (dir : List SrcFile) (f : Flags) (args : List Bytes) (mode : Bytes)
    (h : mode ∉ [b!"snake", b!"lower", b!"camel", b!"Camel"]) :
    main W fuel dir { f with caseMode := mode } args = main W fuel dir { f with caseMode := b!"none" } args := by
  have ho : options W { f with caseMode := mode } = options W { f with caseMode := b!"none" } := by
    unfold options
    have : (if mode ≠ b!"none" then transformCase W mode else id) = id := by
      simp only [List.mem_cons, List.not_mem_nil, or_false, not_or] at h
      unfold transformCase
      rw [if_neg h.1, if_neg h.2.1, if_neg h.2.2.1, if_neg h.2.2.2]
      split <;> rfl
    simp only [this]
    rfl
  have hp : prepare W dir { f with caseMode := mode } args = prepare W dir { f with caseMode := b!"none" } args := by
    unfold prepare
    rw [ho]
    rfl
  have hb : build W fuel dir { f with caseMode := mode } args = build W fuel dir { f with caseMode := b!"none" } args := by
    unfold GenFile.build
    rw [hp]
  unfold main
  rw [hb]
  rfl

/-- **C96**: loading the package: all files of the directory have to parse (those with tests only for a package of tests), and the package is what the
type checker makes of the files that were not generated by this command. -/
theorem C96_load (W : World) (dir : List SrcFile) (name : Bytes) (P : Package) : load W dir name = some P ↔
    (∀ x ∈ dir, ((∃ stem, name = stem ++ b!"_test") ∨ ¬ ∃ stem, x.name = stem ++ b!"_test.go") → W.syntaxOk x.text = true) ∧
    ∃ files, W.check files name = some P ∧ files.Sublist dir ∧
      ∀ keep : SrcFile → Bool, (∀ x, keep x = true ↔ ((∃ stem, name = stem ++ b!"_test") ∨ ¬ ∃ stem, x.name = stem ++ b!"_test.go") ∧
        ¬ ∃ text rest, W.comment x.text = some text ∧ text = b!"Code generated by njson" ++ rest) → files = dir.filter keep := by
  have hgen : ∀ c, isGenerated c = true ↔ ∃ text rest, c = some text ∧ text = b!"Code generated by njson" ++ rest := by
    intro c
    unfold isGenerated
    cases c with
    | none => simp
    | some t =>
      rw [decide_eq_true_eq]
      constructor
      · rintro ⟨r, h⟩
        exact ⟨t, r, rfl, h.symm⟩
      · rintro ⟨_, r, he, h⟩
        cases he
        exact ⟨r, h.symm⟩
  have hsuf : ∀ (a b : Bytes), a <:+ b ↔ ∃ stem, b = stem ++ a := fun a b => ⟨fun ⟨s, h⟩ => ⟨s, h.symm⟩, fun ⟨s, h⟩ => ⟨s, h.symm⟩⟩
  let keep : SrcFile → Bool := fun x => (decide (b!"_test" <:+ name) || !decide (b!"_test.go" <:+ x.name)) && !isGenerated (W.comment x.text)
  have hkeep : ∀ x, keep x = true ↔ ((∃ stem, name = stem ++ b!"_test") ∨ ¬ ∃ stem, x.name = stem ++ b!"_test.go") ∧
        ¬ ∃ text rest, W.comment x.text = some text ∧ text = b!"Code generated by njson" ++ rest := by
    intro x
    simp only [keep, Bool.and_eq_true, Bool.or_eq_true, decide_eq_true_eq, Bool.not_eq_true', ← hgen, hsuf, decide_eq_false_iff_not, Bool.not_eq_true]
  have hload : load W dir name = if (dir.all fun x => !(decide (b!"_test" <:+ name) || !decide (b!"_test.go" <:+ x.name)) || W.syntaxOk x.text) = true
      then W.check (dir.filter keep) name else none := by
    unfold load
    dsimp only
    by_cases ht : b!"_test" <:+ name
    · simp only [ht, if_true, keep, decide_true, Bool.true_or, Bool.not_true, Bool.false_or, Bool.true_and]
    · simp only [ht, if_false, keep, decide_false, Bool.false_or, List.all_filter, List.filter_filter]
      congr 1
      · simp
      · congr 2
        funext x
        by_cases hx : b!"_test.go" <:+ x.name <;> simp [hx]
  rw [hload]
  constructor
  · intro h
    split at h
    · rename_i hall
      rw [List.all_eq_true] at hall
      refine ⟨fun x hx hc => ?_, dir.filter keep, h, List.filter_sublist, fun k hk => ?_⟩
      · have := hall x hx
        rw [← hsuf, ← hsuf] at hc
        rcases hc with hc | hc <;> simpa [hc] using this
      · apply List.filter_congr
        intro x _
        rw [Bool.eq_iff_iff, hkeep, hk]
    · cases h
  · rintro ⟨hall, files, hc, -, hf⟩
    rw [if_pos, ← hf keep hkeep, hc]
    rw [List.all_eq_true]
    intro x hx
    have := hall x hx
    rw [← hsuf, ← hsuf] at this
    by_cases h1 : b!"_test" <:+ name
    · simp [this (.inl h1)]
    · by_cases h2 : b!"_test.go" <:+ x.name
      · simp [h1, h2]
      · simp [this (.inr h2)]

/-! ### An example -/

/-- A directory with one source file, whose package has the struct types `A`, `B` and `Ä`. -/
def exWorld : World where
  absBase := fun _ => some b!"things.v2"
  compile := fun s => if s = b!"^A" then some fun n => b!"A" <+: n else none
  syntaxOk := fun s => s ≠ []
  comment := fun s => if b!"//" <+: s then some (commentText (s.takeWhile (· ≠ 10))) else none
  check := fun fs name => if name = b!"things" ∧ fs.length = 1 then
    some ⟨b!"things", [b!"A", b!"B", [0xC3, 0x84]],
      fun n => if n = b!"A" then some (.struct 9) else if n = b!"B" then some (.struct 20) else if n = [0xC3, 0x84] then some (.struct 1) else none, genE⟩
    else none
  snake := id
  lower := id
  camel := id
  upperCamel := id
  creates := fun _ => true
  now := b!"Mon, 16 Nov 2026 12:00:00 UTC"
  order := id
  hi := fun _ => false
  odd := fun _ => false
  format := fun _ => b!"package things"

def exDir : List SrcFile := [⟨b!"things.go", b!"package things"⟩]

theorem exWorld_go : exWorld.Go where
  comment := by
    intro line rest h hn
    have h1 : b!"//" <+: line ++ [10] ++ b!"package " ++ rest := h.trans ⟨[10] ++ b!"package " ++ rest, by simp⟩
    have h2 : (line ++ [10] ++ b!"package " ++ rest).takeWhile (· ≠ 10) = line := by
      have : ∀ l : Bytes, 10 ∉ l → ∀ r, (l ++ 10 :: r).takeWhile (· ≠ 10) = l := by
        intro l
        induction l with
        | nil => simp
        | cons c l ih =>
          intro h r
          simp only [List.mem_cons, not_or] at h
          rw [List.cons_append, List.takeWhile_cons, if_pos (by simpa using Ne.symm h.1), ih h.2]
      have := this line hn (b!"package " ++ rest)
      simpa using this
    change (if _ then some (commentText _) else none) = _
    rw [if_pos h1, h2]
  empty := rfl
  format := fun _ => ⟨b!"things", rfl⟩

/-- The types whose name begins with `A`, and both methods. -/
example : ((main exWorld 10 exDir {} [[], b!"^A"]).1 matches .ok _) ∧
    (match (main exWorld 10 exDir {} [[], b!"^A"]).1 with | .ok file => file.methods.map Method.key | _ => []) =
      [(b!"A", b!"UnmarshalNodeJSON"), (b!"A", b!"AppendJSON")] := by
  constructor <;> decide +kernel

/-- All types cannot be generated: the name of the third one begins with a character that is not ASCII. -/
example : (main exWorld 10 exDir {} []).1 matches .fatal .unsupported := by decide +kernel

/-! ## C97: the file -/

/-- A file with the methods in the buffer, and the imports in some order -/
def FileOf (g : Generator) (file : File) : Prop := file.methods = g.buffer ∧ file.imports.Perm g.imports

/-- **C97**: the generator imports exactly the packages that the methods mention, except packages with the path of the package itself; provided
that there is no code for durations. Every package is imported once. -/
theorem C97_imports {W : World} {fuel : Nat} {dir : List SrcFile} {f : Flags} {args : List Bytes} {g : Generator}
    (h : GenFile.build W fuel dir f args = .ok g) {file : File} (hf : FileOf g file) (hd : ∀ m ∈ g.buffer, m.noDuration = true) :
    (∀ p, p ∈ file.imports ↔ p.path ≠ g.name ∧ ∃ m ∈ file.methods, p ∈ m.mentions) ∧ file.imports.Nodup := by
  obtain ⟨_, _, _, _, _, _, _, _, hs, _⟩ := build_ok h
  constructor
  · intro p
    rw [hf.2.mem_iff, hs.mem, hf.1]
    constructor
    · rintro ⟨h1, m, hm, hp⟩
      exact ⟨h1, m, hm, (Method.mentions_mem (hd m hm) p).2 hp⟩
    · rintro ⟨h1, m, hm, hp⟩
      exact ⟨h1, m, hm, (Method.mentions_mem (hd m hm) p).1 hp⟩
  · rw [hf.2.nodup_iff]
    exact hs.nodup.of_map _

/-- The lines of a text -/
def linesOf (ls : List Bytes) : Bytes := (ls.flatMap fun l => l ++ [10]).dropLast

theorem joinLines_eq : ∀ ls : List Bytes, joinLines ls = linesOf ls
  | [] => rfl
  | [l] => by simp [joinLines, linesOf]
  | l :: l' :: ls => by
    rw [joinLines, joinLines_eq (l' :: ls)]
    · unfold linesOf
      have hne : ((l' :: ls).flatMap fun l => l ++ [10]) ≠ [] := by simp
      rw [List.flatMap_cons (x := l), List.dropLast_append_of_ne_nil hne]
    · simp

/-- **C97**: the header of the file, line by line: the comment, the package clause, and an import declaration with the path of each import. -/
theorem C97_header {W : World} {fuel : Nat} {dir dir' : List SrcFile} {f : Flags} {args : List Bytes} {file : File}
    (h : main W fuel dir f args = (.ok file, dir')) (ho : ∀ l, (W.order l).Perm l) :
    ∃ name P, PackageName W f args name ∧ load W dir name = some P ∧
      file.header = linesOf ((b!"// Code generated by njson on " ++ W.now ++ b!"; DO NOT EDIT.") :: (b!"package " ++ P.name) ::
        file.imports.map fun p => b!"import \"" ++ p.path ++ b!"\"") := by
  have hmain : ∃ g, GenFile.build W fuel dir f args = .ok g ∧ file = ⟨header W.hi W.now g.name (W.order g.imports), W.order g.imports, g.buffer⟩ := by
    unfold main at h
    split at h
    · rename_i g hg
      refine ⟨g, hg, ?_⟩
      unfold output at h
      split at h
      · cases h; rfl
      · split at h
        · cases h
        · simp only [Generator.printTo] at h
          split at h
          · cases h
          · rename_i file' hf
            split at hf
            · cases hf; cases h; rfl
            · cases hf
    · cases h
    · cases h
  obtain ⟨g, hg, rfl⟩ := hmain
  obtain ⟨name, P, o, h1, h2, h3, h4, h5, hs, hm⟩ := build_ok hg
  refine ⟨name, P, h1, h3, ?_⟩
  dsimp only
  unfold header
  rw [joinLines_eq, h5]
  have : (W.order g.imports).map (importLine W.hi) = (W.order g.imports).map fun p => b!"import \"" ++ p.path ++ b!"\"" := by
    apply List.map_congr_left
    intro p hp
    have hk := hs.known p ((ho _).mem_iff.1 hp)
    have hq : ∀ s : Bytes, (∀ c ∈ s, c = 46 ∨ c = 47 ∨ 97 ≤ c ∧ c ≤ 122) → ErrText.quoteStr W.hi s = b!"\"" ++ s ++ b!"\"" := by
      have hc : ∀ c : UInt8, (c = 46 ∨ c = 47 ∨ 97 ≤ c ∧ c ≤ 122) → c < 0x80 ∧ ErrText.escapedRune W.hi 34 c.toNat = [c] := by
        intro c hc
        have : ErrText.escapedRune W.hi 34 c.toNat = ErrText.escapedRune (fun _ => false) 34 c.toNat := by
          have h8 := c.toNat_lt
          have hp : ErrText.isPrint W.hi c.toNat = ErrText.isPrint (fun _ => false) c.toNat := by
            unfold ErrText.isPrint
            rw [if_pos (by omega), if_pos (by omega)]
          unfold ErrText.escapedRune
          rw [hp]
        rw [this]
        clear this
        revert c
        exact forall_byte (by decide +kernel)
      have hl : ∀ (s : Bytes), (∀ c ∈ s, c = 46 ∨ c = 47 ∨ 97 ≤ c ∧ c ≤ 122) → ErrText.quotedLoop W.hi s.length s = s := by
        intro s
        induction s with
        | nil => intro _; rfl
        | cons c s ih =>
          intro hs
          obtain ⟨h1, h2⟩ := hc c (hs c (by simp))
          rw [List.length_cons, ErrText.quotedLoop]
          simp only [h1, if_true]
          rw [if_neg, h2]
          · simp only [List.drop_succ_cons, List.drop_zero, List.cons_append, List.nil_append]
            rw [ih fun c hc => hs c (by simp [hc])]
          · rintro ⟨-, h⟩
            have := UInt8.lt_iff_toNat_lt.1 h1
            simp [runeError] at h this
            omega
      intro s hs
      unfold ErrText.quoteStr
      rw [hl s hs]
    have hpath : ∀ p ∈ knownPkgs, base p.path = p.name ∧ ∀ c ∈ p.path, c = 46 ∨ c = 47 ∨ 97 ≤ c ∧ c ≤ 122 := by decide +kernel
    obtain ⟨e1, e2⟩ := hpath p hk
    unfold importLine
    rw [if_pos e1, hq _ e2]
    simp
  rw [this]

/-- **C97 (partial)**: the generated file compiles together with the rest of its package *exactly* when for every type that was asked for: its name begins
with a letter of ASCII; it has no method or field with the name of a generated method; the methods compile (C76, C83); and no method mentions a package
with the path of the package itself.
Missing from the full claim: the types for which one of this is not so, for which the command succeeds all the same. -/
theorem C97_compiles_partial {W : World} {fuel : Nat} {dir : List SrcFile} {f : Flags} {args : List Bytes} {g : Generator}
    (h : GenFile.build W fuel dir f args = .ok g) {file : File} (hf : FileOf g file) (declared : Bytes × Bytes → Prop) :
    ∃ name P o, PackageName W f args name ∧ Asked W f o ∧ load W dir name = some P ∧
      (P.env.Ok → P.structs.Nodup → (∀ t ∈ P.structs, IdentName t) →
      (file.Compiles P declared ↔
        (∀ typ ∈ asked W P args, AsciiName typ ∧ (∀ k ∈ wanted f typ, ¬ declared k) ∧
          (f.wantsUnmarshal → ∃ t, P.lookup typ = some t ∧ canHaveMethod P.env.U t = true ∧ UCompiles P.env o true t ∧ UNotVoid P.env o t) ∧
          (f.wantsAppend → ∃ t, P.lookup typ = some t ∧ canHaveMethod P.env.U t = true ∧
            (Marshals P.env.U t ∨ ∃ j, t = .struct j ∧ ACompiles P.env o [] t))) ∧
        ∀ m ∈ file.methods, ∀ p ∈ m.mentions, p.path ≠ P.name)) := by
  obtain ⟨name, P, o, h1, h2, h3, h4, h5, hs, hm⟩ := build_ok h
  refine ⟨name, P, o, h1, h2, h3, fun hE hnd hid => ?_⟩
  have hsub : ∀ t ∈ asked W P args, t ∈ P.structs := by
    intro t ht
    unfold asked at ht
    exact (List.mem_filter.1 ht).1
  have hmem : ∀ t ∈ asked W P args, (f.wantsUnmarshal → ∃ b, Method.unmarshal (receiver t) t b!"UnmarshalNodeJSON" b ∈ g.buffer) ∧
      (f.wantsAppend → ∃ b, Method.append (receiver t) t b!"AppendJSON" b ∈ g.buffer) := by
    intro t ht
    have hk : ∀ k ∈ wanted f t, ∃ m ∈ g.buffer, m.key = k := by
      intro k hk
      have : k ∈ g.buffer.map Method.key := by
        rw [hm.keys]
        exact List.mem_flatMap.2 ⟨t, ht, hk⟩
      simpa using this
    constructor
    · intro hu
      obtain ⟨m, hmem, hkey⟩ := hk (t, b!"UnmarshalNodeJSON") (by simp [wanted, hu])
      have := hm.of m hmem
      cases m with
      | append r typ n b =>
        obtain ⟨_, hn, _⟩ := this
        subst hn
        simp [Method.key] at hkey
      | unmarshal r typ n b =>
        obtain ⟨hr, hn, _⟩ := this
        subst hr hn
        simp only [Method.key, Prod.mk.injEq] at hkey
        obtain ⟨rfl, -⟩ := hkey
        exact ⟨b, hmem⟩
    · intro ha
      obtain ⟨m, hmem, hkey⟩ := hk (t, b!"AppendJSON") (by simp [wanted, ha])
      have := hm.of m hmem
      cases m with
      | unmarshal r typ n b =>
        obtain ⟨_, hn, _⟩ := this
        subst hn
        simp [Method.key] at hkey
      | append r typ n b =>
        obtain ⟨hr, hn, _⟩ := this
        subst hr hn
        simp only [Method.key, Prod.mk.injEq] at hkey
        obtain ⟨rfl, -⟩ := hkey
        exact ⟨b, hmem⟩
  -- every method belongs to a type that was asked for
  have hback : ∀ m ∈ g.buffer, ∃ t ∈ asked W P args, m.key ∈ wanted f t := by
    intro m hmm
    have : m.key ∈ g.buffer.map Method.key := List.mem_map_of_mem hmm
    rw [hm.keys] at this
    exact List.mem_flatMap.1 this
  have hwant : ∀ t k, k ∈ wanted f t ↔ (f.wantsUnmarshal ∧ k = (t, b!"UnmarshalNodeJSON")) ∨ (f.wantsAppend ∧ k = (t, b!"AppendJSON")) := by
    intro t k
    unfold wanted
    by_cases hu : f.wantsUnmarshal <;> by_cases ha : f.wantsAppend <;> simp [hu, ha]
  have hone : f.wantsUnmarshal ∨ f.wantsAppend := by
    unfold Flags.wantsUnmarshal Flags.wantsAppend
    cases hx : f.append <;> simp
  have hcomp : ∀ m ∈ g.buffer, ∀ t ∈ asked W P args, m.key.1 = t → (m.compiles P = true ↔ AsciiName t ∧
      (m.key.2 = b!"UnmarshalNodeJSON" → ∃ ty, P.lookup t = some ty ∧ canHaveMethod P.env.U ty = true ∧ UCompiles P.env o true ty ∧ UNotVoid P.env o ty) ∧
      (m.key.2 = b!"AppendJSON" → ∃ ty, P.lookup t = some ty ∧ canHaveMethod P.env.U ty = true ∧
            (Marshals P.env.U ty ∨ ∃ j, ty = .struct j ∧ ACompiles P.env o [] ty))) := by
    intro m hmm t ht hkt
    have hof := hm.of m hmm
    have hrecv := receiver_ok (hid t (hsub t ht))
    cases m with
    | append r typ n b =>
      obtain ⟨hr, hn, ty, fu, hl, hb⟩ := hof
      subst hr hn
      simp only [Method.key] at hkt
      subst hkt
      have hc := appenderCompiles_iff hE hb
      simp only [Method.compiles, hl, Bool.and_eq_true, decide_eq_true_eq, hrecv, hc, Method.key, Option.some.injEq, exists_eq_left']
      constructor
      · rintro ⟨h1, h2⟩
        exact ⟨h1, fun hh => absurd hh (by decide), fun _ => h2⟩
      · rintro ⟨h1, _, h2⟩
        exact ⟨h1, h2 trivial⟩
    | unmarshal r typ n b =>
      obtain ⟨hr, hn, ty, fu, hl, hb⟩ := hof
      subst hr hn
      simp only [Method.key] at hkt
      subst hkt
      have hc := unmarshalerCompiles_iff hE hb
      simp only [Method.compiles, hl, Bool.and_eq_true, decide_eq_true_eq, hrecv, hc, Method.key, Option.some.injEq, exists_eq_left']
      constructor
      · rintro ⟨h1, h2⟩
        exact ⟨h1, fun _ => h2, fun hh => absurd hh (by decide)⟩
      · rintro ⟨h1, h2, _⟩
        exact ⟨h1, h2 trivial⟩
  constructor
  · intro hc
    constructor
    · intro t ht
      obtain ⟨hu, ha⟩ := hmem t ht
      refine ⟨?_, ?_, ?_, ?_⟩
      · rcases hone with hw | hw
        · obtain ⟨b, hb⟩ := hu hw
          exact ((hcomp _ hb t ht rfl).1 (hc.methods _ (hf.1 ▸ hb))).1
        · obtain ⟨b, hb⟩ := ha hw
          exact ((hcomp _ hb t ht rfl).1 (hc.methods _ (hf.1 ▸ hb))).1
      · intro k hk
        rcases (hwant t k).1 hk with ⟨hw, rfl⟩ | ⟨hw, rfl⟩
        · obtain ⟨b, hb⟩ := hu hw
          exact hc.fresh _ (hf.1 ▸ hb)
        · obtain ⟨b, hb⟩ := ha hw
          exact hc.fresh _ (hf.1 ▸ hb)
      · intro hw
        obtain ⟨b, hb⟩ := hu hw
        exact ((hcomp _ hb t ht rfl).1 (hc.methods _ (hf.1 ▸ hb))).2.1 rfl
      · intro hw
        obtain ⟨b, hb⟩ := ha hw
        exact ((hcomp _ hb t ht rfl).1 (hc.methods _ (hf.1 ▸ hb))).2.2 rfl
    · intro m hmm p hp
      have := hf.2.mem_iff.1 (hc.imported m hmm p hp)
      rw [← h5]
      exact ((hs.mem p).1 this).1
  · rintro ⟨hall, hpath⟩
    have hcm : ∀ m ∈ g.buffer, m.compiles P = true := by
      intro m hmm
      obtain ⟨t, ht, hk⟩ := hback m hmm
      obtain ⟨a1, a2, a3, a4⟩ := hall t ht
      have hkt : m.key.1 = t := by rcases (hwant t _).1 hk with ⟨_, h⟩ | ⟨_, h⟩ <;> rw [h]
      refine (hcomp m hmm t ht hkt).2 ⟨a1, ?_, ?_⟩
      · intro hn
        rcases (hwant t _).1 hk with ⟨hw, h⟩ | ⟨_, h⟩
        · exact a3 hw
        · rw [h] at hn; simp at hn
      · intro hn
        rcases (hwant t _).1 hk with ⟨_, h⟩ | ⟨hw, h⟩
        · rw [h] at hn; simp at hn
        · exact a4 hw
    have hnd' : ∀ m ∈ g.buffer, m.noDuration = true := fun m hmm => Method.noDuration_of_compiles (hcm m hmm)
    obtain ⟨hi, _⟩ := C97_imports h hf hnd'
    refine ⟨?_, ?_, ?_, ?_, ?_, ?_⟩
    · rw [hf.1]; exact hcm
    · intro m hmm p hp
      exact (hi p).2 ⟨by rw [h5]; exact hpath m hmm p hp, m, hmm, hp⟩
    · intro p hp
      obtain ⟨_, m, hmm, hp⟩ := (hi p).1 hp
      exact ⟨m, hmm, hp⟩
    · refine List.Nodup.map_on ?_ (hf.2.nodup_iff.2 (hs.nodup.of_map _))
      intro p hp q hq hpq
      exact known_name p (hs.known p (hf.2.mem_iff.1 hp)) q (hs.known q (hf.2.mem_iff.1 hq)) hpq
    · rw [hf.1, hm.keys]
      rw [List.nodup_flatMap]
      constructor
      · intro t _
        unfold wanted
        by_cases hu : f.wantsUnmarshal <;> by_cases ha : f.wantsAppend <;> simp [hu, ha]
      · have hna : (asked W P args).Nodup := by
          unfold asked
          exact hnd.filter _
        refine hna.imp ?_
        intro a b hab x hxa hxb
        apply hab
        have e1 : x.1 = a := by rcases (hwant a x).1 hxa with ⟨_, h⟩ | ⟨_, h⟩ <;> rw [h]
        have e2 : x.1 = b := by rcases (hwant b x).1 hxb with ⟨_, h⟩ | ⟨_, h⟩ <;> rw [h]
        rw [← e1, e2]
    · intro m hmm
      rw [hf.1] at hmm
      obtain ⟨t, ht, hk⟩ := hback m hmm
      exact (hall t ht).2.1 _ hk

/-- The example: the type `A` of the package meets the conditions. -/
example : ∃ g, GenFile.build exWorld 10 exDir {} [b!"things", b!"A"] = .ok g ∧ (∀ m ∈ g.buffer, m.compiles ⟨b!"things", [b!"A"],
    fun n => if n = b!"A" then some (.struct 9) else none, genE⟩ = true) ∧ g.imports = [strconvPkg, strjsonPkg, njsonPkg] := by
  have h : (match GenFile.build exWorld 10 exDir {} [b!"things", b!"A"] with
    | .ok g => g.buffer.all (fun m => m.compiles ⟨b!"things", [b!"A"], fun n => if n = b!"A" then some (.struct 9) else none, genE⟩) &&
        g.imports = [strconvPkg, strjsonPkg, njsonPkg]
    | _ => false) = true := by decide +kernel
  split at h
  · rename_i g hg
    rw [Bool.and_eq_true, decide_eq_true_eq, List.all_eq_true] at h
    exact ⟨g, hg, h⟩
  · cases h

/-- The same world, with another name of the package -/
def strconvWorld : World := { exWorld with
  check := fun _ _ => some ⟨b!"strconv", [b!"A"], fun n => if n = b!"A" then some (.struct 17) else none, genE⟩ }

/-- C97 is false of the code: a package with the name (and so, for the generator, the path) of a standard package does not import it. The methods of
`type A struct { L []int }` in a package `strconv` mention strconv, and the file does not import it. -/
theorem C97_false : ∃ g, GenFile.build strconvWorld 10 exDir {} [] = .ok g ∧ ∀ declared file P, FileOf g file → ¬ file.Compiles P declared := by
  have h : (match GenFile.build strconvWorld 10 exDir {} [] with
    | .ok g => decide (strconvPkg ∉ g.imports) && g.buffer.any (fun m => decide (strconvPkg ∈ m.mentions))
    | _ => false) = true := by decide +kernel
  split at h
  · rename_i g hg
    rw [Bool.and_eq_true, decide_eq_true_eq, List.any_eq_true] at h
    obtain ⟨h1, m, hm, h2⟩ := h
    rw [decide_eq_true_eq] at h2
    refine ⟨g, hg, fun declared file P hf hc => ?_⟩
    exact h1 (hf.2.mem_iff.1 (hc.imported m (hf.1 ▸ hm) _ h2))
  · cases h

/-- And a type that has a method of its own gets a second one, in any package: the file never compiles. -/
theorem C97_false_declared {W : World} {fuel : Nat} {dir : List SrcFile} {f : Flags} {args : List Bytes} {g : Generator}
    (h : GenFile.build W fuel dir f args = .ok g) {file : File} (hf : FileOf g file) {declared : Bytes × Bytes → Prop} {k : Bytes × Bytes}
    (hk : declared k) : (∃ name P, PackageName W f args name ∧ load W dir name = some P ∧ ∃ t ∈ asked W P args, k ∈ wanted f t) →
    ∀ P, ¬ file.Compiles P declared := by
  rintro ⟨name, P, hn, hl, t, ht, hkt⟩ P' hc
  obtain ⟨name', P'', o, h1, -, h3, -, -, -, hm⟩ := build_ok h
  have e1 : name = name' := by
    have a := packageName_ok.2 hn
    have b := packageName_ok.2 h1
    rw [a] at b
    cases b
    rfl
  subst e1
  rw [hl] at h3
  cases h3
  have : k ∈ g.buffer.map Method.key := by
    rw [hm.keys]
    exact List.mem_flatMap.2 ⟨t, ht, hkt⟩
  obtain ⟨m, hmm, rfl⟩ := List.mem_map.1 this
  exact hc.fresh m (hf.1 ▸ hmm) hk

/-! ## C98: the file is written, and known again -/

/-- The generator that is done -/
theorem main_ok {W : World} {fuel : Nat} {dir dir' : List SrcFile} {f : Flags} {args : List Bytes} {file : File}
    (h : main W fuel dir f args = (.ok file, dir')) : ∃ g, GenFile.build W fuel dir f args = .ok g ∧ output W dir f g = (.ok file, dir') := by
  unfold main at h
  split at h
  · rename_i g hg
    exact ⟨g, hg, h⟩
  · cases h
  · cases h

theorem putFile_twice (dir : List SrcFile) (n a b : Bytes) : putFile (putFile dir ⟨n, a⟩) ⟨n, b⟩ = putFile dir ⟨n, b⟩ := by
  simp only [putFile, List.filter_cons, ne_eq, not_true_eq_false, decide_false, List.filter_filter, Bool.and_self]
  rfl

theorem output_write {W : World} {dir dir' : List SrcFile} {f : Flags} {g : Generator} {file : File} (hw : f.write = true) (hd : f.debug = false)
    (h : output W dir f g = (.ok file, dir')) : dir' = putFile dir ⟨g.filename, fileText W file⟩ ∧
      file = ⟨header W.hi W.now g.name (W.order g.imports), W.order g.imports, g.buffer⟩ ∧ parses W.odd g.buffer = true ∧ W.creates g.filename = true := by
  unfold output at h
  rw [if_neg (by simp [hd])] at h
  split at h
  · cases h
  · rename_i hc
    simp only [Generator.printTo] at h
    split at h
    · cases h
    · rename_i file' hf
      split at hf
      · rename_i hp
        cases hf
        cases h
        refine ⟨?_, rfl, hp, by simpa [hw] using hc⟩
        simp only [putFile_twice]
      · cases hf

/-- **C98**: with `-w` the output is written to one file of the directory, with the name of the package (`NAME_njson.go`, for a package of tests
`NAME_njson_test.go`); the other files are as they were. -/
theorem C98_writes {W : World} {fuel : Nat} {dir dir' : List SrcFile} {f : Flags} {args : List Bytes} {file : File}
    (hw : f.write = true) (hd : f.debug = false) (h : main W fuel dir f args = (.ok file, dir')) :
    ∃ name P, PackageName W f args name ∧ load W dir name = some P ∧
      ∀ x, x ∈ dir' ↔ (x = ⟨Generator.filename { name := P.name }, fileText W file⟩ ∨ (x ∈ dir ∧ x.name ≠ Generator.filename { name := P.name })) := by
  obtain ⟨g, hg, ho⟩ := main_ok h
  obtain ⟨name, P, o, h1, -, h3, -, h5, -⟩ := build_ok hg
  obtain ⟨rfl, -⟩ := output_write hw hd ho
  have hfn : g.filename = Generator.filename { name := P.name } := by
    unfold Generator.filename
    rw [h5]
  refine ⟨name, P, h1, h3, fun x => ?_⟩
  rw [hfn]
  simp [putFile]

/-- Without `-w`, or with `-d`, no file changes; nor when the command fails before it has an output, or the file cannot be created. -/
theorem C98_untouched {W : World} {fuel : Nat} {dir : List SrcFile} {f : Flags} {args : List Bytes}
    (h : f.write = false ∨ f.debug = true ∨ (∀ g, GenFile.build W fuel dir f args ≠ .ok g) ∨ ∀ name, W.creates name = false) : (main W fuel dir f args).2 = dir := by
  unfold main
  split
  · rename_i g hg
    unfold output
    rcases h with h | h | h | h
    · split
      · rfl
      · rw [if_neg (by simp [h])]
        simp only [h, Bool.false_eq_true, if_false]
        split <;> rfl
    · rw [if_pos h]
    · exact absurd hg (h g)
    · split
      · rfl
      · split
        · rfl
        · rename_i hw
          have hw : f.write = false := by simpa [h] using hw
          simp only [hw, Bool.false_eq_true, if_false]
          split <;> rfl
  · rfl
  · rfl

/-- Whatever happens, no other file is written or removed. -/
theorem C98_others {W : World} {fuel : Nat} {dir : List SrcFile} {f : Flags} {args : List Bytes} {x : SrcFile}
    (hx : ∀ name P, PackageName W f args name → load W dir name = some P → x.name ≠ Generator.filename { name := P.name }) :
    x ∈ (main W fuel dir f args).2 ↔ x ∈ dir := by
  unfold main
  split
  · rename_i g hg
    obtain ⟨name, P, o, h1, -, h3, -, h5, -⟩ := build_ok hg
    have hfn : g.filename = Generator.filename { name := P.name } := by
      unfold Generator.filename
      rw [h5]
    have hn : x.name ≠ g.filename := by rw [hfn]; exact hx name P h1 h3
    have hput : ∀ (l : List SrcFile) (t : Bytes), x ∈ putFile l ⟨g.filename, t⟩ ↔ x ∈ l := by
      intro l t
      have : x ≠ ⟨g.filename, t⟩ := fun e => hn (by rw [e])
      simp [putFile, this, hn]
    unfold output
    split
    · rfl
    · split
      · rfl
      · dsimp only
        by_cases hw : f.write = true
        · simp only [hw, if_true]
          split
          · exact hput _ _
          · rw [hput, hput]
        · simp only [hw]
          split <;> simp
  · rfl
  · rfl

/-- The name of the file: `NAME_njson.go`, and for the package `NAME_test` it is `NAME_njson_test.go`. -/
theorem C98_name (name file : Bytes) : Generator.filename { name := name } = file ↔
    ((¬ ∃ stem, name = stem ++ b!"_test") ∧ file = name ++ b!"_njson.go") ∨ ∃ stem, name = stem ++ b!"_test" ∧ file = stem ++ b!"_njson_test.go" := by
  unfold Generator.filename
  dsimp only
  by_cases h : b!"_test" <:+ name
  · rw [if_pos h]
    obtain ⟨stem, rfl⟩ := h
    constructor
    · rintro rfl
      exact .inr ⟨stem, rfl, by simp⟩
    · rintro (⟨hn, -⟩ | ⟨s, hs, rfl⟩)
      · exact absurd ⟨stem, rfl⟩ hn
      · have := List.append_cancel_right hs
        subst this
        simp
  · rw [if_neg h]
    have hn : ¬ ∃ stem, name = stem ++ b!"_test" := fun ⟨s, hs⟩ => h ⟨s, hs.symm⟩
    constructor
    · rintro rfl
      exact .inl ⟨hn, rfl⟩
    · rintro (⟨-, rfl⟩ | ⟨s, hs, rfl⟩)
      · rfl
      · exact absurd ⟨s, hs⟩ hn

/-- Different packages have different files. -/
theorem C98_filename (a b : Bytes) (h : Generator.filename { name := a } = Generator.filename { name := b }) : a = b := by
  unfold Generator.filename at h
  dsimp only at h
  have key : ∀ a b : Bytes, a ++ b!"_njson.go" ≠ b ++ b!"_njson_test.go" := by
    intro a b h
    have := congrArg (fun l => l.reverse.take 4) h
    simp at this
  split at h <;> split at h
  · rename_i h1 h2
    obtain ⟨x, rfl⟩ := h1
    obtain ⟨y, rfl⟩ := h2
    simpa using h
  · exact absurd h.symm (key _ _)
  · exact absurd h (key _ _)
  · exact List.append_cancel_right h

theorem takeWhile_line {l : Bytes} (h : 10 ∉ l) (r : Bytes) : (l ++ 10 :: r).takeWhile (· ≠ 10) = l := by
  induction l with
  | nil => simp
  | cons c l ih =>
    simp only [List.mem_cons, not_or] at h
    rw [List.cons_append, List.takeWhile_cons, if_pos (by simpa using Ne.symm h.1), ih h.2]

/-- **C98**: a file that the command wrote, whatever the time, is known as generated. -/
theorem C98_known {W : World} (hW : W.Go) (hts : 10 ∉ W.now) (name : Bytes) (ps : List Pkg) (ms : List Method) :
    isGenerated (W.comment (fileText W ⟨header W.hi W.now name ps, ps, ms⟩)) = true := by
  have hl : (header W.hi W.now name ps).takeWhile (· ≠ 10) = b!"// Code generated by njson on " ++ W.now ++ b!"; DO NOT EDIT." := by
    have : ∃ r, header W.hi W.now name ps = (b!"// Code generated by njson on " ++ W.now ++ b!"; DO NOT EDIT.") ++ 10 :: r := by
      unfold header
      exact ⟨joinLines ((b!"package " ++ name) :: ps.map (importLine W.hi)), by rw [joinLines]; simp; simp⟩
    obtain ⟨r, hr⟩ := this
    rw [hr, takeWhile_line]
    simp [hts]
  unfold fileText
  dsimp only
  rw [hl]
  obtain ⟨r, hr⟩ := hW.format ⟨header W.hi W.now name ps, ps, ms⟩
  rw [← hr]
  have := hW.comment (b!"// Code generated by njson on " ++ W.now ++ b!"; DO NOT EDIT.") r
    ⟨b!" Code generated by njson on " ++ W.now ++ b!"; DO NOT EDIT.", by simp⟩ (by simp [hts])
  rw [← List.append_assoc, this]
  have hc : commentText (b!"// Code generated by njson on " ++ W.now ++ b!"; DO NOT EDIT.") =
      b!"Code generated by njson on " ++ W.now ++ b!"; DO NOT EDIT.\n" := by
    have e : b!"// Code generated by njson on " ++ W.now ++ b!"; DO NOT EDIT." =
        47 :: 47 :: 32 :: (b!"Code generated by njson on " ++ W.now ++ b!"; DO NOT EDIT" ++ [46]) := by simp
    rw [e]
    unfold commentText
    simp only [List.drop_succ_cons, List.drop_zero]
    rw [List.reverse_append, List.reverse_singleton, List.singleton_append, List.dropWhile_cons, if_neg (by decide)]
    simp
  rw [hc]
  unfold isGenerated
  rw [decide_eq_true_eq]
  exact ⟨b!" on " ++ W.now ++ b!"; DO NOT EDIT.\n", by simp⟩

theorem packageName_one {W : World} {f : Flags} {args : List Bytes} {a b : Bytes} (h1 : PackageName W f args a) (h2 : PackageName W f args b) :
    a = b := by
  have h1 := packageName_ok.2 h1
  have h2 := packageName_ok.2 h2
  rw [h1] at h2
  cases h2
  rfl

/-- A file that is generated and can be parsed makes no difference when the package is loaded. -/
theorem load_putFile {W : World} {dir : List SrcFile} {name : Bytes} {x : SrcFile} {P : Package} (hl : load W dir name = some P)
    (h1 : W.syntaxOk x.text = true) (h2 : isGenerated (W.comment x.text) = true)
    (hold : ∀ y ∈ dir, y.name = x.name → isGenerated (W.comment y.text) = true) : load W (putFile dir x) name = some P := by
  have key : ∀ keep : SrcFile → Bool, (dir.filter keep).all (fun f => W.syntaxOk f.text) = true →
      ((putFile dir x).filter keep).all (fun f => W.syntaxOk f.text) = true ∧
      ((putFile dir x).filter keep).filter (fun f => !isGenerated (W.comment f.text)) = (dir.filter keep).filter (fun f => !isGenerated (W.comment f.text)) := by
    intro keep hall
    rw [List.all_eq_true] at hall
    constructor
    · rw [List.all_eq_true]
      intro y hy
      obtain ⟨hy, hk⟩ := List.mem_filter.1 hy
      rcases List.mem_cons.1 hy with rfl | hy
      · exact h1
      · exact hall y (List.mem_filter.2 ⟨(List.mem_filter.1 hy).1, hk⟩)
    · unfold putFile
      rw [List.filter_filter, List.filter_cons, if_neg (by simp [h2]), List.filter_filter, List.filter_filter]
      apply List.filter_congr
      intro y hy
      by_cases hn : y.name = x.name
      · simp [hold y hy hn]
      · simp [hn]
  unfold load at hl ⊢
  dsimp only at hl ⊢
  by_cases ht : b!"_test" <:+ name
  · rw [if_pos ht] at hl ⊢
    by_cases hall : (dir.all fun f => W.syntaxOk f.text) = true
    · have := key (fun _ => true) (by rw [List.filter_true]; exact hall)
      simp only [List.filter_true] at this
      rw [if_pos this.1, this.2]
      rw [if_pos hall] at hl
      exact hl
    · rw [if_neg hall] at hl
      cases hl
  · rw [if_neg ht] at hl ⊢
    by_cases hall : ((dir.filter fun f => decide ¬ b!"_test.go" <:+ f.name).all fun f => W.syntaxOk f.text) = true
    · have := key (fun f => decide ¬ b!"_test.go" <:+ f.name) hall
      rw [if_pos this.1, this.2]
      rw [if_pos hall] at hl
      exact hl
    · rw [if_neg hall] at hl
      cases hl

/-- **C98 (partial)**: the command can be run again: when a run with `-w` succeeded, a later run with the same flags and arguments on the directory as it is then, at another time and
with another order of imports, succeeds and generates the same methods (for a file that the parser accepts). Provided that a file with the name
of the output, if there was one, was a generated one.
Missing from the full claim: runs that fail (`C98_false`). -/
theorem C98_again_partial {W : World} (hW : W.Go) (hts : 10 ∉ W.now) {fuel : Nat} {dir dir' : List SrcFile} {f : Flags} {args : List Bytes} {file : File}
    (hw : f.write = true) (hd : f.debug = false) (h : main W fuel dir f args = (.ok file, dir')) (hsyn : W.syntaxOk (fileText W file) = true)
    (hold : ∀ name P, PackageName W f args name → load W dir name = some P → ∀ y ∈ dir, y.name = Generator.filename { name := P.name } →
      isGenerated (W.comment y.text) = true)
    (now : Bytes) (order : List Pkg → List Pkg) :
    ∃ file2 dir2, main { W with now := now, order := order } fuel dir' f args = (.ok file2, dir2) ∧ file2.methods = file.methods ∧
      ∀ x, (∀ name P, PackageName W f args name → load W dir name = some P →
        x.name ≠ Generator.filename { name := P.name }) → (x ∈ dir2 ↔ x ∈ dir) := by
  obtain ⟨g, hg, ho⟩ := main_ok h
  obtain ⟨hdir, hfile, hp, hc⟩ := output_write hw hd ho
  obtain ⟨name, P, o, h1, h2, h3, h4, h5, -⟩ := build_ok hg
  have hfn : g.filename = Generator.filename { name := P.name } := by
    unfold Generator.filename
    rw [h5]
  have hgen : isGenerated (W.comment (fileText W file)) = true := by
    rw [hfile]
    exact C98_known hW hts _ _ _
  have hl : load W dir' name = some P := by
    rw [hdir]
    exact load_putFile h3 hsyn hgen fun y hy hn => hold name P h1 h3 y hy (by rw [← hfn]; exact hn)
  have hpre : prepare W dir' f args = prepare W dir f args := by
    rw [prepare_ok.2 ⟨name, h1, h2, hl⟩, prepare_ok.2 ⟨name, h1, h2, h3⟩]
  have hb : GenFile.build { W with now := now, order := order } fuel dir' f args = .ok g := by
    have : GenFile.build { W with now := now, order := order } fuel dir' f args = GenFile.build W fuel dir f args := by
      change GenFile.build W fuel dir' f args = _
      unfold GenFile.build
      rw [hpre]
    rw [this, hg]
  refine ⟨⟨header W.hi now g.name (order g.imports), order g.imports, g.buffer⟩,
    putFile dir' ⟨g.filename, fileText { W with now := now, order := order } ⟨header W.hi now g.name (order g.imports), order g.imports, g.buffer⟩⟩, ?_, ?_, ?_⟩
  · unfold main
    rw [hb]
    unfold output
    simp only [hd, Bool.false_eq_true, if_false, hw, hc, not_true_eq_false, and_false, Generator.printTo, hp, if_true, putFile_twice]
    rfl
  · rw [hfile]
  · intro x hx
    have := hx name P h1 h3
    rw [hdir]
    simp only [putFile, List.mem_cons, List.mem_filter, hfn]
    constructor
    · rintro (h | ⟨h | ⟨h, _⟩, _⟩)
      · exact absurd (congrArg SrcFile.name h) this
      · exact absurd (congrArg SrcFile.name h) this
      · exact h
    · intro h
      exact .inr ⟨.inr ⟨h, by simpa using this⟩, by simpa using this⟩

/-- C98 is false of the code: the file is emptied before the output is known. When the parser refuses the methods, the output of the run before is lost;
and every later run fails when it loads the package. -/
theorem C98_false {W : World} (hW : W.Go) {fuel : Nat} {dir : List SrcFile} {f : Flags} {args : List Bytes} {g : Generator}
    (hw : f.write = true) (hd : f.debug = false) (hg : GenFile.build W fuel dir f args = .ok g) (hc : W.creates g.filename = true)
    (hp : parses W.odd g.buffer = false) :
    main W fuel dir f args = (.fatal .output, putFile dir ⟨g.filename, []⟩) ∧
    ∀ name f' args' fuel', PackageName W f' args' name → (b!"_test" <:+ name ∨ ¬ b!"_test.go" <:+ g.filename) →
      ∀ o, Asked W f' o → main W fuel' (putFile dir ⟨g.filename, []⟩) f' args' = (.fatal .load, putFile dir ⟨g.filename, []⟩) := by
  constructor
  · unfold main
    rw [hg]
    unfold output
    simp only [hd, Bool.false_eq_true, if_false, hw, hc, and_false, Generator.printTo, hp, if_true, not_true_eq_false]
  · intro name f' args' fuel' hn ht o ho
    have hl : load W (putFile dir ⟨g.filename, []⟩) name = none := by
      unfold load
      dsimp only
      rw [if_neg]
      rw [Bool.not_eq_true, List.all_eq_false]
      refine ⟨⟨g.filename, []⟩, ?_, by simp [hW.empty]⟩
      split
      · simp [putFile]
      · rename_i hnt
        rw [List.mem_filter]
        refine ⟨by simp [putFile], ?_⟩
        rcases ht with ht | ht
        · exact absurd ht hnt
        · simpa using ht
    have hpre : prepare W (putFile dir ⟨g.filename, []⟩) f' args' = .fatal .load := by
      unfold prepare
      rw [packageName_ok.2 hn]
      change (options W f').bind _ = _
      rw [options_ok.2 ho]
      simp only [Run.bind, hl]
    unfold main GenFile.build
    rw [hpre]
    rfl

/-- The example: the same directory after a run for the types that begin with `A`, with another order of imports. -/
example : ∃ file dir', main exWorld 10 exDir { write := true } [[], b!"^A"] = (.ok file, dir') ∧ 10 ∉ exWorld.now ∧
    exWorld.syntaxOk (fileText exWorld file) = true ∧ ∀ y ∈ exDir, y.name ≠ b!"things_njson.go" := by
  have h : (match main exWorld 10 exDir { write := true } [[], b!"^A"] with
    | (.ok file, _) => exWorld.syntaxOk (fileText exWorld file)
    | _ => false) = true := by decide +kernel
  split at h
  · rename_i file dir' he
    exact ⟨file, dir', he, by decide +kernel, h, by decide +kernel⟩
  · cases h

/-- The package of the example, with a tag that gives every field the name `a"b`. -/
def quoteWorld : World := { exWorld with
  check := fun fs name => if name = b!"things" ∧ fs.length = 1 then
    some ⟨b!"things", [b!"A"], fun n => if n = b!"A" then some (.struct 1) else none, { genE with parseTag := fun _ _ => some (b!"a\"b", []) }⟩
    else none }

/-- It happens: the name of a field has a quote in it. The method for writing is generated without an error, cannot be parsed, and the file that a run before had
written is empty afterwards. -/
theorem C98_false_example : (main quoteWorld 10 (⟨b!"things_njson.go", b!"// Code generated by njson\npackage things"⟩ :: exDir) { append := true, write := true } []) matches
    (.fatal .output, [⟨[116, 104, 105, 110, 103, 115, 95, 110, 106, 115, 111, 110, 46, 103, 111], []⟩, _]) := by decide +kernel

/-! ## C99: the buffer -/

/-- **C99**: `Reset` starts a new file: what was generated before does not matter. -/
theorem C99_reset (g : Generator) (odd : List Method → Bool) (P : Package) (o : GenOptions) (u a : Bool) (fuel : Nat) (ts : List Bytes) :
    generate odd P o u a fuel g.reset ts = generate odd P o u a fuel (Generator.reset { name := g.name }) ts := rfl

/-- What a generator makes of further types is added behind what it has. -/
theorem C99_adds {odd : List Method → Bool} {P : Package} {o : GenOptions} {N : Names} {fuel : Nat} {g g' : Generator} {typ : Bytes}
    (h : writeUnmarshaler odd P o N fuel g typ = .ok g' ∨ writeAppender P o N fuel g typ = .ok g') :
    g'.name = g.name ∧ ∃ m, m.key.1 = typ ∧ g'.buffer = g.buffer ++ [m] := by
  rcases h with h | h
  · obtain ⟨t, b, -, -, -, rfl⟩ := writeUnmarshaler_ok.1 h
    exact ⟨(importAll_other _ _).2, _, rfl, rfl⟩
  · obtain ⟨t, b, -, -, rfl⟩ := writeAppender_ok.1 h
    exact ⟨(importAll_other _ _).2, _, rfl, rfl⟩

/-- **C99 (partial)**: the first `PrintTo` or `DumpTo` prints everything in the buffer, under the header. -/
theorem C99_first_partial (odd : List Method → Bool) (hi : Nat → Bool) (ts : Bytes) (ps : List Pkg) (g : Generator) :
    (g.dumpTo hi ts ps).1 = ⟨header hi ts g.name ps, ps, g.buffer⟩ ∧
    ((g.printTo odd hi ts ps).1 = if parses odd g.buffer then some ⟨header hi ts g.name ps, ps, g.buffer⟩ else none) := ⟨rfl, rfl⟩

/-- C99 is false of the code: printing empties the buffer, also when it fails. What is printed next has no methods, but still all imports, so it
does not compile unless there are none. -/
theorem C99_false (odd : List Method → Bool) (hi : Nat → Bool) (ts ts' : Bytes) (ps ps' : List Pkg) (g : Generator) :
    ((g.printTo odd hi ts ps).2.printTo odd hi ts' ps').1 = some ⟨header hi ts' g.name ps', ps', []⟩ ∧
    ((g.dumpTo hi ts ps).2.dumpTo hi ts' ps').1 = ⟨header hi ts' g.name ps', ps', []⟩ ∧
    ((g.printTo odd hi ts ps).2.imports = g.imports ∧ ∀ P declared, g.imports ≠ [] → ∀ file, FileOf (g.printTo odd hi ts ps).2 file →
      ¬ file.Compiles P declared) := by
  refine ⟨rfl, rfl, rfl, fun P declared hne file hf hc => ?_⟩
  obtain ⟨p, hp⟩ := List.exists_mem_of_ne_nil _ hne
  obtain ⟨m, hm, _⟩ := hc.used p (hf.2.mem_iff.2 hp)
  rw [hf.1] at hm
  cases hm

end Verif.Props
