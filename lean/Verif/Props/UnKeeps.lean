import Verif.Proofs.UnKeeps
import Verif.Proofs.UnConv
import Verif.Props.UnShown
import Verif.Props.UnAgain
import Verif.Props.UnMethDec

/-! # Unmarshal leaves alone what the text does not name (C149) -/

namespace Verif.Props
open Verif Verif.Float Verif.Spec Verif.Njson Verif.Unjson

/-- **C149**, the rules for reading, at every place where there is a struct: whatever the tree is, except null, all parts of the struct that are not in
fields named in it are the same afterwards, also if there was an error; null stores the zero value. -/
theorem C149_reads {U : Univ} {nm : NodeMeth} {o : Options} {t : Ty} {k : Nat} (hb : U.base t = .struct k) (hm : unmarshalMeth U t = none)
    {cs : List Cand} (hc : Cands U o (U.fields k) 0 [] cs) {x y : GV} {j : JVal} {e : Option UErr} (h : Reads U nm o t x j (.done y e)) :
    (j = .null → y = U.zero t ∧ e = none) ∧ (j ≠ .null → ∀ q, NotNamed (resolve [] cs) j q → sub y q = sub x q) := by
  refine ⟨fun hj => ?_, fun hj q hq => ?_⟩
  · rcases reads_keep hb hm hc h (q := []) rfl with ⟨_, h1, h2⟩ | ⟨h, _⟩
    · exact ⟨h1, h2⟩
    · exact (h hj).elim
  · rcases reads_keep hb hm hc h (q := q) rfl with ⟨h, _⟩ | ⟨_, h⟩
    · exact (hj h).elim
    · exact h hq

theorem readsArg_keep {U : Univ} {nm : NodeMeth} {o : Options} {t e : Ty} (ht : U.base t = .ptr e) (hmt : unmarshalMeth U t = none) {k : Nat}
    (hb : U.base e = .struct k) (hm : unmarshalMeth U e = none) {cs : List Cand} (hc : Cands U o (U.fields k) 0 [] cs) {x : GV} {j : JVal}
    {r : Out GV} (h : ReadsArg U nm o t (.ptr x) j r) {y : GV} {err : Option UErr} (hr : r = .done y err) :
    ∃ x', y = .ptr x' ∧ (j = .null → x' = U.zero e ∧ err = none) ∧ (j ≠ .null → ∀ q, NotNamed (resolve [] cs) j q → sub x' q = sub x q) := by
  cases h with
  | meth _ h => rw [hmt] at h; cases h
  | @ptr e' _ _ r' ht' _ _ h =>
    rw [ht] at ht'; cases ht'
    cases r' with
    | panic => cases hr
    | done x' e' => cases hr; exact ⟨x', rfl, C149_reads hb hm hc h⟩

/-- **C149**, `Unmarshal` with a pointer to a struct. (If the text does not parse the struct is unchanged: C67.) -/
theorem C149_keeps_partial {U : Univ} {nm : NodeMeth} (hU : U.Reading nm) {t e : Ty} (ht : U.base t = .ptr e) (hmt : unmarshalMeth U t = none) {k : Nat}
    (hb : U.base e = .struct k) (hm : unmarshalMeth U e = none) {cs : List Cand} (hc : Cands U decodeOptions (U.fields k) 0 [] cs) {x : GV}
    (hv : HasTy U t (.ptr x)) {fuel : Nat} {d : Doc} (hd : d.Wf) {s : Bytes} {d' : Doc} {id : Nat} {j : JVal} {tail : Bytes} (hp : Parses d s d' id j tail)
    {y : Option (Ty × GV)} {err : Option UErr} (h : unmarshal U fuel d s (some (t, .ptr x)) = some (.done y err)) (hj : j ≠ .null) :
    ∃ x', y = some (t, .ptr x') ∧ ∀ q, NotNamed (resolve [] cs) j q → sub x' q = sub x q := by
  rcases C89_exact hU (by intro n i h; rw [ht] at h; cases h) hv fuel hd s _ h with ⟨_, h⟩ | ⟨_, hn, _⟩ | ⟨d1, id1, j1, tail1, r', hp1, hr, h⟩
  · cases h; exact ⟨x, rfl, fun _ _ => rfl⟩
  · exact (hn ⟨_, _, _, _, hp⟩).elim
  · obtain ⟨rfl, _⟩ := parses_unique hd hp hp1
    cases r' with
    | panic => cases h
    | done z err' =>
      cases h
      obtain ⟨x', rfl, _, h⟩ := readsArg_keep ht hmt hb hm hc hr rfl
      exact ⟨x', rfl, h hj⟩

/-- **C149**: null stores the zero value of the struct, in all its fields. -/
theorem C149_null {U : Univ} {nm : NodeMeth} (hU : U.Reading nm) {t e : Ty} (ht : U.base t = .ptr e) (hmt : unmarshalMeth U t = none) {k : Nat}
    (hb : U.base e = .struct k) (hm : unmarshalMeth U e = none) {cs : List Cand} (hc : Cands U decodeOptions (U.fields k) 0 [] cs) {x : GV}
    (hv : HasTy U t (.ptr x)) {fuel : Nat} {d : Doc} (hd : d.Wf) {s : Bytes} {d' : Doc} {id : Nat} {tail : Bytes} (hp : Parses d s d' id .null tail)
    {y : Option (Ty × GV)} {err : Option UErr} (h : unmarshal U fuel d s (some (t, .ptr x)) = some (.done y err)) :
    (y = some (t, .ptr (U.zero e)) ∧ err = none) ∨ (RefusedArg U decodeOptions t ∧ y = some (t, .ptr x)) := by
  rcases C89_exact hU (by intro n i h; rw [ht] at h; cases h) hv fuel hd s _ h with ⟨hr, h⟩ | ⟨_, hn, _⟩ | ⟨d1, id1, j1, tail1, r', hp1, hr, h⟩
  · cases h; exact .inr ⟨hr, rfl⟩
  · exact (hn ⟨_, _, _, _, hp⟩).elim
  · obtain ⟨rfl, _⟩ := parses_unique hd hp hp1
    cases r' with
    | panic => cases h
    | done z err' =>
      cases h
      obtain ⟨x', rfl, h, _⟩ := readsArg_keep ht hmt hb hm hc hr rfl
      obtain ⟨rfl, rfl⟩ := h rfl
      exact .inl ⟨rfl, rfl⟩

/-- **C149**, a `Decoder` made with any tag key. -/
theorem C149_decoder_partial {U : Univ} {nm : NodeMeth} (hU : U.Reading nm) {tag : Bytes} {o' : Options} (ho : InForceTag tag o') {t e : Ty}
    (ht : U.base t = .ptr e) (hmt : unmarshalMeth U t = none) {k : Nat} (hb : U.base e = .struct k) (hm : unmarshalMeth U e = none) {cs : List Cand}
    (hc : Cands U o' (U.fields k) 0 [] cs) {x : GV} (hv : HasTy U t (.ptr x)) {fuel : Nat} {c : TypeDecoder} (hd : newTypeDecoder U tag fuel t = .ok c)
    {fuel' : Nat} {h : Heap} {n : Node} {j : JVal} (hn : Tree h n j) {y : Option (Ty × GV)} {err : Option UErr}
    (hr : c.decodeArg U fuel' h n (some (t, .ptr x)) = some (.done y err)) (hj : j ≠ .null) :
    ∃ x', y = some (t, .ptr x') ∧ ∀ q, NotNamed (resolve [] cs) j q → sub x' q = sub x q := by
  obtain ⟨r', h1, h2⟩ := C89_decoder hU ho (by intro n i h; rw [ht] at h; cases h) hv hd hn hr
  cases r' with
  | panic => cases h2
  | done z err' =>
    cases h2
    obtain ⟨x', rfl, _, h⟩ := readsArg_keep ht hmt hb hm hc h1 rfl
    exact ⟨x', rfl, h hj⟩

/-- **C149**: fields that are not exported, or whose tag is `-`, are never named. -/
theorem C149_skipped {U : Univ} {o : Options} {k : Nat} {cs : List Cand} (hc : Cands U o (U.fields k) 0 [] cs) {i : Nat} {f : Field}
    (hf : (U.fields k)[i]? = some f) (hx : f.exported = false ∨ (o.parseField f).1 = b!"-") (j : JVal) : NotNamed (resolve [] cs) j [(i : Int)] :=
  skipped_elsewhere hc hf hx j

/-- **C149**: nor is a field with a name that is no name of a member, and what is below it. -/
theorem C149_absent {U : Univ} {nm : NodeMeth} (hU : U.Reading nm) {o : Options} {k : Nat} {cs : List Cand} (hc : Cands U o (U.fields k) 0 [] cs) {c : Cand}
    (h : c ∈ resolve [] cs) {ms : List (Bytes × JVal)} (hn : ∀ m ∈ ms, m.1 ≠ c.key) (rest : List Int) : NotNamed (resolve [] cs) (.obj ms) (c.index ++ rest) := by
  intro ms' he m hm c' hc' hk
  cases he
  have hne : c' ≠ c := by rintro rfl; exact hn m hm hk.symm
  obtain ⟨pre, a, b, p', q', h1, h2, h3⟩ := Gen.pairwise_mem (fun _ _ h => Gen.IApart.symm h) (resolve_apart hU.ok hU.embeds hc) c' hc' c h hne
  exact ⟨pre, a, b, p', q' ++ rest, h1, by rw [h2]; simp, h3⟩

/-! ### The example -/

theorem exH_reading : exH.Reading exNNode where
  ok := exH_program.ok
  embeds := exH_program.embeds
  methods := {
    tree := fun _ _ _ _ _ _ => rfl
    typed_node := fun _ _ _ _ h hr => by cases hr; exact h
    typed := by intro m t v s hv; exact hv }
  paired := exH_program.paired
  structs := by
    intro t _ hu
    refine absurd ?_ hu
    simp [unmarshalMeth, exH, exU]

theorem exH_candsD : Cands exH decodeOptions (exH.fields 0) 0 [] [⟨b!"A", [0], .int .std, Hint.none⟩] :=
  .field (f := fld b!"A" (.int .std)) rfl (by decide) rfl (.skip (.inl rfl) (.skip (.inr (by decide)) .nil))

/-- The hypotheses hold; the unexported field keeps its content. -/
example : exH.Reading exNNode ∧ unmarshalMeth exH (.ptr (.struct 0)) = none ∧ unmarshalMeth exH (.struct 0) = none ∧
    HasTy exH (.ptr (.struct 0)) (.ptr (.struct [.int 7, .str b!"x", .bool true])) ∧
    Cands exH decodeOptions (exH.fields 0) 0 [] [⟨b!"A", [0], .int .std, Hint.none⟩] ∧
    unmarshal exH 30 Doc.empty b!"{\"A\":8,\"s\":\"y\",\"D\":false,\"-\":false}" (some (.ptr (.struct 0), .ptr (.struct [.int 7, .str b!"x", .bool true]))) =
      some (.done (some (.ptr (.struct 0), .ptr (.struct [.int 8, .str b!"x", .bool true]))) none) :=
  ⟨exH_reading, by decide, by decide, .ptr rfl (exH_ty _ _), exH_candsD, eq_of_sameX (by decide +kernel)⟩

/-- The full claim is false: null erases the fields that are not exported. -/
theorem C149_false : exH.Reading exNNode ∧ HasTy exH (.ptr (.struct 0)) (.ptr (.struct [.int 7, .str b!"x", .bool true])) ∧
    unmarshal exH 30 Doc.empty b!"null" (some (.ptr (.struct 0), .ptr (.struct [.int 7, .str b!"x", .bool true]))) =
      some (.done (some (.ptr (.struct 0), .ptr (.struct [.int 0, .str [], .bool false]))) none) :=
  ⟨exH_reading, .ptr rfl (exH_ty _ _), eq_of_sameX (by decide +kernel)⟩

end Verif.Props
