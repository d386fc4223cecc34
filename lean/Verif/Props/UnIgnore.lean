import Verif.Proofs.UnIgnore
import Verif.Proofs.GenIgnore
import Verif.Proofs.UnExampleN
import Verif.Props.UnMethDec
import Verif.Props.GenDec

/-! # What has no place in a variable is ignored (C125) -/

namespace Verif.Props
open Verif Verif.Float Verif.Spec Verif.Njson Verif.Unjson

/-- **C125**, the rules for reading: trees that differ only in what has no place in the type are read alike, errors and panics
included. -/
theorem C125_reads {U : Univ} {nm : NodeMeth} (hU : U.Reading nm) {o : Options} {t : Ty} {v : GV} (hv : HasTy U t v) {j j' : JVal} (hs : SameRead U o t j j')
    {r r' : Out GV} (h : Reads U nm o t v j r) (h' : Reads U nm o t v j' r') : r = r' :=
  reads_unique (reads_ignore hU.methods hU.ok hU.embeds h hv j' hs) _ h'

theorem readsArg_ignore {U : Univ} {nm : NodeMeth} (hU : U.Reading nm) {o : Options} {t : Ty} {v : GV} (hv : HasTy U t v) {j j' : JVal} (hs : SameRead U o t j j')
    {r : Out GV} (h : ReadsArg U nm o t v j r) : ReadsArg U nm o t v j' r := by
  cases h with
  | meth hb hm =>
    cases hs with
    | same => exact .meth hb hm
    | ptr _ h | slice _ h | array _ h | map _ h | struct _ h => rw [hm] at h; cases h
  | @ptr e x _ _ hb hm hn h =>
    have hx : HasTy U e x := by
      rcases hv.inv_ptr hb with h | ⟨x', h, hx⟩
      · cases h
      · cases h; exact hx
    refine .ptr hb hm hn (reads_ignore hU.methods hU.ok hU.embeds h hx j' ?_)
    cases hs with
    | same => exact .same
    | ptr g _ h' => rw [hb] at g; cases g; exact h'
    | slice g | array g | map g | struct g => rw [hb] at g; cases g
  | nilNull hb hm hn => rw [hs.null.2 rfl]; exact .nilNull hb hm hn
  | nilPtr hb hm hn hj => exact .nilPtr hb hm hn fun h => hj (hs.null.1 h)

/-- **C125**, a `Decoder` made with any tag key: nodes whose trees differ only in what has no place in the argument are decoded alike. -/
theorem C125_decoder {U : Univ} {nm : NodeMeth} (hU : U.Reading nm) {tag : Bytes} {o' : Options} (ho : InForceTag tag o')
    {t : Ty} (hi : ∀ n i, U.base t ≠ .iface n i) {v : GV} (hv : HasTy U t v) {fuel : Nat} {c : TypeDecoder} (hc : newTypeDecoder U tag fuel t = .ok c)
    {f1 f2 : Nat} {h1 h2 : Heap} {n1 n2 : Node} {j1 j2 : JVal} (hn1 : Tree h1 n1 j1) (hn2 : Tree h2 n2 j2) (hs : SameRead U o' t j1 j2)
    {r1 r2 : Out (Option (Ty × GV))} (hr1 : c.decodeArg U f1 h1 n1 (some (t, v)) = some r1) (hr2 : c.decodeArg U f2 h2 n2 (some (t, v)) = some r2) : r1 = r2 := by
  obtain ⟨q1, k1, rfl⟩ := C89_decoder hU ho hi hv hc hn1 hr1
  obtain ⟨q2, k2, rfl⟩ := C89_decoder hU ho hi hv hc hn2 hr2
  rw [(C89_one (readsArg_ignore hU hv hs k1)).1 k2]

/-- **C125**: `Unmarshal` of two texts whose first values differ only in what has no place in the argument: the results, the errors and
the values left in the variable are the same. -/
theorem C125_unmarshal {U : Univ} {nm : NodeMeth} (hU : U.Reading nm) {t : Ty} (hi : ∀ n i, U.base t ≠ .iface n i) {v : GV} (hv : HasTy U t v)
    {f1 f2 : Nat} {d1 d2 : Doc} (hd1 : d1.Wf) (hd2 : d2.Wf) {s1 s2 : Bytes} {d1' d2' : Doc} {id1 id2 : Nat} {j1 j2 : JVal} {tail1 tail2 : Bytes}
    (hp1 : Parses d1 s1 d1' id1 j1 tail1) (hp2 : Parses d2 s2 d2' id2 j2 tail2) (hs : SameRead U decodeOptions t j1 j2)
    {r1 r2 : Out (Option (Ty × GV))} (h1 : unmarshal U f1 d1 s1 (some (t, v)) = some r1) (h2 : unmarshal U f2 d2 s2 (some (t, v)) = some r2) : r1 = r2 := by
  rcases C89_exact hU hi hv f1 hd1 s1 _ h1 with ⟨k1, rfl⟩ | ⟨_, k, _⟩ | ⟨_, _, _, _, q1, k1, k2, rfl⟩
  · rcases C89_exact hU hi hv f2 hd2 s2 _ h2 with ⟨_, rfl⟩ | ⟨k, _⟩ | ⟨_, _, _, _, q2, _, l2, _⟩
    · rfl
    · exact absurd k1 k
    · exact absurd k1 (C89_one (r' := .panic) l2).2
  · exact absurd ⟨_, _, _, _, hp1⟩ k
  · obtain ⟨rfl, _⟩ := parses_unique hd1 hp1 k1
    rcases C89_exact hU hi hv f2 hd2 s2 _ h2 with ⟨l1, _⟩ | ⟨_, k, _⟩ | ⟨_, _, _, _, q2, l1, l2, rfl⟩
    · exact absurd l1 (C89_one (r' := .panic) k2).2
    · exact absurd ⟨_, _, _, _, hp2⟩ k
    · obtain ⟨rfl, _⟩ := parses_unique hd2 hp2 l1
      rw [(C89_one (readsArg_ignore hU hv hs k2)).1 l2]

theorem sameMembers_refl {U : Univ} {o : Options} {rs : List Cand} : ∀ (ms : List (Bytes × JVal)), SameMembers U o rs ms ms
  | [] => .nil
  | _ :: ms => .both (fun _ _ _ => .same) (sameMembers_refl ms)

theorem sameMembers_extra {U : Univ} {o : Options} {rs : List Cand} {ns : List (Bytes × JVal)} (h : ∀ m ∈ ns, ∀ c ∈ rs, c.key ≠ m.1) {ms' : List (Bytes × JVal)} :
    ∀ (ms : List (Bytes × JVal)), SameMembers U o rs (ms ++ ms') (ms ++ ns ++ ms')
  | _ :: ms => .both (fun _ _ _ => .same) (sameMembers_extra h ms)
  | [] => by
    induction ns with
    | nil => exact sameMembers_refl _
    | cons m ns ih => exact .right (h m List.mem_cons_self) (ih fun m hm => h m (List.mem_cons_of_mem _ hm))

/-- **C125**, a case in words: members whose names no field has, put anywhere among the members of an object. -/
theorem C125_extra {U : Univ} {o : Options} {t e : Ty} {i : Nat} {cs : List Cand} (hb : U.base t = .ptr e) (hm : unmarshalMeth U t = none)
    (he : U.base e = .struct i) (hm' : unmarshalMeth U e = none) (hc : Cands U o (U.fields i) 0 [] cs) (ms ns ms' : List (Bytes × JVal))
    (hn : ∀ m ∈ ns, ∀ c ∈ cs, c.key ≠ m.1) : SameRead U o t (.obj (ms ++ ms')) (.obj (ms ++ ns ++ ms')) :=
  .ptr hb hm (.struct he hm' hc (sameMembers_extra (fun m hm c h => hn m hm c ((resolve_mem h).resolve_left (by simp))) ms))

/-- A case: a slice of structs with the field `N`; the second text has more members. -/
example : exN.Reading exNNode ∧ HasTy exN (.ptr (.slice (.struct 2))) (.ptr .nilSlice) ∧
    SameRead exN decodeOptions (.ptr (.slice (.struct 2))) (.arr [.obj [(b!"N", .num b!"1")]])
      (.arr [.obj [(b!"n", .bool true), (b!"N", .num b!"1"), (b!"X", .obj [])]]) ∧
    unmarshal exN 30 Doc.empty b!"[{\"N\":1}]" (some (.ptr (.slice (.struct 2)), .ptr .nilSlice)) =
      some (.done (some (.ptr (.slice (.struct 2)), .ptr (.slice [.struct [.ptr (.int 1)]] 1))) none) ∧
    unmarshal exN 30 Doc.empty b!"[{\"n\":true,\"N\":1,\"X\":{}}]" (some (.ptr (.slice (.struct 2)), .ptr .nilSlice)) =
      some (.done (some (.ptr (.slice (.struct 2)), .ptr (.slice [.struct [.ptr (.int 1)]] 1))) none) := by
  refine ⟨exN_reading, .ptr rfl (.nilSlice rfl), ?_, eq_of_sameX (by decide +kernel), eq_of_sameX (by decide +kernel)⟩
  refine .ptr rfl (by decide +kernel) (.slice rfl (by decide +kernel) (.cons (.struct (j := 2) rfl (by decide +kernel) (.field rfl (by decide +kernel) rfl .nil) ?_) .nil))
  refine .right ?_ (.both (fun _ _ _ => .same) (.right ?_ .nil))
  · decide +kernel
  · decide +kernel

/-- The relation of trees is not trivial: members that belong to a field, and values of types with methods, make a difference. -/
example : ¬ SameRead exN decodeOptions (.struct 2) (.obj [(b!"N", .num b!"1")]) (.obj []) ∧
    ¬ SameRead exN decodeOptions (.ptr (.struct 0)) (.obj []) (.obj [(b!"X", .null)]) ∧
    ¬ SameRead exN decodeOptions .any (.obj []) (.obj [(b!"X", .null)]) := by
  refine ⟨fun h => ?_, fun h => ?_, fun h => ?_⟩
  · cases h with
    | ptr h => cases h
    | map h => cases h
    | struct hb _ hc h =>
      cases hb
      have : Cands exN decodeOptions (exN.fields 2) 0 [] [⟨b!"N", [0], .ptr (.int .std), Hint.none⟩] := .field rfl (by decide +kernel) rfl .nil
      cases cands_unique hc this
      cases h with
      | left hk => exact absurd hk (by decide +kernel)
  · cases h with
    | ptr _ h => exact absurd h (by decide +kernel)
    | map h => cases h
    | struct h => cases h
  · cases h with
    | ptr h => cases h
    | map h => cases h
    | struct h => cases h

/-! ## Generated code -/

open Verif.Gen

/-- **C125**, generated `UnmarshalNodeJSON` methods: nodes whose trees differ only in what has no place in the type are read alike, errors
and panics included. -/
theorem C125_generated {E : Env} (hE : E.Ok) (hH : UHooks E) {o : GenOptions} {gf : Nat} {t : Ty} {b : UBlock}
    (hb : typeUnmarshaler E o gf t = .ok b) (hc : unmarshalerCompiles E b t = true) {h1 h2 : Heap} {n1 n2 : Node} {j1 j2 : JVal} (ht1 : Tree h1 n1 j1)
    (ht2 : Tree h2 n2 j2) (hs : GSameRead E o t j1 j2) {v : GV} (hv : HasTy E.U t v) {f1 f2 : Nat} (hf1 : j1.size ≤ f1) (hf2 : j2.size ≤ f2) :
    ∃ r, runUnmarshaler E h1 f1 b t v n1 = some r ∧ runUnmarshaler E h2 f2 b t v n2 = some r := by
  by_cases hj : j1 = .null
  · exact ⟨_, (C79_stores_partial hE hH hb hc ht1 hv hf1).1 hj, (C79_stores_partial hE hH hb hc ht2 hv hf2).1 (hs.shape.2.2.2 hj)⟩
  · rcases C79_returned hE hH hb hc ht1 hv hf1 hj with ⟨y1, e1, a1, a2, _⟩ | ⟨a1, a2, a3⟩ <;>
      rcases C79_returned hE hH hb hc ht2 hv hf2 (fun h => hj (hs.shape.2.2.1 h)) with ⟨y2, e2, b1, b2, _⟩ | ⟨b1, b2, b3⟩
    · obtain ⟨rfl, rfl⟩ := gdec_fun (gdec_ignore a2 j2 hs) b2
      exact ⟨_, a1, b1⟩
    · exact absurd (gdec_ignore a2 j2 hs) (b3 _ _)
    · exact absurd (gdec_ignore b2 j1 hs.symm) (a3 _ _)
    · exact ⟨_, a1, b1⟩

theorem gsameMembers_extra {E : Env} {o : GenOptions} {i : Nat} {ns : List (Bytes × JVal)} (h : ∀ m ∈ ns, ∀ p ∈ unmarshalPicks E o i, p.name ≠ m.1)
    {ms' : List (Bytes × JVal)} : ∀ (ms : List (Bytes × JVal)), GSameMembers E o i (ms ++ ms') (ms ++ ns ++ ms')
  | _ :: ms => .both (fun _ _ _ => .same) (gsameMembers_extra h ms)
  | [] => by
    induction ns with
    | nil =>
      show GSameMembers E o i ms' ms'
      induction ms' with
      | nil => exact .nil
      | cons m ms ih => exact .both (fun _ _ _ => .same) ih
    | cons m ns ih => exact .right (h m List.mem_cons_self) (ih fun m hm => h m (List.mem_cons_of_mem _ hm))

/-- **C125**, generated code, a case in words: members whose names no field has, put anywhere among the members of an object. -/
theorem C125_generated_extra {E : Env} {o : GenOptions} {i : Nat} (hm : ¬ Unmarshals E (.struct i)) (ms ns ms' : List (Bytes × JVal))
    (hn : ∀ m ∈ ns, ∀ p ∈ unmarshalPicks E o i, p.name ≠ m.1) : GSameRead E o (.struct i) (.obj (ms ++ ms')) (.obj (ms ++ ns ++ ms')) :=
  .struct hm (gsameMembers_extra hn ms)

theorem genPicks19 : unmarshalPicks genE {} 19 = [⟨b!"m", [], gfld b!"M" (.map .string .bool) 0 b!"m"⟩, ⟨b!"p", [], gfld b!"P" (.ptr (.struct 1)) 1 b!"p"⟩,
    ⟨b!"s", [], gfld b!"S" .string 2 b!"s"⟩] := by
  unfold unmarshalPicks
  rw [List.filter_eq_self.2]
  · rfl
  · intro f hf
    have hf : f ∈ [gfld b!"M" (.map .string .bool) 0 b!"m", gfld b!"P" (.ptr (.struct 1)) 1 b!"p", gfld b!"S" .string 2 b!"s"] := hf
    simp only [List.mem_cons, List.not_mem_nil, or_false] at hf
    refine @decide_eq_true _ (Classical.propDecidable _) ?_
    rcases hf with rfl | rfl | rfl
    · exact .map (k := .string) (e := .bool) rfl
    · exact .ptr (e := .struct 1) rfl (.struct (j := 1) rfl (by simp [genE, genU, genFields]))
    · exact .string rfl

/-- A case: the member `u` belongs to no field. -/
example : genE.Ok ∧ UHooks genE ∧
    GSameRead genE {} (.struct 19) (.obj [(b!"p", .obj [(b!"X", .bool true)])]) (.obj [(b!"p", .obj [(b!"X", .bool true)]), (b!"u", .arr [])]) ∧
    (∃ b, typeUnmarshaler genE {} 10 (.struct 19) = .ok b ∧ unmarshalerCompiles genE b (.struct 19) = true ∧
      parseInto genE 100 Doc.empty b (.struct 19) (.struct [.nilMap, .nilPtr, .str b!"old"]) b!"{\"p\":{\"X\":true},\"u\":[]}" =
        some (.done (.struct [.nilMap, .ptr (.struct [.bool true]), .str b!"old"]) none)) := by
  refine ⟨genE_ok, genE_uhooks, C125_generated_extra (by unfold Unmarshals NoUnmarshal; decide +kernel) [_] [_] [] ?_, intoText (by decide +kernel)⟩
  rw [genPicks19]
  intro m hm q hq
  simp only [List.mem_cons, List.not_mem_nil, or_false] at hm hq
  subst hm
  rcases hq with rfl | rfl | rfl <;> decide

end Verif.Props
