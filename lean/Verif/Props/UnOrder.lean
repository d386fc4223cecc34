import Verif.Proofs.UnOrder
import Verif.Props.UnMethDec

/-! # Unmarshal and the order of members (C120) -/

namespace Verif.Props
open Verif Verif.Float Verif.Spec Verif.Njson Verif.Unjson

/-- **C120**, the decoding rules: if everything in a tree fits the type, then decoding it and decoding the tree with the members of
its objects in another order both panic or both succeed, with the same value. -/
theorem C120_decodes_partial {U : Univ} (hU : U.Ok) (hE : U.EmbedsStructs) {o : Options} {t : Ty} {j j' : JVal} (hf : Fits U o t j) (hs : Shuffled j j')
    {v v' : GV} (hv : SameVal v v') {r r' : Out GV} (h : Decodes U o t v j r) (h' : Decodes U o t v' j' r') :
    (r = .panic ∧ r' = .panic) ∨ ∃ y y', r = .done y none ∧ r' = .done y' none ∧ SameVal y y' := by
  cases r with
  | done y e =>
    cases (decodes_fits hE h _ _ rfl).1 hf
    obtain ⟨y', h1, h2⟩ := fits_orderFree hU hE hf hs hv h
    exact .inr ⟨y, y', rfl, (decodes_unique h' _ h1), h2⟩
  | panic =>
    cases r' with
    | panic => exact .inl ⟨rfl, rfl⟩
    | done y' e =>
      have hf' := hf.shuffled hs
      cases (decodes_fits hE h' _ _ rfl).1 hf'
      obtain ⟨y, h1, h2⟩ := fits_orderFree hU hE hf' hs.symm hv.symm h'
      cases decodes_unique h _ h1

/-- A type that is refused is refused at once. -/
theorem unmarshal_refused {U : Univ} (hU : U.Ok) {t e : Ty} (hb : U.base t = .ptr e) {x : GV} {f1 f2 : Nat} {err : UErr}
    (h1 : newTypeDecoder U [] f1 t = .err err) {d : Doc} {s : Bytes} {r : Out (Option (Ty × GV))} (h2 : unmarshal U f2 d s (some (t, x)) = some r) :
    r = .done (some (t, x)) (some err) := by
  have hi : ∀ n i, U.base t ≠ .iface n i := fun n i h => by rw [hb] at h; cases h
  obtain ⟨rfl, ha⟩ := (newTypeDecoder_cases hU (tag := []) (fuel := f1) hi).2 _ h1
  unfold unmarshal at h2
  simp only at h2
  cases hq : newTypeDecoder U [] f2 t with
  | diverge => rw [hq] at h2; cases h2
  | ok c => exact absurd ha ((newTypeDecoder_cases hU (tag := []) (fuel := f2) hi).1 _ hq)
  | err e' =>
    obtain ⟨rfl, _⟩ := (newTypeDecoder_cases hU (tag := []) (fuel := f2) hi).2 _ hq
    rw [hq] at h2; cases h2; rfl

/-- **C120 (partial)**: the order of members does not matter to `Unmarshal`. Two texts whose first values differ only in the order
of members with different names, both unmarshaled into a variable with the same content, of a type without methods that everything in the
values fits: both calls panic, or both return the same error (none, unless the type is refused) and the same value in the variable.
Missing from the full claim: values that do not fit, for which it is false (`C120_false`). -/
theorem C120_partial {U : Univ} (hU : U.Ok) (hE : U.EmbedsStructs) {t e : Ty} {x x' : GV} (ha : UnmarshalArg U t e x) (ha' : UnmarshalArg U t e x')
    (hx : SameVal x x') {f1 f2 : Nat} {d1 d2 : Doc} (hd1 : d1.Wf) (hd2 : d2.Wf) {s1 s2 : Bytes} {d1' d2' : Doc} {id1 id2 : Nat} {j1 j2 : JVal} {tail1 tail2 : Bytes}
    (hp1 : Parses d1 s1 d1' id1 j1 tail1) (hp2 : Parses d2 s2 d2' id2 j2 tail2) (hs : Shuffled j1 j2) (hf : Fits U decodeOptions e j1)
    {r1 r2 : Out (Option (Ty × GV))} (h1 : unmarshal U f1 d1 s1 (some (t, .ptr x)) = some r1) (h2 : unmarshal U f2 d2 s2 (some (t, .ptr x')) = some r2) :
    (r1 = .panic ∧ r2 = .panic) ∨
    ∃ y y' err, r1 = .done (some (t, .ptr y)) err ∧ r2 = .done (some (t, .ptr y')) err ∧ SameVal y y' ∧ (err ≠ none → y = x ∧ y' = x') := by
  rcases unmarshal_tree hU hE ha f1 hd1 s1 _ h1 hp1 with ⟨err, q1, rfl⟩ | ⟨q, q1, rfl⟩
  · exact .inr ⟨x, x', some err, rfl, unmarshal_refused hU ha.base q1 h2, hx, fun _ => ⟨rfl, rfl⟩⟩
  rcases unmarshal_tree hU hE ha' f2 hd2 s2 _ h2 hp2 with ⟨err, q2, rfl⟩ | ⟨q', q2, rfl⟩
  · have := unmarshal_refused hU ha.base q2 h1
    rw [this]
    exact .inr ⟨x, x', some err, rfl, rfl, hx, fun _ => ⟨rfl, rfl⟩⟩
  rcases C120_decodes_partial hU hE hf hs hx q1 q2 with ⟨rfl, rfl⟩ | ⟨y, y', rfl, rfl, h⟩
  · exact .inl ⟨rfl, rfl⟩
  · exact .inr ⟨y, y', none, rfl, rfl, h, fun h => absurd rfl h⟩

/-- **C120**, for types without slices and arrays: if one call succeeds, so does the other one, with the same value. -/
theorem C120_success_partial {U : Univ} (hU : U.Ok) (hE : U.EmbedsStructs) {t e : Ty} {x x' : GV} (ha : UnmarshalArg U t e x) (ha' : UnmarshalArg U t e x')
    (hn : NoArrays U e) (hx : SameVal x x') {f1 f2 : Nat} {d1 d2 : Doc} (hd1 : d1.Wf) (hd2 : d2.Wf) {s1 s2 : Bytes} {d1' d2' : Doc} {id1 id2 : Nat} {j1 j2 : JVal}
    {tail1 tail2 : Bytes} (hp1 : Parses d1 s1 d1' id1 j1 tail1) (hp2 : Parses d2 s2 d2' id2 j2 tail2) (hs : Shuffled j1 j2)
    {y1 : Option (Ty × GV)} {r2 : Out (Option (Ty × GV))} (h1 : unmarshal U f1 d1 s1 (some (t, .ptr x)) = some (.done y1 none))
    (h2 : unmarshal U f2 d2 s2 (some (t, .ptr x')) = some r2) :
    ∃ y y', y1 = some (t, .ptr y) ∧ r2 = .done (some (t, .ptr y')) none ∧ SameVal y y' := by
  obtain ⟨_, _, j, _, hp, hf⟩ := C49_reported_partial hU hE ha hn f1 hd1 s1 _ h1
  obtain ⟨rfl, _⟩ := parses_unique hd1 hp hp1
  rcases C120_partial hU hE ha ha' hx hd1 hd2 hp1 hp2 hs hf h1 h2 with ⟨h, _⟩ | ⟨y, y', err, q1, q2, q3, _⟩
  · cases h
  · cases q1; exact ⟨y, y', rfl, q2, q3⟩

/-- Any permutation of members with different names is a case. -/
theorem C120_perm {ms ns : List (Bytes × JVal)} (hp : ms.Perm ns) (hn : (ms.map Prod.fst).Nodup) : Shuffled (.obj ms) (.obj ns) :=
  .obj (shuffledM_perm hp hn)

/-- **C120**: the order of members is seen when a value does not fit. What was stored before the error depends on it; in arrays, where errors
are ignored, it is the value that `Unmarshal` returns without an error; and it decides between an error and a panic. -/
theorem C120_false :
    unmarshal exU 30 Doc.empty b!"{\"A\":1,\"b\":5}" (some (.ptr (.struct 0), .ptr (exU.zero (.struct 0)))) =
      some (.done (some (.ptr (.struct 0), .ptr (.struct [.int 1, .str [], .nilPtr]))) (some (.typeError tNumber tString))) ∧
    unmarshal exU 30 Doc.empty b!"{\"b\":5,\"A\":1}" (some (.ptr (.struct 0), .ptr (exU.zero (.struct 0)))) =
      some (.done (some (.ptr (.struct 0), .ptr (.struct [.int 0, .str [], .nilPtr]))) (some (.typeError tNumber tString))) ∧
    unmarshal exU 30 Doc.empty b!"[{\"A\":1,\"b\":5}]" (some (.ptr (.array 1 (.struct 0)), .ptr (exU.zero (.array 1 (.struct 0))))) =
      some (.done (some (.ptr (.array 1 (.struct 0)), .ptr (.array [.struct [.int 1, .str [], .nilPtr]]))) none) ∧
    unmarshal exU 30 Doc.empty b!"[{\"b\":5,\"A\":1}]" (some (.ptr (.array 1 (.struct 0)), .ptr (exU.zero (.array 1 (.struct 0))))) =
      some (.done (some (.ptr (.array 1 (.struct 0)), .ptr (.array [.struct [.int 0, .str [], .nilPtr]]))) none) ∧
    unmarshal exU 30 Doc.empty b!"{\"x\":true,\"y\":1}" (some (.ptr (.map .string .bool), .ptr .nilMap)) = some .panic ∧
    unmarshal exU 30 Doc.empty b!"{\"y\":1,\"x\":true}" (some (.ptr (.map .string .bool), .ptr .nilMap)) =
      some (.done (some (.ptr (.map .string .bool), .ptr .nilMap)) (some (.typeError tNumber tBoolean))) := by
  refine ⟨eq_of_sameX ?_, eq_of_sameX ?_, eq_of_sameX ?_, eq_of_sameX ?_, eq_of_isPanic ?_, eq_of_sameX ?_⟩ <;> decide +kernel

/-! ## Examples -/

/-- A map with entries: other orders of the members give other lists of entries, of the same map. -/
example : unmarshal exU 30 Doc.empty b!"{\"x\":true,\"y\":false}" (some (.ptr (.map .string .bool), .ptr (.map []))) =
      some (.done (some (.ptr (.map .string .bool), .ptr (.map [(.str b!"x", .bool true), (.str b!"y", .bool false)]))) none) ∧
    unmarshal exU 30 Doc.empty b!"{\"y\":false,\"x\":true}" (some (.ptr (.map .string .bool), .ptr (.map []))) =
      some (.done (some (.ptr (.map .string .bool), .ptr (.map [(.str b!"y", .bool false), (.str b!"x", .bool true)]))) none) ∧
    UnmarshalArg exU (.ptr (.map .string .bool)) (.map .string .bool) (.map []) ∧
    Shuffled (.obj [(b!"x", .bool true), (b!"y", .bool false)]) (.obj [(b!"y", .bool false), (b!"x", .bool true)]) ∧
    Fits exU decodeOptions (.map .string .bool) (.obj [(b!"x", .bool true), (b!"y", .bool false)]) := by
  refine ⟨eq_of_sameX (by decide +kernel), eq_of_sameX (by decide +kernel), exU_arg (.map rfl (by simp) (by simp)),
    C120_perm (List.Perm.swap _ _ _) (by decide), .map rfl ?_⟩
  intro m hm
  simp only [List.mem_cons, List.not_mem_nil, or_false] at hm
  rcases hm with rfl | rfl <;> exact .bool rfl

/-- The relation of trees is not trivial: the values of equal names keep their order, and nothing gets lost. -/
example : ¬ Shuffled (.obj [(b!"x", .bool true), (b!"x", .bool false)]) (.obj [(b!"x", .bool false), (b!"x", .bool true)]) ∧
    ¬ Shuffled (.obj [(b!"x", .bool true)]) (.obj []) ∧ ¬ Shuffled (.arr [.bool true, .bool false]) (.arr [.bool false, .bool true]) := by
  refine ⟨fun h => ?_, fun h => ?_, fun h => ?_⟩
  · obtain ⟨ns, h1, h2⟩ := h.obj_inv
    cases h1
    generalize hl : [(b!"x", JVal.bool false), (b!"x", JVal.bool true)] = l at h2
    cases h2 with
    | @insert _ _ _ _ ns _ h3 h4 =>
      cases ns with
      | nil => simp at hl; obtain ⟨rfl, _⟩ := hl; cases h3
      | cons n ns => simp at hl; obtain ⟨rfl, _⟩ := hl; simp at h4
  · obtain ⟨ns, h1, h2⟩ := h.obj_inv
    cases h1
    generalize hl : ([] : List (Bytes × JVal)) = l at h2
    cases h2
    simp at hl
  · obtain ⟨ns, h1, h2⟩ := h.arr_inv
    cases h1
    cases h2 with
    | cons h => cases h

end Verif.Props
