import Verif.Spec.UnNil
import Verif.Proofs.UnMethDet
import Verif.Proofs.UnOrder

/-! # Nil pointers and methods, proofs -/

namespace Verif.Unjson
open Verif Verif.Float Verif.Spec Verif.Njson Verif.Gen

theorem except_map_ok {α β : Type} {w : Except Fail α} {f : α → β} {s : β} (h : w.map f = .ok s) : ∃ a, w = .ok a ∧ s = f a := by
  cases w with
  | ok a => cases h; exact ⟨a, rfl, rfl⟩
  | error e => cases h

theorem wElems_ok {U : Univ} {c a : Bool} {o : Options} {h : Hint} {t : Ty} : ∀ {xs : List GV} {w : Except Fail (List Bytes)} {ss : List Bytes},
    WElems U c a o h t xs w → w = .ok ss → ∀ x ∈ xs, ∃ s, Writes U c a o h t x (.ok s)
  | [], _, _, _, _, x, hx => by cases hx
  | y :: xs, w, ss, hw, he, x, hx => by
    cases hw with
    | stop => cases he
    | cons h1 h2 =>
      obtain ⟨ss', hs, rfl⟩ := except_map_ok he
      rcases List.mem_cons.1 hx with rfl | hx
      · exact ⟨_, h1⟩
      · exact wElems_ok h2 hs x hx

theorem wEntries_ok {U : Univ} {c : Bool} {o : Options} {k t : Ty} : ∀ {es : List (GV × GV)} {w : Except Fail (List Bytes)} {ss : List Bytes},
    WEntries U c o k t es w → w = .ok ss → ∀ x ∈ es, ∃ s, Writes U c false o Hint.none t x.2 (.ok s)
  | [], _, _, _, _, x, hx => by cases hx
  | y :: es, w, ss, hw, he, x, hx => by
    cases hw with
    | key => cases he
    | stop => cases he
    | cons _ h1 h2 =>
      obtain ⟨ss', hs, rfl⟩ := except_map_ok he
      rcases List.mem_cons.1 hx with rfl | hx
      · exact ⟨_, h1⟩
      · exact wEntries_ok h2 hs x hx

theorem wFields_ok {U : Univ} {a : Bool} {o : Options} {v : GV} : ∀ {cs : List Cand} {w : Except Fail (List Bytes)} {ss : List Bytes},
    WFields U a o v cs w → w = .ok ss → ∀ c ∈ cs, ∀ x, sub v c.index = some x → ∃ b, OmitsM U o (addrAt a c.index) c x (some b) ∧
      (b = false → ∃ s, Writes U true (addrAt a c.index) o c.hint c.typ x (.ok s))
  | [], _, _, _, _, c, hc, _, _ => by cases hc
  | d :: cs, w, ss, hw, he, c, hc, x, hx => by
    cases hw with
    | absent h1 h2 =>
      rcases List.mem_cons.1 hc with rfl | hc
      · rw [h1] at hx; cases hx
      · exact wFields_ok h2 he c hc x hx
    | omitPanic => cases he
    | omitted h1 h2 h3 =>
      rcases List.mem_cons.1 hc with rfl | hc
      · rw [h1] at hx; cases hx; exact ⟨true, h2, fun h => by cases h⟩
      · exact wFields_ok h3 he c hc x hx
    | stop => cases he
    | present h1 h2 h3 h4 =>
      obtain ⟨ss', hs, rfl⟩ := except_map_ok he
      rcases List.mem_cons.1 hc with rfl | hc
      · rw [h1] at hx; cases hx; exact ⟨false, h2, fun _ => ⟨_, h3⟩⟩
      · exact wFields_ok h4 hs c hc x hx

theorem callMeth_nil {U : Univ} (hG : U.GoMethods) {e : Ty} (hd : Direct U e) {m : Meth} (hm : U.impl e m = true) : callMeth U m (.ptr e) .nilPtr = .error .panic := by
  have hp : callMeth U m (.ptr e) .nilPtr = methText U m (.ptr e) .nilPtr := by
    unfold callMeth
    rw [show U.base (.ptr e) = .ptr e from rfl, hG.promoted e m hd.1 hd.2 hm]
    rfl
  rw [hp]
  unfold methText
  split <;> rw [hG.nil e _ [] hd.1 hm] <;> rfl

theorem omitVal_nil {U : Univ} (hG : U.GoMethods) {name : Bytes} {a : Bool} {e : Ty} (hd : Direct U e) {f : GV → Bool} (hf : U.omitMethod name e = some f) :
    OmitVal U name a (.ptr e) .nilPtr none := by
  obtain ⟨g, hg, _⟩ := hG.omits name e f hd.1 hd.2 hf
  have : OmitCustom U name a (.ptr e) .nilPtr (omitCall U name (.ptr e) g .nilPtr) := .own (by intro n i h; cases h) hg
  unfold omitCall at this
  rw [hG.omit_nil name e f hd.1 hf] at this
  exact .custom this

/-- A value with such a place is not written. -/
theorem nilCall_fails {U : Univ} (hG : U.GoMethods) {o : Options} {t : Ty} {v : GV} (hb : NilArg U o t v) : ∀ {w : Except Fail Bytes}, WArg U o t v w → ∀ s, w ≠ .ok s := by
  refine NilArg.rec (U := U)
    (motive_1 := fun c a o h t v _ => ∀ {w : Except Fail Bytes}, Writes U c a o h t v w → ∀ s, w ≠ .ok s)
    (motive_2 := fun o t v _ => ∀ {w : Except Fail Bytes}, WArg U o t v w → ∀ s, w ≠ .ok s)
    ?_ ?_ ?_ ?_ ?_ ?_ ?_ ?_ ?_ ?_ ?_ hb
  · intro c a o h e m hd hv hm w hw s
    cases hw with
    | meth h1 => rw [hv] at h1; cases h1; rw [callMeth_nil hG hd hm]; intro h; cases h
    | nilPtr h1 => rw [hv] at h1; cases h1
  · intro c a o h t e v hv hb _ ih w hw s
    cases hw with
    | meth h1 => rw [hv] at h1; cases h1
    | ptr _ hb' h1 => rw [hb] at hb'; cases hb'; exact ih h1 s
  · intro c a o h t e arr len x hv hb hx _ ih w hw s
    cases hw with
    | meth h1 => rw [hv] at h1; cases h1
    | slice _ hb' h1 =>
      rw [hb] at hb'; cases hb'
      intro hs
      obtain ⟨ss, h2, _⟩ := except_map_ok hs
      obtain ⟨s', h3⟩ := wElems_ok h1 h2 x hx
      exact ih h3 s' rfl
  · intro c a o h t n e xs x hv hb hx _ ih w hw s
    cases hw with
    | meth h1 => rw [hv] at h1; cases h1
    | array _ hb' h1 =>
      rw [hb] at hb'; cases hb'
      intro hs
      obtain ⟨ss, h2, _⟩ := except_map_ok hs
      obtain ⟨s', h3⟩ := wElems_ok h1 h2 x hx
      exact ih h3 s' rfl
  · intro c a o h t k e es x hv hb hx _ ih w hw s
    cases hw with
    | meth h1 => rw [hv] at h1; cases h1
    | map _ hb' h1 =>
      rw [hb] at hb'; cases hb'
      intro hs
      obtain ⟨ss, h2, _⟩ := except_map_ok hs
      obtain ⟨s', h3⟩ := wEntries_ok h1 h2 x hx
      exact ih h3 s' rfl
  · intro c a o h t i t' v hv hb _ ih w hw s
    cases hw with
    | meth h1 => rw [hv] at h1; cases h1
    | iface _ _ h1 => exact ih h1 s
  · intro c a o h t j cs k fs x hv hb hc hk hx ho _ ih w hw s
    cases hw with
    | meth h1 => rw [hv] at h1; cases h1
    | struct _ hb' hc' h1 =>
      rw [hb] at hb'; cases hb'
      cases cands_det hc hc'
      intro hs
      obtain ⟨ss, h2, _⟩ := except_map_ok hs
      obtain ⟨b, h3, h4⟩ := wFields_ok h1 h2 k hk x hx
      cases omitsM_one ho h3
      obtain ⟨s', h4⟩ := h4 rfl
      exact ih h4 s' rfl
  · intro c a o h t j cs k fs e f hv hb hc hk hx ho ht hd hf w hw s
    cases hw with
    | meth h1 => rw [hv] at h1; cases h1
    | struct _ hb' hc' h1 =>
      rw [hb] at hb'; cases hb'
      cases cands_det hc hc'
      intro hs
      obtain ⟨ss, h2, _⟩ := except_map_ok hs
      obtain ⟨b, h3, _⟩ := wFields_ok h1 h2 k hk _ hx
      have : OmitsM U o (addrAt a k.index) k .nilPtr none :=
        .value ho (.inl (by rw [ht]; intro j h; cases h)) (by rw [ht]; exact omitVal_nil hG hd hf)
      cases omitsM_one this h3
  · intro o t e hb w hw s
    cases hw with
    | invalid h1 => exact absurd hb (h1 _)
    | ptrInvalid => intro h; cases h
    | nilPtr => intro h; cases h
    | meth h1 => exact absurd hb (h1 _)
    | value h1 => exact absurd hb (h1 _)
  · intro o t e v hb hm _ ih w hw s
    cases hw with
    | invalid h1 => exact absurd hb (h1 _)
    | ptrInvalid => intro h; cases h
    | ptrMeth _ h2 => rw [hm] at h2; cases h2
    | ptr hb' _ _ h1 => rw [hb] at hb'; cases hb'; exact ih h1 s
    | meth h1 => exact absurd hb (h1 _)
    | value h1 => exact absurd hb (h1 _)
  · intro o t v hb hm _ ih w hw s
    cases hw with
    | invalid => intro h; cases h
    | ptrInvalid h1 => exact absurd h1 (hb _)
    | nilPtr h1 => exact absurd h1 (hb _)
    | ptrMeth h1 => exact absurd h1 (hb _)
    | ptr h1 => exact absurd h1 (hb _)
    | meth _ h1 => rw [hm] at h1; cases h1
    | value _ _ _ h1 => exact ih h1 s

/-- What is written of the fields of a struct, field by field; `none` is nothing. -/
theorem wFields_parts {U : Univ} {a : Bool} {o : Options} {v : GV} : ∀ {cs : List Cand} {w : Except Fail (List Bytes)} {ss : List Bytes},
    WFields U a o v cs w → w = .ok ss → ∃ parts : List (Option Bytes), parts.length = cs.length ∧ ss = parts.filterMap id ∧
      ∀ (i : Nat) c x, cs[i]? = some c → sub v c.index = some x → ∃ b, OmitsM U o (addrAt a c.index) c x (some b) ∧
        (b = true → parts[i]? = some none) ∧
        (b = false → ∃ s, Writes U true (addrAt a c.index) o c.hint c.typ x (.ok s) ∧ parts[i]? = some (some ([34] ++ c.key ++ [34, 58] ++ s)))
  | [], _, _, hw, he => by
    cases hw; cases he
    exact ⟨[], rfl, rfl, by intro i c x h; simp at h⟩
  | d :: cs, w, ss, hw, he => by
    cases hw with
    | absent h1 h2 =>
      obtain ⟨ps, q1, q2, q3⟩ := wFields_parts h2 he
      refine ⟨none :: ps, by simp [q1], by simpa using q2, ?_⟩
      intro i c x hi hx
      cases i with
      | zero => cases hi; rw [h1] at hx; cases hx
      | succ i => exact q3 i c x hi hx
    | omitPanic => cases he
    | omitted h1 h2 h3 =>
      obtain ⟨ps, q1, q2, q3⟩ := wFields_parts h3 he
      refine ⟨none :: ps, by simp [q1], by simpa using q2, ?_⟩
      intro i c x hi hx
      cases i with
      | zero => cases hi; rw [h1] at hx; cases hx; exact ⟨true, h2, fun _ => rfl, fun h => by cases h⟩
      | succ i => exact q3 i c x hi hx
    | stop => cases he
    | present h1 h2 h3 h4 =>
      obtain ⟨ss', hs, rfl⟩ := except_map_ok he
      obtain ⟨ps, q1, q2, q3⟩ := wFields_parts h4 hs
      refine ⟨some _ :: ps, by simp [q1], by rw [q2]; rfl, ?_⟩
      intro i c x hi hx
      cases i with
      | zero => cases hi; rw [h1] at hx; cases hx; exact ⟨false, h2, fun h => by (cases h), fun _ => ⟨_, h3, rfl⟩⟩
      | succ i => exact q3 i c x hi hx

/-! ## Reading -/

/-- Reading into a pointer without methods. -/
theorem reads_ptr {U : Univ} (hU : U.Ok) {nm : NodeMeth} {o : Options} {t e : Ty} (hb : U.base t = .ptr e) {v : GV} {j : JVal} {y : GV} {err : Option UErr}
    (h : Reads U nm o t v j (.done y err)) (hm : unmarshalMeth U t = none) : (j = .null → y = .nilPtr ∧ err = none) ∧ (j ≠ .null → ∃ x, y = .ptr x) := by
  generalize hr : Out.done y err = r at h
  have hz : U.zero t = .nilPtr := by rw [zero_base hU, hb]; rfl
  cases h with
  | meth h => rw [hm] at h; cases h
  | plain _ h =>
    cases h with
    | null => cases hr; exact ⟨fun _ => ⟨hz, rfl⟩, fun h => absurd rfl h⟩
    | @ptr _ _ _ _ r hb' hj h1 => cases r <;> cases hr; exact ⟨fun h => absurd h hj, fun _ => ⟨_, rfl⟩⟩
    | @ptrNew _ _ _ r hb' hj h1 => cases r <;> cases hr; exact ⟨fun h => absurd h hj, fun _ => ⟨_, rfl⟩⟩
    | mismatch h1 => rw [hb] at h1; cases h1
    | any => cases hb
    | _ => simp_all

/-- A method leaves a nil pointer nil. -/
theorem reads_nil_meth {U : Univ} {nm : NodeMeth} (hG : U.GoUnmarshal nm) {o : Options} {t e : Ty} (hb : U.base t = .ptr e) {j : JVal} {y : GV} {err : Option UErr}
    (h : Reads U nm o t .nilPtr j (.done y err)) {m : Meth} (hm : unmarshalMeth U t = some m) : y = .nilPtr := by
  generalize hr : Out.done y err = r at h
  cases h with
  | plain h => rw [hm] at h; cases h
  | meth h =>
    unfold callUnmarshal at hr
    split at hr
    · cases hr; rfl
    · rw [hb] at hr
      dsimp only at hr
      unfold methOut called at hr
      split at hr
      · split at hr
        · rename_i r hn
          cases hr
          exact hG.kept_node _ _ _ _ hb hn
        · cases hr
      · split at hr
        · cases hr
        · cases hr; exact hG.kept _ _ _ _ hb
      · split at hr
        · cases hr
        · cases hr; exact hG.kept _ _ _ _ hb

theorem readMembers_kept {U : Univ} {nm : NodeMeth} (hG : U.GoUnmarshal nm) {o : Options} {cs : List Cand} (hp : cs.Pairwise fun a b => IApart a.index b.index)
    {key : Bytes} {c : Cand} (hc : cs.find? (fun c => c.key = key) = some c) {e : Ty} (hb : U.base c.typ = .ptr e) {m : Meth} (hm : unmarshalMeth U c.typ = some m) :
    ∀ {ms : List (Bytes × JVal)} {v y : GV} {err : Option UErr}, ReadMembers U nm o cs ms v (.done y err) → sub v c.index = some .nilPtr → sub y c.index = some .nilPtr
  | [], v, y, err, h, hv => by cases h; exact hv
  | (k, j) :: ms, v, y, err, h, hv => by
    generalize hr : Out.done y err = r at h
    cases h with
    | unknown _ h2 => subst hr; exact readMembers_kept hG hp hc hb hm h2 hv
    | @fail _ _ _ _ _ d x z e h1 h2 h3 =>
      cases hr
      by_cases hk : k = key
      · subst hk
        rw [hc] at h1; cases h1
        rw [hv] at h2; cases h2
        rw [sub_put_self hv, reads_nil_meth hG hb h3 hm]
      · rw [iapart_sub_put (find_apart hp hk h1 hc)]; exact hv
    | panic => cases hr
    | @cons _ _ _ _ _ d x z r h1 h2 h3 h4 =>
      subst hr
      refine readMembers_kept hG hp hc hb hm h4 ?_
      by_cases hk : k = key
      · subst hk
        rw [hc] at h1; cases h1
        rw [hv] at h2; cases h2
        rw [sub_put_self hv, reads_nil_meth hG hb h3 hm]
      · rw [iapart_sub_put (find_apart hp hk h1 hc)]; exact hv
    | lostFail => cases hr; exact hv
    | lostPanic => cases hr
    | lost _ _ _ h4 => subst hr; exact readMembers_kept hG hp hc hb hm h4 hv

/-- Members with other keys leave a field alone. -/
theorem readMembers_other {U : Univ} {nm : NodeMeth} {o : Options} {cs : List Cand} (hp : cs.Pairwise fun a b => IApart a.index b.index)
    {key : Bytes} {c : Cand} (hc : cs.find? (fun c => c.key = key) = some c) : ∀ {ms : List (Bytes × JVal)} {v y : GV} {err : Option UErr},
    ReadMembers U nm o cs ms v (.done y err) → key ∉ ms.map Prod.fst → sub y c.index = sub v c.index
  | [], v, y, err, h, _ => by cases h; rfl
  | (k, j) :: ms, v, y, err, h, hn => by
    rw [List.map_cons, List.mem_cons, not_or] at hn
    have hk : k ≠ key := fun h => hn.1 h.symm
    generalize hr : Out.done y err = r at h
    cases h with
    | unknown _ h2 => subst hr; exact readMembers_other hp hc h2 hn.2
    | fail h1 h2 h3 => cases hr; rw [iapart_sub_put (find_apart hp hk h1 hc)]
    | panic => cases hr
    | cons h1 h2 h3 h4 => subst hr; rw [readMembers_other hp hc h4 hn.2, iapart_sub_put (find_apart hp hk h1 hc)]
    | lostFail => cases hr; rfl
    | lostPanic => cases hr
    | lost _ _ _ h4 => subst hr; exact readMembers_other hp hc h4 hn.2

theorem readMembers_last {U : Univ} (hU : U.Ok) {nm : NodeMeth} {o : Options} {cs : List Cand} (hp : cs.Pairwise fun a b => IApart a.index b.index)
    {key : Bytes} {c : Cand} (hc : cs.find? (fun c => c.key = key) = some c) {e : Ty} (hb : U.base c.typ = .ptr e) (hm : unmarshalMeth U c.typ = none)
    {j : JVal} {ms' : List (Bytes × JVal)} (hn : key ∉ ms'.map Prod.fst) :
    ∀ {ms : List (Bytes × JVal)} {v x y : GV}, ReadMembers U nm o cs (ms ++ (key, j) :: ms') v (.done y none) → sub v c.index = some x →
      (j = .null → sub y c.index = some .nilPtr) ∧ (j ≠ .null → ∃ z, sub y c.index = some (.ptr z))
  | [], v, x, y, h, hv => by
    rw [List.nil_append] at h
    generalize hr : Out.done y none = r at h
    cases h with
    | unknown h1 => rw [hc] at h1; cases h1
    | fail => cases hr
    | panic => cases hr
    | @cons _ _ _ _ _ d x z r h1 h2 h3 h4 =>
      subst hr
      rw [hc] at h1; cases h1
      rw [readMembers_other hp hc h4 hn, sub_put_self h2]
      obtain ⟨q1, q2⟩ := reads_ptr hU hb h3 hm
      refine ⟨fun h => by rw [(q1 h).1], fun h => ?_⟩
      obtain ⟨x, rfl⟩ := q2 h
      exact ⟨x, rfl⟩
    | lostFail => cases hr
    | lostPanic => cases hr
    | lost h1 h2 => rw [hc] at h1; cases h1; rw [hv] at h2; cases h2
  | (k, i) :: ms, v, x, y, h, hv => by
    rw [List.cons_append] at h
    generalize hr : Out.done y none = r at h
    cases h with
    | unknown _ h2 => subst hr; exact readMembers_last hU hp hc hb hm hn h2 hv
    | fail => cases hr
    | panic => cases hr
    | @cons _ _ _ _ _ d x' z r h1 h2 h3 h4 =>
      subst hr
      have : ∃ x'', sub (put z v d.index) c.index = some x'' := by
        by_cases hk : k = key
        · subst hk
          rw [hc] at h1; cases h1
          exact ⟨_, sub_put_self h2⟩
        · exact ⟨x, by rw [iapart_sub_put (find_apart hp hk h1 hc)]; exact hv⟩
      obtain ⟨x'', h5⟩ := this
      exact readMembers_last hU hp hc hb hm hn h4 h5
    | lostFail => cases hr
    | lostPanic => cases hr
    | lost _ _ _ h4 => subst hr; exact readMembers_last hU hp hc hb hm hn h4 hv

end Verif.Unjson
