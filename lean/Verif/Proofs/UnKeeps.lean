import Verif.Spec.UnKeeps
import Verif.Proofs.UnExact
import Verif.Proofs.UnShown
import Verif.Proofs.UnIgnore

namespace Verif.Unjson
open Verif Verif.Float Verif.Spec Verif.Njson

theorem members_leave {U : Univ} {nm : NodeMeth} {o : Options} {cs : List Cand} {q : List Int} : ∀ {ms : List (Bytes × JVal)} {v : GV} {r : Out GV},
    ReadMembers U nm o cs ms v r → (∀ m ∈ ms, ∀ c ∈ cs, c.key = m.1 → Elsewhere c.index q) → ∀ v' e, r = .done v' e → sub v' q = sub v q
  | [], v, r, h, _, v', e, hr => by cases h; cases hr; rfl
  | (key, j) :: ms, v, r, h, ha, v', e, hr => by
    have ht : ∀ m ∈ ms, ∀ c ∈ cs, c.key = m.1 → Elsewhere c.index q := fun m hm => ha m (List.mem_cons_of_mem _ hm)
    have hh : ∀ c, cs.find? (fun c => c.key = key) = some c → Elsewhere c.index q := fun c hc =>
      ha (key, j) List.mem_cons_self c (find_some hc).1 (find_some hc).2
    cases h with
    | unknown _ h => exact members_leave h ht v' e hr
    | fail hf _ _ => cases hr; exact iapart_sub_put (hh _ hf)
    | panic => cases hr
    | cons hf _ _ h => rw [members_leave h ht v' e hr]; exact iapart_sub_put (hh _ hf)
    | lostFail => cases hr; rfl
    | lostPanic => cases hr
    | lost _ _ _ h => exact members_leave h ht v' e hr


/-- Reading into a struct. -/
theorem reads_keep {U : Univ} {nm : NodeMeth} {o : Options} {t : Ty} {k : Nat} (hb : U.base t = .struct k) (hm : unmarshalMeth U t = none)
    {cs : List Cand} (hc : Cands U o (U.fields k) 0 [] cs) {x : GV} {j : JVal} {r : Out GV} (h : Reads U nm o t x j r) {q : List Int}
    {y : GV} {e : Option UErr} (hr : r = .done y e) :
    (j = .null ∧ y = U.zero t ∧ e = none) ∨ (j ≠ .null ∧ (NotNamed (resolve [] cs) j q → sub y q = sub x q)) := by
  cases h with
  | meth h => rw [hm] at h; cases h
  | plain _ h =>
    cases h with
    | null => cases hr; exact .inl ⟨rfl, rfl, rfl⟩
    | mismatch _ hj => cases hr; exact .inr ⟨hj, fun _ => rfl⟩
    | struct hb' hc' h =>
      rw [hb] at hb'; cases hb'
      cases cands_unique hc hc'
      exact .inr ⟨by simp, fun hq => members_leave h (hq _ rfl) y e hr⟩
    | any => rw [base_any] at hb; cases hb
    | bool h | int h | intErr h | uint h | uintErr h | float h | floatErr h | str h | ptr h | ptrNew h | sliceNull h | nilSliceNull h | slice h | sliceGrow h
    | nilSlice h | array h | mapNull h | map h | anyErr h | anyPanic h => rw [hb] at h; cases h

/-- A field that is skipped is elsewhere. -/
theorem skipped_elsewhere {U : Univ} {o : Options} {k : Nat} {cs : List Cand} (hc : Cands U o (U.fields k) 0 [] cs) {i : Nat} {f : Field}
    (hf : (U.fields k)[i]? = some f) (hx : f.exported = false ∨ (o.parseField f).1 = b!"-") (j : JVal) : NotNamed (resolve [] cs) j [(i : Int)] := by
  intro ms _ m _ c h _
  have hcs : c ∈ cs := by rcases resolve_mem h with h | h <;> [cases h; exact h]
  obtain ⟨n, r, hi, _, g, hg, hg1, hg2⟩ := cands_skipped hc c hcs
  refine ⟨[], n, i, r, [], hi, rfl, ?_⟩
  rintro rfl
  rw [Nat.sub_zero, hf] at hg; cases hg
  rcases hx with h | h
  · rw [hg1] at h; cases h
  · exact hg2 h

end Verif.Unjson
