import Verif.Spec.GenShown
import Verif.Proofs.GenRun

/-! # A generated `AppendJSON` sees only what it writes -/

namespace Verif.Gen
open Verif Verif.Float Verif.Spec Verif.Njson Verif.Unjson

/-- The condition of a field is the same, and it panics or not. -/
theorem cond_written {E : Env} {o : GenOptions} {t : Ty} {c : Option Cond} {x y : GV} (h : typeOmiter E o t = .ok c) (hs : SameWritten E o t x y) :
    condPanics E.U x c = condPanics E.U y c ∧ condHolds E.U x c = condHolds E.U y c := by
  cases hs with
  | same => exact ⟨rfl, rfl⟩
  | ptr hb hm => simp only [typeOmiter, hm.2, hb] at h; cases h; exact ⟨rfl, rfl⟩
  | nilSlice hb hm => simp only [typeOmiter, hm.2, hb] at h; cases h; exact ⟨rfl, rfl⟩
  | emptySlice hb hm => simp only [typeOmiter, hm.2, hb] at h; cases h; exact ⟨rfl, rfl⟩
  | slice hb hm => simp only [typeOmiter, hm.2, hb] at h; cases h; exact ⟨rfl, rfl⟩
  | nilMap hb hm => simp only [typeOmiter, hm.2, hb] at h; cases h; exact ⟨rfl, rfl⟩
  | emptyMap hb hm => simp only [typeOmiter, hm.2, hb] at h; cases h; exact ⟨rfl, rfl⟩
  | @map _ _ _ es es' hb hm hk =>
    simp only [typeOmiter, hm.2, hb] at h; cases h
    have hl : es.length = es'.length := by have := congrArg List.length hk; simpa using this
    exact ⟨rfl, by show decide (0 < es.length) = decide (0 < es'.length); rw [decide_eq_decide, hl]⟩
  | struct hm => simp [typeOmiter, hm.2, Univ.base] at h

theorem elems_written {rec : GV → Bytes → Out Bytes} : ∀ {xs ys : List GV}, xs.length = ys.length →
    (∀ (i : Nat) x y, xs[i]? = some x → ys[i]? = some y → ∀ out, rec x out = rec y out) → ∀ first out,
    runElems rec first xs out = runElems rec first ys out := by
  intro xs
  induction xs with
  | nil => intro ys hl _ first out; cases ys with
    | nil => rfl
    | cons => cases hl
  | cons x xs ih =>
    intro ys hl h first out
    cases ys with
    | nil => cases hl
    | cons y ys =>
      rw [runElems, runElems, h 0 x y rfl rfl]
      congr 1
      funext out
      exact ih (by simpa using hl) (fun i x y hx hy => h (i + 1) x y hx hy) false out

theorem entries_written {key elem : GV → Bytes → Out Bytes} : ∀ {es es' : List (GV × GV)}, es.map Prod.fst = es'.map Prod.fst →
    (∀ (i : Nat) p q, es[i]? = some p → es'[i]? = some q → ∀ out, elem p.2 out = elem q.2 out) → ∀ first out,
    runEntries key elem first es out = runEntries key elem first es' out := by
  intro es
  induction es with
  | nil => intro es' hl _ first out; cases es' with
    | nil => rfl
    | cons => cases hl
  | cons p es ih =>
    intro es' hl h first out
    cases es' with
    | nil => cases hl
    | cons q es' =>
      obtain ⟨k, x⟩ := p
      obtain ⟨k', y⟩ := q
      simp only [List.map_cons, List.cons.injEq] at hl
      obtain ⟨rfl, hl⟩ := hl
      rw [runEntries, runEntries]
      congr 1
      funext out
      rw [h 0 _ _ rfl rfl]
      congr 1
      funext out
      exact ih hl (fun i x y hx hy => h (i + 1) x y hx hy) false out

/-- One field of a struct, in terms of its value. -/
theorem field_run {E : Env} (hE : E.Ok) {j : Nat} {T : Ty} (hs : SameSel E.U T j) {V : GV} (hV : HasTy E.U T V) (hn : V ≠ .nilPtr) {fs : List GV}
    (hfs : ∀ p, p ≠ [] → look V p = look (.struct fs) p) {p : Pick} (hp : p.field ∈ (E.fields j).flatten) (c : Option Cond) (b : ABlock)
    (rest : AFields) :
    (∀ x, look (.struct fs) p.field.path = some x → HasTy E.U p.field.typ x) ∧
    ∀ first out, (AFields.cons p.name p.field.path (guardsOf E.U (.struct j) [] p.field.path) c b rest).run E.U T V first out =
        match look (.struct fs) p.field.path with
        | none => rest.run E.U T V first out
        | some x => if condPanics E.U x c then .panic else if condHolds E.U x c then
            next (b.run E.U p.field.typ x (out ++ [if first then 123 else 44, 34] ++ p.name ++ [34, 58])) fun out => rest.run E.U T V false out
          else rest.run E.U T V first out := by
  have hpath := hE.path j _ hp
  have hne := hE.nonempty j _ hp
  have hguard : guardsOf E.U (.struct j) [] p.field.path = guardsOf E.U T [] p.field.path := by
    cases hp : p.field.path with
    | nil => rfl
    | cons i is => rw [guardsOf, guardsOf, hs.fieldTy]
  have hpathT : pathTy E.U T p.field.path = some p.field.typ := by rw [hs.pathTy hne, hpath]
  obtain ⟨hg1, hg2⟩ := guards_spec (V := V) (pre := []) rfl hV hn hpathT
  rw [hfs _ hne] at hg1 hg2
  refine ⟨fun x hx => (hg2 x hx).2, fun first out => ?_⟩
  rw [AFields.run, hguard, hg1]
  cases hl : look (.struct fs) p.field.path with
  | none => rfl
  | some x =>
    obtain ⟨hx, -⟩ := hg2 x hl
    rw [List.nil_append] at hx
    rw [hpathT, hx]
    dsimp only
    cases c <;> rfl

/-- The fields of a struct. -/
theorem fields_written {E : Env} (hE : E.Ok) {o : GenOptions} {rec : Ty → List Bytes → Res ABlock} {j : Nat} {T : Ty} (hs : SameSel E.U T j)
    {V V' : GV} (hV : HasTy E.U T V) (hV' : HasTy E.U T V') (hn : V ≠ .nilPtr) (hn' : V' ≠ .nilPtr) {fs fs' : List GV}
    (hfs : ∀ p, p ≠ [] → look V p = look (.struct fs) p) (hfs' : ∀ p, p ≠ [] → look V' p = look (.struct fs') p)
    (ih : ∀ {t : Ty} {ps : List Bytes} {b : ABlock} {x y : GV}, rec t ps = .ok b → HasTy E.U t x → HasTy E.U t y → SameWritten E o t x y →
      ∀ out, b.run E.U t x out = b.run E.U t y out) :
    ∀ {ps : List Pick} {bs : AFields}, (∀ p ∈ ps, p.field ∈ (E.fields j).flatten) →
      (∀ p ∈ ps, look (.struct fs) p.field.path = none ↔ look (.struct fs') p.field.path = none) →
      (∀ p ∈ ps, ∀ x y, look (.struct fs) p.field.path = some x → look (.struct fs') p.field.path = some y → SameWritten E o p.field.typ x y) →
      pickFields E o rec (.struct j) ps = .ok bs → ∀ first out, bs.run E.U T V first out = bs.run E.U T V' first out := by
  intro ps
  induction ps with
  | nil => intro bs _ _ _ h first out; cases h; rfl
  | cons p ps ih2 =>
    intro bs hf h1 h2 h first out
    rw [List.forall_mem_cons] at hf h1 h2
    rw [pickFields] at h
    obtain ⟨y, rest, h3, h4, rfl⟩ := both_ok.1 h
    obtain ⟨b, c, h5, h6, rfl⟩ := both_ok.1 h3
    have ihr := ih2 hf.2 h1.2 h2.2 h4
    obtain ⟨t1, r1⟩ := field_run hE hs hV hn hfs hf.1 c b rest
    obtain ⟨t2, r2⟩ := field_run hE hs hV' hn' hfs' hf.1 c b rest
    dsimp only
    rw [r1, r2]
    cases hl : look (.struct fs) p.field.path with
    | none => rw [h1.1.1 hl]; exact ihr first out
    | some x =>
      cases hl' : look (.struct fs') p.field.path with
      | none => rw [h1.1.2 hl'] at hl; cases hl
      | some x' =>
        have hx := h2.1 x x' hl hl'
        have hc : condPanics E.U x c = condPanics E.U x' c ∧ condHolds E.U x c = condHolds E.U x' c := by
          by_cases ho : b!"omitempty" ∈ p.params
          · rw [if_pos ho] at h6; exact cond_written h6 hx
          · rw [if_neg ho] at h6; cases h6; exact ⟨rfl, rfl⟩
        dsimp only
        rw [hc.1, hc.2, ih h5 (t1 x hl) (t2 x' hl') hx, ihr]
        congr 2
        congr 1
        funext out
        exact ihr false out

theorem struct_written {E : Env} (hE : E.Ok) {o : GenOptions} {fuel : Nat} {j : Nat} {T : Ty} (hs : SameSel E.U T j) (hm : NoMarshal E.U (.struct j))
    {V V' : GV} (hV : HasTy E.U T V) (hV' : HasTy E.U T V') (hn : V ≠ .nilPtr) (hn' : V' ≠ .nilPtr) {fs fs' : List GV}
    (hfs : ∀ p, p ≠ [] → look V p = look (.struct fs) p) (hfs' : ∀ p, p ≠ [] → look V' p = look (.struct fs') p)
    (ih : ∀ {t : Ty} {ps : List Bytes} {b : ABlock} {x y : GV}, typeAppender E o fuel t ps = .ok b → HasTy E.U t x → HasTy E.U t y →
      SameWritten E o t x y → ∀ out, b.run E.U t x out = b.run E.U t y out)
    {ps : List Bytes} {b : ABlock} (h : typeAppender E o (fuel + 1) (.struct j) ps = .ok b)
    (h1 : ∀ p ∈ appendPicks E o j, look (.struct fs) p.field.path = none ↔ look (.struct fs') p.field.path = none)
    (h2 : ∀ p ∈ appendPicks E o j, ∀ x y, look (.struct fs) p.field.path = some x → look (.struct fs') p.field.path = some y →
      SameWritten E o p.field.typ x y) (out : Bytes) : b.run E.U T V out = b.run E.U T V' out := by
  rw [typeAppender_plain hm] at h
  unfold plainBlock at h
  simp only [Univ.base] at h
  obtain ⟨bs, h0, rfl⟩ := mapR_ok.1 h
  rw [ABlock.run, ABlock.run]
  exact fields_written hE hs hV hV' hn hn' hfs hfs' ih (fun p hp => (mem_appendPicks hp).1) h1 h2 h0 true out

/-- Blocks do the same for values that are written alike. -/
theorem written_run {E : Env} (hE : E.Ok) {o : GenOptions} : ∀ (fuel : Nat) {t : Ty} {ps : List Bytes} {b : ABlock} {v v' : GV},
    typeAppender E o fuel t ps = .ok b → HasTy E.U t v → HasTy E.U t v' → SameWritten E o t v v' → ∀ out, b.run E.U t v out = b.run E.U t v' out := by
  intro fuel
  induction fuel using Nat.strong_induction_on with
  | _ fuel IH =>
    intro t ps b v v' h hv hv' hs out
    cases fuel with
    | zero => cases h
    | succ fuel =>
      have h' := h
      cases hs with
      | same => rfl
      | @ptr _ j v v' hb hm hmj hs =>
        rw [typeAppender_plain hm.1] at h
        unfold plainBlock at h
        rw [hb] at h
        obtain ⟨b', h0, rfl⟩ := mapR_ok.1 h
        rw [ABlock.run, ABlock.run]
        simp only [GV.isNil, Bool.false_eq_true, if_false]
        cases fuel with
        | zero => cases h0
        | succ fuel =>
          cases hs with
          | same => rfl
          | struct hm' h1 h2 =>
            exact struct_written hE (.inr hb) hmj hv hv' (by simp) (by simp) (look_ptr _) (look_ptr _) (fun h => IH fuel (by omega) h) h0 h1 h2 out
          | _ hb' => cases hb'
      | nilSlice hb hm =>
        rw [typeAppender_plain hm.1] at h
        unfold plainBlock at h
        rw [hb] at h
        obtain ⟨b', h0, rfl⟩ := mapR_ok.1 h
        rw [run_nilSlice hb, run_slice hb]
        simp [runElems, next]
      | emptySlice hb hm =>
        rw [typeAppender_plain hm.1] at h
        unfold plainBlock at h
        rw [hb] at h
        obtain ⟨b', h0, rfl⟩ := mapR_ok.1 h
        rw [run_nilSlice hb, run_slice hb]
        simp [runElems, next]
      | @slice _ e arr arr' len hb hm hl hs =>
        rw [typeAppender_plain hm.1] at h
        unfold plainBlock at h
        rw [hb] at h
        obtain ⟨b', h0, rfl⟩ := mapR_ok.1 h
        rw [run_slice hb, run_slice hb]
        rw [elems_written hl]
        intro i x y hx hy out
        have el : ∀ {arr : List GV} {x : GV}, HasTy E.U t (.slice arr len) → (arr.take len)[i]? = some x → HasTy E.U e x := by
          intro arr x hv hx
          cases hv with
          | slice hb' _ hall => rw [hb] at hb'; cases hb'; exact hall x (List.mem_of_mem_take (List.mem_of_getElem? hx))
        exact IH fuel (by omega) h0 (el hv hx) (el hv' hy) (hs i x y hx hy) out
      | nilMap hb hm =>
        rw [typeAppender_plain hm.1] at h
        unfold plainBlock at h
        rw [hb] at h
        obtain ⟨b1, b2, h1, h2, rfl⟩ := both_ok.1 h
        rw [run_nilMap hb, run_map hb]
        simp [runEntries]
      | emptyMap hb hm =>
        rw [typeAppender_plain hm.1] at h
        unfold plainBlock at h
        rw [hb] at h
        obtain ⟨b1, b2, h1, h2, rfl⟩ := both_ok.1 h
        rw [run_nilMap hb, run_map hb]
        simp [runEntries]
      | @map _ k e es es' hb hm hk hs =>
        rw [typeAppender_plain hm.1] at h
        unfold plainBlock at h
        rw [hb] at h
        obtain ⟨b1, b2, h1, h2, rfl⟩ := both_ok.1 h
        rw [run_map hb, run_map hb]
        apply entries_written hk
        intro i p q hp hq out
        have el : ∀ {es : List (GV × GV)} {p : GV × GV}, HasTy E.U t (.map es) → es[i]? = some p → HasTy E.U e p.2 := by
          intro es p hv hp
          cases hv with
          | map hb' _ hall => rw [hb] at hb'; cases hb'; exact hall p (List.mem_of_getElem? hp)
        exact IH fuel (by omega) h2 (el hv hp) (el hv' hq) (hs i p q hp hq) out
      | struct hm h1 h2 =>
        exact struct_written hE (.inl rfl) hm.1 hv hv' (by simp) (by simp) (fun _ _ => rfl) (fun _ _ => rfl) (fun h => IH fuel (by omega) h) h' h1 h2 out

end Verif.Gen
