import Verif.Proofs.UnDecode
import Verif.Proofs.UnResolve

/-! # The decoding rules determine the result -/

namespace Verif.Unjson
open Verif Verif.Float Verif.Spec Verif.Njson

/-- The rules that decode a type accept the trees that a mismatch does not. -/
theorem no_mismatch {U : Univ} {t : Ty} {w : Typ} (h : wants (U.base t) = some w) {j : JVal} (hj : jtyp j &&& w = 0) :
    (U.base t = .bool → ∀ b, j ≠ .bool b) ∧ (∀ k, U.base t = .int k → ∀ s, j ≠ .num s) ∧ (∀ k, U.base t = .uint k → ∀ s, j ≠ .num s) ∧
    (∀ k, U.base t = .float k → ∀ s, j ≠ .num s) ∧ (U.base t = .string → ∀ s, j ≠ .str s) ∧ (∀ e, U.base t ≠ .ptr e) ∧
    (∀ e, U.base t = .slice e → ∀ s, j ≠ .arr s) ∧ (∀ n e, U.base t = .array n e → ∀ s, j ≠ .arr s) ∧
    (∀ k e, U.base t = .map k e → ∀ s, j ≠ .obj s) ∧ (∀ i, U.base t = .struct i → ∀ s, j ≠ .obj s) ∧ (∀ i m, U.base t ≠ .iface i m) := by
  refine ⟨?_, ?_, ?_, ?_, ?_, ?_, ?_, ?_, ?_, ?_, ?_⟩
  · intro hb b e; subst e; rw [hb] at h; cases h; exact absurd hj (by simp only [jtyp]; decide)
  · intro k hb b e; subst e; rw [hb] at h; cases h; exact absurd hj (by simp only [jtyp]; decide)
  · intro k hb b e; subst e; rw [hb] at h; cases h; exact absurd hj (by simp only [jtyp]; decide)
  · intro k hb b e; subst e; rw [hb] at h; cases h; exact absurd hj (by simp only [jtyp]; decide)
  · intro hb b e; subst e; rw [hb] at h; cases h; exact absurd hj (by simp only [jtyp]; decide)
  · intro e hb; rw [hb] at h; cases h
  · intro k hb b e; subst e; rw [hb] at h; cases h; exact absurd hj (by simp only [jtyp]; decide)
  · intro n k hb b e; subst e; rw [hb] at h; cases h; exact absurd hj (by simp only [jtyp]; decide)
  · intro n k hb b e; subst e; rw [hb] at h; cases h; exact absurd hj (by simp only [jtyp]; decide)
  · intro k hb b e; subst e; rw [hb] at h; cases h; exact absurd hj (by simp only [jtyp]; decide)
  · intro i m hb; rw [hb] at h; cases h

theorem base_any (U : Univ) : U.base .any = .iface 0 0 := rfl

macro "clash" : tactic => `(tactic| first
  | rfl
  | (exfalso; rename_i h1 h2; rw [h1] at h2; cases h2; done)
  | (exfalso; simp_all [NullZero, base_any]; done))

macro "clashM" h:term : tactic => `(tactic|
  (exfalso; have hm := no_mismatch $h (by assumption); simp_all; done))

theorem decodes_unique {U : Univ} {o : Options} {t : Ty} {v : GV} {j : JVal} {r : Out GV} (h : Decodes U o t v j r) :
    ∀ r', Decodes U o t v j r' → r = r' := by
  refine Decodes.rec
    (motive_1 := fun t v j r _ => ∀ r', Decodes U o t v j r' → r = r')
    (motive_2 := fun t js arr r _ => ∀ r', DecElems U o t js arr r' → r = r')
    (motive_3 := fun t js xs r _ => ∀ r', DecArr U o t js xs r' → r = r')
    (motive_4 := fun k t ms m r _ => ∀ r', DecEntries U o k t ms m r' → r = r')
    (motive_5 := fun cs ms v r _ => ∀ r', DecMembers U o cs ms v r' → r = r')
    ?null ?mismatch ?bool ?int ?intErr ?uint ?uintErr ?float ?floatErr ?str ?ptr ?ptrNew ?sliceNull ?nilSliceNull ?slice ?sliceGrow
    ?nilSlice ?array ?mapNull ?map ?struct ?any ?anyErr ?anyPanic ?enil ?estop ?epanic ?econs ?afull ?arest ?apanic ?acons
    ?mnil ?mfail ?mpanic ?mnilMap ?mbadKey ?mcons ?snil ?sunknown ?sfail ?spanic ?scons ?slostFail ?slostPanic ?slost h
  case null =>
    intro t v hz r' h'
    cases h' with
    | null => rfl
    | mismatch h1 h2 => exact absurd rfl h2
    | ptr h1 h2 => exact absurd rfl h2
    | ptrNew h1 h2 => exact absurd rfl h2
    | any h => simp [NullZero, base_any] at hz
    | anyErr h | anyPanic h => simp [NullZero, h] at hz
    | sliceNull h | nilSliceNull h | mapNull h => simp [NullZero, h] at hz
  case mismatch =>
    intro t v j w h1 h2 h3 r' h'
    have hm := no_mismatch h1 h3
    cases h' with
    | mismatch g1 g2 g3 => rw [h1] at g1; cases g1; rfl
    | null => exact absurd rfl h2
    | any => exact absurd (base_any U) (hm.2.2.2.2.2.2.2.2.2.2 _ _)
    | _ => clash
  case bool => intro t x b hb r' h'; cases h' <;> first | rfl | (rename_i h1 h2 h3; clashM h1) | clash
  case int => intro t k x raw i hb hi r' h'; cases h' <;> first | (simp_all; done) | (rename_i h1 h2 h3; clashM h1) | clash
  case intErr => intro t k x raw hb hi r' h'; cases h' <;> first | (simp_all; done) | (rename_i h1 h2 h3; clashM h1) | clash
  case uint => intro t k x raw i hb hi r' h'; cases h' <;> first | (simp_all; done) | (rename_i h1 h2 h3; clashM h1) | clash
  case uintErr => intro t k x raw hb hi r' h'; cases h' <;> first | (simp_all; done) | (rename_i h1 h2 h3; clashM h1) | clash
  case float => intro t k x raw i hb hi r' h'; cases h' <;> first | (simp_all; done) | (rename_i h1 h2 h3; clashM h1) | clash
  case floatErr => intro t k x raw hb hi r' h'; cases h' <;> first | (simp_all; done) | (rename_i h1 h2 h3; clashM h1) | clash
  case str => intro t x raw hb r' h'; cases h' <;> first | rfl | (rename_i h1 h2 h3; clashM h1) | clash
  case ptr =>
    intro t e v j r hb hn _ ih r' h'
    cases h' with
    | ptr h1 h2 h3 => rw [hb] at h1; cases h1; rw [ih _ h3]
    | mismatch h1 h2 h3 => clashM h1
    | map h | struct h | mapNull h | anyPanic h | anyErr h => rw [hb] at h; cases h
    | null => exact absurd rfl hn
    | any => rw [base_any] at hb; cases hb
  case ptrNew =>
    intro t e j r hb hn _ ih r' h'
    cases h' with
    | ptrNew h1 h2 h3 => rw [hb] at h1; cases h1; rw [ih _ h3]
    | mismatch h1 h2 h3 => clashM h1
    | map h | struct h | mapNull h | anyPanic h | anyErr h => rw [hb] at h; cases h
    | null => exact absurd rfl hn
    | any => rw [base_any] at hb; cases hb
  case sliceNull => intro t e arr len hb r' h'; cases h' <;> first | rfl | (rename_i h1 h2 h3; clashM h1) | clash
  case nilSliceNull => intro t e hb r' h'; cases h' <;> first | rfl | (rename_i h1 h2 h3; clashM h1) | clash
  case slice =>
    intro t e arr len js r hb hl _ ih r' h'
    cases h' with
    | slice h1 h2 h3 => rw [hb] at h1; cases h1; rw [ih _ h3]
    | sliceGrow h1 h2 h3 => omega
    | mismatch h1 h2 h3 => clashM h1
    | any => rw [base_any] at hb; cases hb
    | anyPanic h | anyErr h => rw [hb] at h; cases h
  case sliceGrow =>
    intro t e arr len js r hb hl _ ih r' h'
    cases h' with
    | sliceGrow h1 h2 h3 => rw [hb] at h1; cases h1; rw [ih _ h3]
    | slice h1 h2 h3 => omega
    | mismatch h1 h2 h3 => clashM h1
    | any => rw [base_any] at hb; cases hb
    | anyPanic h | anyErr h => rw [hb] at h; cases h
  case nilSlice =>
    intro t e js r hb _ ih r' h'
    cases h' with
    | nilSlice h1 h3 => rw [hb] at h1; cases h1; rw [ih _ h3]
    | mismatch h1 h2 h3 => clashM h1
    | any => rw [base_any] at hb; cases hb
    | anyPanic h | anyErr h => rw [hb] at h; cases h
  case array =>
    intro t n e xs js r hb _ ih r' h'
    cases h' with
    | array h1 h3 => rw [hb] at h1; cases h1; rw [ih _ h3]
    | mismatch h1 h2 h3 => clashM h1
    | any => rw [base_any] at hb; cases hb
    | anyPanic h | anyErr h => rw [hb] at h; cases h
  case mapNull =>
    intro t k e v hb r' h'
    cases h' with
    | mapNull => rfl
    | mismatch h1 h2 h3 => exact absurd rfl h2
    | any => rw [base_any] at hb; cases hb
    | anyPanic h | anyErr h | sliceNull h | nilSliceNull h => first | rfl | (rw [hb] at h; cases h)
    | null h => simp [hb, NullZero] at h
    | ptr h | ptrNew h => rw [hb] at h; cases h
  case map =>
    intro t k e v ms r hb _ ih r' h'
    cases h' with
    | map h1 h3 => rw [hb] at h1; cases h1; exact ih _ h3
    | mismatch h1 h2 h3 => clashM h1
    | any => rw [base_any] at hb; cases hb
    | anyPanic h | anyErr h | struct h => rw [hb] at h; cases h
    | ptr h | ptrNew h => rw [hb] at h; cases h
  case struct =>
    intro t i cs v ms r hb hc _ ih r' h'
    cases h' with
    | struct h1 h2 h3 => rw [hb] at h1; cases h1; rw [cands_unique h2 hc] at h3; exact ih _ h3
    | mismatch h1 h2 h3 => clashM h1
    | any => rw [base_any] at hb; cases hb
    | anyPanic h | anyErr h | map h => rw [hb] at h; cases h
    | ptr h | ptrNew h => rw [hb] at h; cases h
  case any =>
    intro v j x hx r' h'
    cases h' with
    | any h => rw [hx] at h; cases h; rfl
    | anyErr _ h => rw [hx] at h; cases h
    | anyPanic _ h => exact absurd rfl h
    | mismatch h => cases h
    | null h => cases h
    | _ => simp_all [base_any]
  case anyErr =>
    intro t i v j hb hx r' h'
    cases h' with
    | any h => rw [hx] at h; cases h
    | anyErr _ h => rfl
    | anyPanic _ _ h => rw [hx] at h; cases h
    | mismatch h1 h2 h3 => clashM h1
    | null h => simp [hb, NullZero] at h
    | _ => simp_all
  case anyPanic =>
    intro t i v j x hb hn hx r' h'
    cases h' with
    | any h => exact absurd rfl hn
    | anyErr _ h => rw [hx] at h; cases h
    | anyPanic => rfl
    | mismatch h1 h2 h3 => clashM h1
    | null h => simp [hb, NullZero] at h
    | _ => simp_all
  case enil => intro t arr r' h'; cases h'; rfl
  case estop =>
    intro t j js x arr y e _ ih r' h'
    cases h' with
    | stop h => have := ih _ h; cases this; rfl
    | panic h => have := ih _ h; cases this
    | cons h => have := ih _ h; cases this
  case epanic =>
    intro t j js x arr _ ih r' h'
    cases h' with
    | stop h => have := ih _ h; cases this
    | panic h => rfl
    | cons h => have := ih _ h; cases this
  case econs =>
    intro t j js x arr y r _ _ ih ih2 r' h'
    cases h' with
    | stop h => have := ih _ h; cases this
    | panic h => have := ih _ h; cases this
    | cons h h2 => have := ih _ h; cases this; rw [ih2 _ h2]
  case afull => intro t js r' h'; cases h'; rfl
  case arest => intro t x xs r' h'; cases h'; rfl
  case apanic =>
    intro t j js x arr _ ih r' h'
    cases h' with
    | panic h => rfl
    | cons h => have := ih _ h; cases this
  case acons =>
    intro t j js x arr y e r _ _ ih ih2 r' h'
    cases h' with
    | panic h => have := ih _ h; cases this
    | cons h h2 => have := ih _ h; cases this; rw [ih2 _ h2]
  case mnil => intro k t m r' h'; cases h'; rfl
  case mfail =>
    intro k t key j ms m y e _ ih r' h'
    cases h' with
    | fail h => have := ih _ h; cases this; rfl
    | panic h | nilMap h | badKey _ h | cons h => have := ih _ h; cases this
  case mpanic =>
    intro k t key j ms m _ ih r' h'
    cases h' with
    | fail h => have := ih _ h; cases this
    | panic h | nilMap h | badKey _ h => rfl
    | cons h => have := ih _ h; cases this
  case mnilMap =>
    intro k t key j ms y _ ih r' h'
    cases h' with
    | fail h => have := ih _ h; cases this
    | panic h | nilMap h | badKey _ h => rfl
  case mbadKey =>
    intro k t key j ms m y hk _ ih r' h'
    cases h' with
    | fail h => have := ih _ h; cases this
    | panic h | nilMap h | badKey _ h => rfl
    | cons h => exact absurd rfl hk
  case mcons =>
    intro t key j ms es y r _ _ ih ih2 r' h'
    cases h' with
    | fail h => have := ih _ h; cases this
    | panic h => have := ih _ h; cases this
    | badKey hk h => exact absurd rfl hk
    | cons h h2 => have := ih _ h; cases this; exact ih2 _ h2
  case snil => intro cs v r' h'; cases h'; rfl
  case sunknown =>
    intro cs key j ms v r hf _ ih r' h'
    cases h' with
    | unknown _ h => exact ih _ h
    | fail h | panic h | cons h | lostFail h | lostPanic h | lost h => rw [hf] at h; cases h
  case sfail =>
    intro cs key j ms v c x y e hf hx _ ih r' h'
    cases h' with
    | unknown h => rw [hf] at h; cases h
    | fail h g d | panic h g d | cons h g d =>
      rw [hf] at h; cases h; rw [hx] at g; cases g
      have := ih _ d; cases this <;> rfl
    | lostFail h g | lostPanic h g | lost h g => rw [hf] at h; cases h; rw [hx] at g; cases g
  case spanic =>
    intro cs key j ms v c x hf hx _ ih r' h'
    cases h' with
    | unknown h => rw [hf] at h; cases h
    | fail h g d | panic h g d | cons h g d =>
      first | rfl | (rw [hf] at h; cases h; rw [hx] at g; cases g; have := ih _ d; cases this)
    | lostFail h g | lostPanic h g | lost h g => first | rfl | (rw [hf] at h; cases h; rw [hx] at g; cases g)
  case scons =>
    intro cs key j ms v c x y r hf hx _ _ ih ih2 r' h'
    cases h' with
    | unknown h => rw [hf] at h; cases h
    | fail h g d | panic h g d =>
      rw [hf] at h; cases h; rw [hx] at g; cases g
      have := ih _ d; cases this
    | cons h g d d2 =>
      rw [hf] at h; cases h; rw [hx] at g; cases g
      have := ih _ d; cases this
      exact ih2 _ d2
    | lostFail h g | lostPanic h g | lost h g => rw [hf] at h; cases h; rw [hx] at g; cases g
  case slostFail =>
    intro cs key j ms v c y e hf hx _ ih r' h'
    cases h' with
    | unknown h => rw [hf] at h; cases h
    | lostFail h g d | lostPanic h g d | lost h g d =>
      rw [hf] at h; cases h
      have := ih _ d; cases this <;> rfl
    | fail h g | panic h g | cons h g => rw [hf] at h; cases h; rw [hx] at g; cases g
  case slostPanic =>
    intro cs key j ms v c hf hx _ ih r' h'
    cases h' with
    | unknown h => rw [hf] at h; cases h
    | lostFail h g d | lostPanic h g d | lost h g d =>
      first | rfl | (rw [hf] at h; cases h; have := ih _ d; cases this)
    | fail h g | panic h g | cons h g => first | rfl | (rw [hf] at h; cases h; rw [hx] at g; cases g)
  case slost =>
    intro cs key j ms v c y r hf hx _ _ ih ih2 r' h'
    cases h' with
    | unknown h => rw [hf] at h; cases h
    | lostFail h g d | lostPanic h g d =>
      rw [hf] at h; cases h
      have := ih _ d; cases this
    | lost h g d d2 =>
      rw [hf] at h; cases h
      have := ih _ d; cases this
      exact ih2 _ d2
    | fail h g | panic h g | cons h g => rw [hf] at h; cases h; rw [hx] at g; cases g

end Verif.Unjson
