import Verif.Proofs.UnResolve

/-! # A value is encoded as one tree -/

namespace Verif.Unjson
open Verif Verif.Float Verif.Spec Verif.Njson

theorem encodes_one {U : Univ} {o : Options} {h : Hint} {t : Ty} {v : GV} {j : JVal} (hw : Encodes U o h t v j) :
    ∀ {j'}, Encodes U o h t v j' → j = j' := by
  refine Encodes.rec
    (motive_1 := fun o h t v j _ => ∀ {j'}, Encodes U o h t v j' → j = j')
    (motive_2 := fun o h t xs js _ => ∀ {js'}, EncElems U o h t xs js' → js = js')
    (motive_3 := fun o t es ms _ => ∀ {ms'}, EncEntries U o t es ms' → ms = ms')
    (motive_4 := fun o v cs ms _ => ∀ {ms'}, EncFields U o v cs ms' → ms = ms')
    ?_ ?_ ?_ ?_ ?_ ?_ ?_ ?_ ?_ ?_ ?_ ?_ ?_ ?_ ?_ ?_ ?_ ?_ ?_ ?_ ?_ ?_ ?_ ?_ ?_ ?_ hw
  case refine_1 => intro o h t b hb j' h'; cases h'; rfl
  case refine_2 => intro o h t k i hb j' h'; cases h'; rfl
  case refine_3 => intro o h t k i hb j' h'; cases h'; rfl
  case refine_4 => intro o h t k neg m e hb j' h'; cases h'; rfl
  case refine_5 => intro o h t k neg hb ho j' h'; cases h'; rfl
  case refine_6 => intro o h t k hb ho j' h'; cases h'; rfl
  case refine_7 => intro o h t s hb j' h'; cases h'; rfl
  case refine_8 => intro o h t e hb j' h'; cases h'; rfl
  case refine_9 => intro o h t e v j hb _ ih j' h'; cases h' with | ptr hb' h' => rw [hb] at hb'; cases hb'; exact ih h'
  case refine_10 => intro o h t e hb j' h'; cases h'; rfl
  case refine_11 => intro o h t e arr len js hb _ ih j' h'; cases h' with | slice hb' h' => rw [hb] at hb'; cases hb'; rw [ih h']
  case refine_12 => intro o h t n e xs js hb _ ih j' h'; cases h' with | array hb' h' => rw [hb] at hb'; cases hb'; rw [ih h']
  case refine_13 => intro o h t k e hb j' h'; cases h'; rfl
  case refine_14 => intro o h t k e es ms hb _ ih j' h'; cases h' with | map hb' h' => rw [hb] at hb'; cases hb'; rw [ih h']
  case refine_15 => intro o h t i hb j' h'; cases h'; rfl
  case refine_16 =>
    intro o h t i t' v j hb hp _ ih j' h'
    cases h' with
    | iface _ _ h' => exact ih h'
    | ifacePtr _ hp' => exact absurd hp' (hp _)
  case refine_17 =>
    intro o h t i t' e v j hb hp _ ih j' h'
    cases h' with
    | iface _ hp' => exact absurd hp (hp' _)
    | ifacePtr _ hp' h' => rw [hp] at hp'; cases hp'; exact ih h'
  case refine_18 =>
    intro o h t j cs fs ms hb hc _ ih j' h'
    cases h' with
    | struct hb' hc' h' => rw [hb] at hb'; cases hb'; cases cands_unique hc hc'; rw [ih h']
  case refine_19 => intro o h t js' h'; cases h'; rfl
  case refine_20 => intro o h t x xs j js _ _ ih ih' js' h'; cases h' with | cons h1 h2 => rw [ih h1, ih' h2]
  case refine_21 => intro o t ms' h'; cases h'; rfl
  case refine_22 => intro o t k x es j ms _ _ ih ih' ms' h'; cases h' with | cons h1 h2 => rw [ih h1, ih' h2]
  case refine_23 => intro o v ms' h'; cases h'; rfl
  case refine_24 =>
    intro o v c cs ms h1 _ ih ms' h'
    cases h' with
    | absent _ h' => exact ih h'
    | omitted hx => rw [h1] at hx; cases hx
    | present hx => rw [h1] at hx; cases hx
  case refine_25 =>
    intro o v c cs ms x h1 ho _ ih ms' h'
    cases h' with
    | absent hx => rw [h1] at hx; cases hx
    | omitted _ _ h' => exact ih h'
    | present hx ho' => rw [h1] at hx; cases hx; cases omits_unique ho ho'
  case refine_26 =>
    intro o v c cs ms x j h1 ho _ _ ih ih' ms' h'
    cases h' with
    | absent hx => rw [h1] at hx; cases hx
    | omitted hx ho' => rw [h1] at hx; cases hx; cases omits_unique ho ho'
    | present hx _ h2 h3 => rw [h1] at hx; cases hx; rw [ih h2, ih' h3]

end Verif.Unjson
