import Verif.Proofs.UnDecode
import Verif.Props.NumInt

/-! # Exactly the nodes on which the numeric accessors succeed (C64) -/

namespace Verif.Props
open Verif Verif.Float Verif.Spec Verif.NumJson Verif.Njson Verif.Unjson

/-- Number nodes and string nodes with this text. -/
def NumOrStr (t : JVal) (raw : Bytes) : Prop := t = .num raw ∨ t = .str raw

theorem jraw_nan {t : JVal} (h : ∀ raw, ¬ NumOrStr t raw) : parseFloat (jraw t) = .nan := by
  cases t with
  | num raw => exact absurd (.inl rfl) (h raw)
  | str raw => exact absurd (.inr rfl) (h raw)
  | bool b => cases b <;> decide +kernel
  | null => decide +kernel
  | arr _ => simp only [jraw]; decide +kernel
  | obj _ => simp only [jraw]; decide +kernel

/-- **C64**, exactly: on a tree, ToFloat succeeds for the numbers and the strings that ParseFloat reads (C40_exact says which), and ToInt and
ToUint for those that it reads as an integer in their range; strings are treated like numbers. -/
theorem C64_exact (h : Heap) (n : Node) (t : JVal) (ht : Tree h n t) :
    (∀ f, toFloat h n = (f, true) ↔ f ≠ .nan ∧ ∃ raw, NumOrStr t raw ∧ parseFloat raw = f) ∧
    (∀ j, toInt h n = (j, true) ↔ ∃ raw, NumOrStr t raw ∧ FloatInt (parseFloat raw) j ∧ -2 ^ 63 ≤ j ∧ j < 2 ^ 63) ∧
    (∀ j, toUint h n = (j, true) ↔ ∃ raw, NumOrStr t raw ∧ FloatInt (parseFloat raw) j ∧ 0 ≤ j ∧ j < 2 ^ 64) := by
  obtain ⟨vs, d, hg, h2, h3, h4⟩ := tree_shows ht
  have hraw : d.raw = jraw t := h3
  have e1 : toFloat h n = (parseFloat (jraw t), decide (parseFloat (jraw t) ≠ .nan)) := by unfold toFloat; rw [hg, ← hraw]
  have e2 : toInt h n = parseInt (jraw t) := by unfold toInt; rw [hg, ← hraw]
  have e3 : toUint h n = parseUint (jraw t) := by unfold toUint; rw [hg, ← hraw]
  have hr : ∀ {raw}, NumOrStr t raw → jraw t = raw := by rintro raw (rfl | rfl) <;> rfl
  have hex : (∃ raw, NumOrStr t raw) ∨ parseFloat (jraw t) = .nan := by
    by_cases hc : ∃ raw, NumOrStr t raw
    · exact .inl hc
    · exact .inr (jraw_nan fun raw h => hc ⟨raw, h⟩)
  have hfn : ∀ j, ¬ FloatInt .nan j := by rintro j ⟨_, _, _, h, _⟩; cases h
  rw [e1, e2, e3]
  refine ⟨fun f => ?_, fun j => ?_, fun j => ?_⟩
  · rw [Prod.mk.injEq]
    constructor
    · rintro ⟨rfl, h2⟩
      have h2 := of_decide_eq_true h2
      refine ⟨h2, ?_⟩
      rcases hex with ⟨raw, h⟩ | h
      · exact ⟨raw, h, by rw [hr h]⟩
      · exact absurd h h2
    · rintro ⟨h1, raw, h, rfl⟩
      rw [hr h]
      exact ⟨rfl, decide_eq_true h1⟩
  · rw [(C42_text _).1]
    constructor
    · rintro ⟨h1, h2⟩
      rcases hex with ⟨raw, h⟩ | h
      · exact ⟨raw, h, by rw [← hr h]; exact h1, h2⟩
      · rw [h] at h1; exact absurd h1 (hfn j)
    · rintro ⟨raw, h, h1, h2⟩
      rw [hr h]; exact ⟨h1, h2⟩
  · rw [(C42_text _).2]
    constructor
    · rintro ⟨h1, h2⟩
      rcases hex with ⟨raw, h⟩ | h
      · exact ⟨raw, h, by rw [← hr h]; exact h1, h2⟩
      · rw [h] at h1; exact absurd h1 (hfn j)
    · rintro ⟨raw, h, h1, h2⟩
      rw [hr h]; exact ⟨h1, h2⟩

/-- A string that is a numeral, and one that is not. -/
example : Tree (fun _ => (Doc.empty.text b!"12").1) ⟨0, 0, some 0⟩ (.str b!"12") ∧ parseFloat b!"12" ≠ .nan ∧ parseFloat b!"1x" = .nan :=
  ⟨⟨0, by decide +kernel, by simp only [Reps]; decide +kernel⟩, by decide +kernel, by decide +kernel⟩

end Verif.Props
