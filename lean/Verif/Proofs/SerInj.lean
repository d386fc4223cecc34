import Verif.Spec.SerInj
import Verif.Proofs.Serial

/-! # The text of a tree determines the tree (lemmas for C144) -/

namespace Verif.Njson
open Verif Verif.Spec

theorem esc_split {s : Bytes} (h : EscBody s) : ∀ {s' : Bytes} (_ : EscBody s') {r r' : Bytes}, s ++ 34 :: r = s' ++ 34 :: r' → s = s' ∧ r = r' := by
  induction h with
  | nil =>
    intro s' h' r r' e
    cases h' with
    | nil => simpa using e
    | plain h1 h2 _ => simp at e; exact absurd e.1.symm h1
    | esc c _ => simp at e
  | @plain c s h1 h2 hs ih =>
    intro s' h' r r' e
    cases h' with
    | nil => simp at e; exact absurd e.1 h1
    | plain h3 h4 h5 =>
      simp only [List.cons_append, List.cons.injEq] at e
      obtain ⟨e1, e2⟩ := ih h5 e.2
      exact ⟨by rw [e.1, e1], e2⟩
    | esc c' h5 => simp at e; exact absurd e.1 h2
  | @esc c s hs ih =>
    intro s' h' r r' e
    cases h' with
    | nil => simp at e
    | plain h3 h4 h5 => simp at e; exact absurd e.1.symm h4
    | esc c' h5 =>
      simp only [List.cons_append, List.cons.injEq] at e
      obtain ⟨e1, e2⟩ := ih h5 e.2.2
      exact ⟨by rw [e.2.1, e1], e2⟩

/-- a number ends here -/
def EndsHere (r : Bytes) : Prop := r = [] ∨ ∃ b q, r = b :: q ∧ NumberEnd b

theorem num_split : ∀ {s s' r r' : Bytes}, (∀ b ∈ s, ¬ NumberEnd b) → (∀ b ∈ s', ¬ NumberEnd b) → EndsHere r → EndsHere r' → s ++ r = s' ++ r' → s = s' ∧ r = r'
  | [], [], _, _, _, _, _, _, e => ⟨rfl, by simpa using e⟩
  | [], c :: s', r, r', _, h', hr, _, e => by
    rcases hr with rfl | ⟨b, q, rfl, hb⟩
    · simp at e
    · simp at e; exact absurd (e.1 ▸ hb) (h' c (by simp))
  | c :: s, [], r, r', h, _, _, hr', e => by
    rcases hr' with rfl | ⟨b, q, rfl, hb⟩
    · simp at e
    · simp at e; exact absurd (e.1 ▸ hb) (h c (by simp))
  | c :: s, c' :: s', r, r', h, h', hr, hr', e => by
    simp only [List.cons_append, List.cons.injEq] at e
    obtain ⟨e1, e2⟩ := num_split (fun b hb => h b (by simp [hb])) (fun b hb => h' b (by simp [hb])) hr hr' e.2
    exact ⟨by rw [e.1, e1], e2⟩

/-- the kind of value that a byte begins -/
def firstKind (c : UInt8) : Nat :=
  if c = 110 then 1 else if c = 116 then 2 else if c = 102 then 3 else if c = 34 then 4 else if c = 91 then 5 else if c = 123 then 6
  else if (48 ≤ c.toNat ∧ c.toNat ≤ 57) ∨ c = 45 then 7 else 0

def treeKind : JVal → Nat
  | .null => 1
  | .bool true => 2
  | .bool false => 3
  | .str _ => 4
  | .arr _ => 5
  | .obj _ => 6
  | .num _ => 7

theorem firstKind_num {c : UInt8} (h : IsDigitByte c ∨ c = 45) : firstKind c = 7 := by
  revert h
  unfold IsDigitByte
  revert c
  apply forall_byte
  decide +kernel

theorem ser_first {t : JVal} (h : Protected t) : ∃ c q, t.ser = c :: q ∧ firstKind c = treeKind t := by
  cases t with
  | null => exact ⟨110, _, rfl, by decide⟩
  | bool b => cases b <;> exact ⟨_, _, rfl, by decide⟩
  | str s => exact ⟨34, _, rfl, by simp only [treeKind]; decide⟩
  | arr xs => exact ⟨91, _, rfl, by simp only [treeKind]; decide⟩
  | obj ms => exact ⟨123, _, rfl, by simp only [treeKind]; decide⟩
  | num raw =>
    unfold Protected AllRaw at h
    obtain ⟨⟨c, r, rfl, hc⟩, _⟩ := h
    exact ⟨c, r, rfl, firstKind_num hc⟩

theorem ser_kind {t t' : JVal} (h : Protected t) (h' : Protected t') {r r' : Bytes} (e : t.ser ++ r = t'.ser ++ r') : treeKind t = treeKind t' := by
  obtain ⟨c, q, e1, e2⟩ := ser_first h
  obtain ⟨c', q', e3, e4⟩ := ser_first h'
  rw [e1, e3] at e
  simp at e
  rw [← e2, ← e4, e.1]

theorem ser_not_close {t : JVal} (h : Protected t) {r : Bytes} {c : UInt8} {q : Bytes} (hc : firstKind c = 0) : t.ser ++ r ≠ c :: q := by
  intro e
  obtain ⟨d, s, e1, e2⟩ := ser_first h
  rw [e1] at e
  simp at e
  rw [← e.1, e2] at hc
  cases t with
  | bool b => cases b <;> simp [treeKind] at hc
  | _ => simp [treeKind] at hc

/-- what follows an element of an array -/
def restElems (r : Bytes) : List JVal → Bytes
  | [] => 93 :: r
  | x :: xs => 44 :: (serElems (x :: xs) ++ 93 :: r)

theorem serElems_rest (x : JVal) (xs : List JVal) (r : Bytes) : serElems (x :: xs) ++ 93 :: r = x.ser ++ restElems r xs := by
  cases xs with
  | nil => simp [serElems, restElems]
  | cons y ys => rw [serElems]; simp [restElems]; simp

/-- what follows a member of an object -/
def restMembers (r : Bytes) : List (Bytes × JVal) → Bytes
  | [] => 125 :: r
  | m :: ms => 44 :: (serMembers (m :: ms) ++ 125 :: r)

theorem serMembers_rest (k : Bytes) (x : JVal) (ms : List (Bytes × JVal)) (r : Bytes) :
    serMembers ((k, x) :: ms) ++ 125 :: r = 34 :: (k ++ 34 :: 58 :: (x.ser ++ restMembers r ms)) := by
  cases ms with
  | nil => simp [serMembers, restMembers]
  | cons y ys => rw [serMembers]; simp [restMembers]; simp

theorem restElems_ends (r : Bytes) (xs : List JVal) : EndsHere (restElems r xs) := by
  cases xs <;> exact .inr ⟨_, _, rfl, by unfold NumberEnd; decide⟩

theorem restMembers_ends (r : Bytes) (ms : List (Bytes × JVal)) : EndsHere (restMembers r ms) := by
  cases ms <;> exact .inr ⟨_, _, rfl, by unfold NumberEnd; decide⟩

theorem ser_split_all :
    (∀ t : JVal, Protected t → ∀ (t' : JVal) (r r' : Bytes), Protected t' → EndsHere r → EndsHere r' → t.ser ++ r = t'.ser ++ r' → t = t' ∧ r = r') ∧
    (∀ xs : List JVal, AllRawElems EscBody EscBody LenientNum xs → ∀ (xs' : List JVal) (r r' : Bytes), AllRawElems EscBody EscBody LenientNum xs' →
      serElems xs ++ 93 :: r = serElems xs' ++ 93 :: r' → xs = xs' ∧ r = r') ∧
    (∀ ms : List (Bytes × JVal), AllRawMembers EscBody EscBody LenientNum ms → ∀ (ms' : List (Bytes × JVal)) (r r' : Bytes),
      AllRawMembers EscBody EscBody LenientNum ms' → serMembers ms ++ 125 :: r = serMembers ms' ++ 125 :: r' → ms = ms' ∧ r = r') := by
  apply jval_ind
  · intro h t' r r' h' hr hr' e
    have hk := ser_kind h h' e
    cases t' with
    | null => exact ⟨rfl, by simpa [JVal.ser] using e⟩
    | bool b => cases b <;> simp [treeKind] at hk
    | _ => simp [treeKind] at hk
  · intro b h t' r r' h' hr hr' e
    have hk := ser_kind h h' e
    cases t' with
    | bool b' => cases b <;> cases b' <;> simp [treeKind] at hk <;> exact ⟨rfl, by simpa [JVal.ser] using e⟩
    | _ => cases b <;> simp [treeKind] at hk
  · intro raw h t' r r' h' hr hr' e
    have hk := ser_kind h h' e
    cases t' with
    | num raw' =>
      obtain ⟨e1, e2⟩ := num_split h.2 h'.2 hr hr' (by simpa [JVal.ser] using e)
      exact ⟨by rw [e1], e2⟩
    | bool b => cases b <;> simp [treeKind] at hk
    | _ => simp [treeKind] at hk
  · intro raw h t' r r' h' hr hr' e
    have hk := ser_kind h h' e
    cases t' with
    | str raw' =>
      obtain ⟨e1, e2⟩ := esc_split (s := raw) (by simpa [Protected, AllRaw] using h) (s' := raw') (by simpa [Protected, AllRaw] using h') (r := r) (r' := r')
        (by simpa [JVal.ser] using e)
      exact ⟨by rw [e1], e2⟩
    | bool b => cases b <;> simp [treeKind] at hk
    | _ => simp [treeKind] at hk
  · intro xs ih h t' r r' h' hr hr' e
    have hk := ser_kind h h' e
    cases t' with
    | arr xs' =>
      obtain ⟨e1, e2⟩ := ih (by simpa [Protected, AllRaw] using h) xs' r r' (by simpa [Protected, AllRaw] using h') (by simpa [JVal.ser] using e)
      exact ⟨by rw [e1], e2⟩
    | bool b => cases b <;> simp [treeKind] at hk
    | _ => simp [treeKind] at hk
  · intro ms ih h t' r r' h' hr hr' e
    have hk := ser_kind h h' e
    cases t' with
    | obj ms' =>
      obtain ⟨e1, e2⟩ := ih (by simpa [Protected, AllRaw] using h) ms' r r' (by simpa [Protected, AllRaw] using h') (by simpa [JVal.ser] using e)
      exact ⟨by rw [e1], e2⟩
    | bool b => cases b <;> simp [treeKind] at hk
    | _ => simp [treeKind] at hk
  · intro _ xs' r r' h' e
    cases xs' with
    | nil => exact ⟨rfl, by simpa [serElems] using e⟩
    | cons x xs =>
      rw [serElems_rest] at e
      exact absurd e.symm (ser_not_close h'.1 (by decide))
  · intro x xs ihx ihxs h xs' r r' h' e
    cases xs' with
    | nil =>
      rw [serElems_rest] at e
      exact absurd e (ser_not_close h.1 (by decide))
    | cons x' xs' =>
      rw [serElems_rest, serElems_rest] at e
      obtain ⟨rfl, e2⟩ := ihx h.1 x' _ _ h'.1 (restElems_ends r xs) (restElems_ends r' xs') e
      cases xs with
      | nil =>
        cases xs' with
        | nil => simp only [restElems, List.cons.injEq] at e2; exact ⟨rfl, e2.2⟩
        | cons y ys => simp [restElems] at e2
      | cons z zs =>
        cases xs' with
        | nil => simp [restElems] at e2
        | cons y ys =>
          simp only [restElems, List.cons.injEq, true_and] at e2
          obtain ⟨e3, e4⟩ := ihxs h.2 (y :: ys) r r' h'.2 e2
          exact ⟨by rw [e3], e4⟩
  · intro _ ms' r r' h' e
    cases ms' with
    | nil => exact ⟨rfl, by simpa [serMembers] using e⟩
    | cons m ms => obtain ⟨k, x⟩ := m; rw [serMembers_rest] at e; simp [serMembers] at e
  · intro k x ms ihx ihms h ms' r r' h' e
    cases ms' with
    | nil => rw [serMembers_rest] at e; simp [serMembers] at e
    | cons m' ms' =>
      obtain ⟨k', x'⟩ := m'
      rw [serMembers_rest, serMembers_rest] at e
      simp only [List.cons.injEq, true_and] at e
      obtain ⟨rfl, e1⟩ := esc_split h.1 h'.1 e
      have e := (List.cons.inj e1).2
      obtain ⟨rfl, e2⟩ := ihx h.2.1 x' _ _ h'.2.1 (restMembers_ends r ms) (restMembers_ends r' ms') e
      cases ms with
      | nil =>
        cases ms' with
        | nil => simp only [restMembers, List.cons.injEq] at e2; exact ⟨rfl, e2.2⟩
        | cons y ys => simp [restMembers] at e2
      | cons z zs =>
        cases ms' with
        | nil => simp [restMembers] at e2
        | cons y ys =>
          simp only [restMembers, List.cons.injEq, true_and] at e2
          obtain ⟨e3, e4⟩ := ihms h.2.2 (y :: ys) r r' h'.2.2 e2
          exact ⟨by rw [e3], e4⟩

theorem ser_inj_protected {t t' : JVal} (h : Protected t) (h' : Protected t') (e : t.ser = t'.ser) : t = t' :=
  (ser_split_all.1 t h t' [] [] h' (.inl rfl) (.inl rfl) (by simpa using e)).1

theorem ser_inj_parsed {t t' : JVal} (h : AsParsed t) (h' : AsParsed t') (e : t.ser = t'.ser) : t = t' := by
  have h1 := treeParse_ser h
  rw [e, treeParse_ser h'] at h1
  simp at h1
  exact h1.symm

end Verif.Njson
