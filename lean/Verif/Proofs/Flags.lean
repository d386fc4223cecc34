import Verif.Model.Flags
import Verif.Spec.Flags

/-! # The command line -/

namespace Verif.GenFile
open Verif

theorem takeWhile_all {r : Bytes} {p : UInt8 → Bool} (h : ∀ x ∈ r, p x = true) : r.takeWhile p = r := by
  simpa using List.takeWhile_append_of_pos (l₂ := []) h

theorem dropWhile_eq {r : Bytes} (h : 61 ∈ r) : ∃ t, r.dropWhile (· ≠ 61) = 61 :: t := by
  induction r with
  | nil => simp at h
  | cons x r ih =>
    by_cases hx : x = 61
    · subst hx; exact ⟨r, by simp⟩
    · obtain ⟨t, ht⟩ := ih (by simpa [Ne.symm hx] using h)
      exact ⟨t, by rw [List.dropWhile_cons_of_pos (by simpa using hx), ht]⟩

theorem cutEq_some {name v : Bytes} (h0 : name ≠ []) (h : 61 ∉ name) : cutEq (name ++ b!"=" ++ v) = (name, some v) := by
  cases name with
  | nil => exact absurd rfl h0
  | cons c r =>
    have hr : ∀ x ∈ r, (decide (x ≠ 61)) = true := by
      intro x hx
      simp only [ne_eq, decide_eq_true_eq]
      rintro rfl
      exact h (List.mem_cons_of_mem _ hx)
    simp only [List.cons_append, cutEq, List.append_assoc]
    rw [List.takeWhile_append_of_pos hr, List.dropWhile_append_of_pos hr, if_pos (by simp)]
    simp

theorem cutEq_none {name : Bytes} (h : 61 ∉ name) : cutEq name = (name, none) := by
  cases name with
  | nil => rfl
  | cons c r =>
    have hr : 61 ∉ r := fun hx => h (List.mem_cons_of_mem _ hx)
    simp only [cutEq, if_neg hr]
    rw [takeWhile_all]
    intro x hx
    simp only [ne_eq, decide_eq_true_eq]
    rintro rfl
    exact hr hx

theorem cutEq_inv (c : UInt8) (r : Bytes) :
    (∃ name v, cutEq (c :: r) = (name, some v) ∧ c :: r = name ++ b!"=" ++ v) ∨ (cutEq (c :: r) = (c :: r, none)) := by
  by_cases h : 61 ∈ r
  · left
    refine ⟨c :: r.takeWhile (· ≠ 61), (r.dropWhile (· ≠ 61)).drop 1, by simp [cutEq, h], ?_⟩
    obtain ⟨t, ht⟩ := dropWhile_eq h
    have := List.takeWhile_append_dropWhile (p := fun x : UInt8 => decide (x ≠ 61)) (l := r)
    rw [ht] at this
    rw [ht]
    conv => lhs; rw [← this]
    simp
  · right
    have hr : ∀ x ∈ r, (decide (x ≠ 61)) = true := by
      intro x hx
      simp only [ne_eq, decide_eq_true_eq]
      rintro rfl
      exact h hx
    simp only [cutEq, if_neg h, takeWhile_all hr]

/-- what `parseFlags` does with a flag -/
def afterName (f : Flags) (name : Bytes) (value : Option Bytes) (args : List Bytes) : CmdLine :=
  match f.setter name with
  | none => if name = b!"help" ∨ name = b!"h" then .help else .bad
  | some (.bool set) =>
    match parseBool (value.getD b!"true") with
    | none => .bad
    | some b => parseFlags (set b) args
  | some (.text set) =>
    match value with
    | some v => parseFlags (set v) args
    | none =>
      match args with
      | [] => .bad
      | v :: args => parseFlags (set v) args

theorem parse_word {dash : Bytes} (hd : dash = b!"-" ∨ dash = b!"--") {c : UInt8} (r : Bytes) (h1 : c ≠ 45) (h2 : c ≠ 61) (f : Flags) (args : List Bytes) :
    parseFlags f ((dash ++ c :: r) :: args) = afterName f (cutEq (c :: r)).1 (cutEq (c :: r)).2 args := by
  unfold afterName
  rcases hd with rfl | rfl
  · rw [List.cons_append, List.nil_append, parseFlags.eq_def]
    simp only [h1, false_and, if_false, List.head?_cons, Option.some.injEq, h2, or_self]
    rfl
  · rw [List.cons_append, List.cons_append, List.nil_append, parseFlags.eq_def]
    simp only [reduceCtorEq, and_false, if_false, List.head?_cons, Option.some.injEq, h1, h2, or_self, if_true]
    rfl

theorem flagName {name : Bytes} (h : name ∈ boolFlags ∨ name ∈ textFlags) : ∃ c r, name = c :: r ∧ c ≠ 45 ∧ c ≠ 61 ∧ 61 ∉ name := by
  have : ∀ n ∈ boolFlags ++ textFlags, n.head? ≠ none ∧ n.head? ≠ some 45 ∧ n.head? ≠ some 61 ∧ 61 ∉ n := by decide
  obtain ⟨h0, h1, h2, h3⟩ := this name (by simpa using h)
  cases name with
  | nil => simp at h0
  | cons c r => exact ⟨c, r, rfl, by simpa using h1, by simpa using h2, h3⟩

theorem setter_bool {f : Flags} {name : Bytes} {set : Bool → Flags} (h : f.setter name = some (.bool set)) : name ∈ boolFlags := by
  refine Classical.byContradiction fun hn => ?_
  simp only [boolFlags, List.mem_cons, List.not_mem_nil, or_false, not_or] at hn
  obtain ⟨h1, h2, h3, h4, h5, h6, h7⟩ := hn
  unfold Flags.setter at h
  rw [if_neg h1, if_neg h2, if_neg h3, if_neg h4, if_neg h5, if_neg h6, if_neg h7] at h
  repeat' split at h
  all_goals cases h

theorem setter_text {f : Flags} {name : Bytes} {set : Bytes → Flags} (h : f.setter name = some (.text set)) : name ∈ textFlags := by
  refine Classical.byContradiction fun hn => ?_
  simp only [textFlags, List.mem_cons, List.not_mem_nil, or_false, not_or] at hn
  obtain ⟨h1, h2, h3, h4⟩ := hn
  unfold Flags.setter at h
  rw [if_neg h1, if_neg h2, if_neg h3, if_neg h4] at h
  repeat' split at h
  all_goals cases h

theorem lastValue_snoc (sets : List (Bytes × Bytes)) (n v m : Bytes) : lastValue (sets ++ [(n, v)]) m = if n = m then some v else lastValue sets m := by
  unfold lastValue
  rw [List.filter_append]
  by_cases h : n = m <;> simp [h]

theorem isSet_snoc (sets : List (Bytes × Bytes)) (n v m : Bytes) : isSet (sets ++ [(n, v)]) m = if n = m then decide (v ∈ trueWords) else isSet sets m := by
  unfold isSet
  rw [lastValue_snoc]
  split <;> rfl

theorem set_bool {sets : List (Bytes × Bytes)} {name : Bytes} (h : name ∈ boolFlags) (v : Bytes) :
    ∃ set, (flagsOf sets).setter name = some (.bool set) ∧ flagsOf (sets ++ [(name, v)]) = set (decide (v ∈ trueWords)) := by
  simp only [boolFlags, List.mem_cons, List.not_mem_nil, or_false] at h
  rcases h with rfl | rfl | rfl | rfl | rfl | rfl | rfl <;>
    exact ⟨_, rfl, by unfold flagsOf; simp only [lastValue_snoc, isSet_snoc]; rfl⟩

theorem set_text {sets : List (Bytes × Bytes)} {name : Bytes} (h : name ∈ textFlags) (v : Bytes) :
    ∃ set, (flagsOf sets).setter name = some (.text set) ∧ flagsOf (sets ++ [(name, v)]) = set v := by
  simp only [textFlags, List.mem_cons, List.not_mem_nil, or_false] at h
  rcases h with rfl | rfl | rfl | rfl <;>
    exact ⟨_, rfl, by unfold flagsOf; simp only [lastValue_snoc, isSet_snoc]; rfl⟩

theorem parseBool_iff (v : Bytes) (b : Bool) : parseBool v = some b ↔ (v ∈ trueWords ∨ v ∈ falseWords) ∧ b = decide (v ∈ trueWords) := by
  have hdis : ∀ x ∈ falseWords, x ∉ trueWords := by decide
  unfold parseBool
  change (if v ∈ trueWords then some true else if v ∈ falseWords then some false else none) = some b ↔ _
  by_cases h1 : v ∈ trueWords
  · simp [h1, eq_comm]
  · by_cases h2 : v ∈ falseWords
    · simp [h1, h2, eq_comm]
    · simp [h1, h2]

theorem parse_step {ws : List Bytes} {name v : Bytes} (h : FlagWords ws name v) (sets : List (Bytes × Bytes)) (rest : List Bytes) :
    parseFlags (flagsOf sets) (ws ++ rest) = parseFlags (flagsOf (sets ++ [(name, v)])) rest := by
  cases h with
  | bare hd hn =>
    obtain ⟨c, r, rfl, h1, h2, h3⟩ := flagName (.inl hn)
    obtain ⟨set, e1, e2⟩ := set_bool (sets := sets) hn b!"true"
    rw [List.singleton_append, parse_word hd r h1 h2, cutEq_none h3]
    simp only [afterName, e1, Option.getD_none]
    rw [(parseBool_iff b!"true" true).2 (by decide), e2]
    rfl
  | @eqBool dash name v hd hn hv =>
    obtain ⟨c, r, rfl, h1, h2, h3⟩ := flagName (.inl hn)
    obtain ⟨set, e1, e2⟩ := set_bool (sets := sets) hn v
    have : dash ++ c :: r ++ b!"=" ++ v = dash ++ c :: (r ++ b!"=" ++ v) := by simp
    rw [List.singleton_append, this, parse_word hd _ h1 h2]
    have hc : cutEq (c :: (r ++ b!"=" ++ v)) = (c :: r, some v) := cutEq_some (name := c :: r) (by simp) h3
    rw [hc]
    simp only [afterName, e1, Option.getD_some]
    rw [(parseBool_iff v _).2 ⟨hv, rfl⟩, e2]
  | @eqText dash name v hd hn =>
    obtain ⟨c, r, rfl, h1, h2, h3⟩ := flagName (.inr hn)
    obtain ⟨set, e1, e2⟩ := set_text (sets := sets) hn v
    have : dash ++ c :: r ++ b!"=" ++ v = dash ++ c :: (r ++ b!"=" ++ v) := by simp
    rw [List.singleton_append, this, parse_word hd _ h1 h2]
    have hc : cutEq (c :: (r ++ b!"=" ++ v)) = (c :: r, some v) := cutEq_some (name := c :: r) (by simp) h3
    rw [hc]
    simp only [afterName, e1]
    rw [e2]
  | @next dash name v hd hn =>
    obtain ⟨c, r, rfl, h1, h2, h3⟩ := flagName (.inr hn)
    obtain ⟨set, e1, e2⟩ := set_text (sets := sets) hn v
    rw [List.cons_append, List.singleton_append, parse_word hd r h1 h2, cutEq_none h3]
    simp only [afterName, e1]
    rw [e2]

theorem parse_args {tail args : List Bytes} (h : Arguments tail args) (f : Flags) : parseFlags f tail = .ok f args := by
  cases h with
  | none => rfl
  | dashes => rw [parseFlags.eq_def]; simp
  | word hw =>
    rename_i w args
    rw [parseFlags.eq_def]
    dsimp only
    split
    · rename_i c r
      rcases hw with hw | hw
      · cases hw
      · simp at hw
    · rfl

theorem parse_all {ws : List Bytes} {sets : List (Bytes × Bytes)} (h : AllFlags ws sets) (s0 : List (Bytes × Bytes)) (tail : List Bytes) :
    parseFlags (flagsOf s0) (ws ++ tail) = parseFlags (flagsOf (s0 ++ sets)) tail := by
  induction h generalizing s0 with
  | nil => simp
  | cons h1 _ ih =>
    rw [List.append_assoc, parse_step h1, ih]
    simp

theorem parse_inv (n : Nat) : ∀ (words : List Bytes) (s0 : List (Bytes × Bytes)) (f : Flags) (args : List Bytes), words.length ≤ n →
    parseFlags (flagsOf s0) words = .ok f args →
    ∃ ws tail sets, words = ws ++ tail ∧ AllFlags ws sets ∧ Arguments tail args ∧ f = flagsOf (s0 ++ sets) := by
  induction n with
  | zero =>
    intro words s0 f args hn h
    cases words with
    | nil =>
      cases h
      exact ⟨[], [], [], rfl, .nil, .none, by simp⟩
    | cons => simp at hn
  | succ n ih =>
    intro words s0 f args hn h
    cases words with
    | nil =>
      cases h
      exact ⟨[], [], [], rfl, .nil, .none, by simp⟩
    | cons s rest =>
      simp only [List.length_cons] at hn
      -- a word of arguments
      have stop : (s = b!"-" ∨ s.head? ≠ some 45) → ∃ ws tail sets, s :: rest = ws ++ tail ∧ AllFlags ws sets ∧ Arguments tail args ∧ f = flagsOf (s0 ++ sets) := by
        intro hs
        have := parse_args (.word hs) (flagsOf s0) (args := s :: rest)
        rw [this] at h
        cases h
        exact ⟨[], s :: rest, [], rfl, .nil, .word hs, by simp⟩
      -- a flag
      have flag : ∀ (dash : Bytes) (c : UInt8) (r : Bytes), (dash = b!"-" ∨ dash = b!"--") → s = dash ++ c :: r → c ≠ 45 → c ≠ 61 →
          ∃ ws tail sets, s :: rest = ws ++ tail ∧ AllFlags ws sets ∧ Arguments tail args ∧ f = flagsOf (s0 ++ sets) := by
        intro dash c r hd hs h1 h2
        have cont : ∀ (ws0 : List Bytes) (rest' : List Bytes) (name v : Bytes), s :: rest = ws0 ++ rest' → rest'.length ≤ n → FlagWords ws0 name v →
            ∃ ws tail sets, s :: rest = ws ++ tail ∧ AllFlags ws sets ∧ Arguments tail args ∧ f = flagsOf (s0 ++ sets) := by
          intro ws0 rest' name v e hl hfw
          rw [e, parse_step hfw] at h
          obtain ⟨ws, tail, sets, rfl, h3, h4, h5⟩ := ih _ _ _ _ hl h
          exact ⟨ws0 ++ ws, tail, (name, v) :: sets, by rw [e]; simp, .cons hfw h3, h4, by rw [h5]; simp⟩
        have h' := h
        rw [hs, parse_word hd r h1 h2] at h'
        unfold afterName at h'
        rcases cutEq_inv c r with ⟨name, v, e1, e2⟩ | e1
        · rw [e1] at h'
          dsimp only at h'
          have hs' : s = dash ++ name ++ b!"=" ++ v := by rw [hs, e2]; simp
          cases hst : (flagsOf s0).setter name with
          | none => rw [hst] at h'; dsimp only at h'; split at h' <;> cases h'
          | some st =>
            rw [hst] at h'
            cases st with
            | bool set =>
              dsimp only [Option.getD_some] at h'
              cases hb : parseBool v with
              | none => rw [hb] at h'; cases h'
              | some b =>
                exact cont [s] rest name v rfl (by omega) (hs' ▸ .eqBool hd (setter_bool hst) ((parseBool_iff v b).1 hb).1)
            | text set => exact cont [s] rest name v rfl (by omega) (hs' ▸ .eqText hd (setter_text hst))
        · rw [e1] at h'
          dsimp only at h'
          cases hst : (flagsOf s0).setter (c :: r) with
          | none => rw [hst] at h'; dsimp only at h'; split at h' <;> cases h'
          | some st =>
            rw [hst] at h'
            cases st with
            | bool set => exact cont [s] rest (c :: r) b!"true" rfl (by omega) (hs ▸ .bare hd (setter_bool hst))
            | text set =>
              dsimp only at h'
              cases rest with
              | nil => cases h'
              | cons v rest =>
                exact cont [s, v] rest (c :: r) v rfl (by simp at hn; omega) (hs ▸ .next hd (setter_text hst))
      cases s with
      | nil => exact stop (.inr (by simp))
      | cons a s =>
        by_cases ha : a = 45
        · subst ha
          cases s with
          | nil => exact stop (.inl rfl)
          | cons c r =>
            by_cases hc : c = 45
            · subst hc
              cases r with
              | nil =>
                have := parse_args (.dashes (args := rest)) (flagsOf s0)
                rw [this] at h
                cases h
                exact ⟨[], _, [], rfl, .nil, .dashes, by simp⟩
              | cons c r =>
                by_cases h1 : c = 45 ∨ c = 61
                · rw [parseFlags.eq_def] at h
                  simp [h1] at h
                · rw [not_or] at h1
                  exact flag b!"--" c r (.inr rfl) rfl h1.1 h1.2
            · by_cases h1 : c = 61
              · rw [parseFlags.eq_def] at h
                simp [h1] at h
              · exact flag b!"-" c r (.inl rfl) rfl hc h1
        · exact stop (.inr (by simpa using ha))

end Verif.GenFile
