import Verif.Proofs.Flags

/-!
# C102: the command line of njson
-/

namespace Verif.Props
open Verif Verif.GenFile

/-- **C102**: a command line is accepted exactly when it consists of flags and arguments, and every flag then has the last value that is given for
it, or its default. -/
theorem C102_flags (words : List Bytes) (f : Flags) (args : List Bytes) : parseFlags {} words = .ok f args ↔
    ∃ ws tail sets, words = ws ++ tail ∧ AllFlags ws sets ∧ Arguments tail args ∧ f = flagsOf sets := by
  have h0 : ({} : Flags) = flagsOf [] := rfl
  rw [h0]
  constructor
  · intro h
    simpa using parse_inv words.length words [] f args (Nat.le_refl _) h
  · rintro ⟨ws, tail, sets, rfl, h1, h2, rfl⟩
    rw [parse_all h1, parse_args h2]
    simp

/-- A command line that is not accepted changes no file, and there is no output. -/
theorem C102_usage {W : World} {fuel : Nat} {dir : List SrcFile} {words : List Bytes}
    (h : ¬ ∃ ws tail sets args, words = ws ++ tail ∧ AllFlags ws sets ∧ Arguments tail args) : command W fuel dir words = (none, dir) := by
  unfold command
  split
  · rename_i f args hp
    obtain ⟨ws, tail, sets, h1, h2, h3, -⟩ := (C102_flags words f args).1 hp
    exact absurd ⟨ws, tail, sets, args, h1, h2, h3⟩ h
  · rfl

/-- The command does what `main` does for these flags and arguments. -/
theorem C102_runs {W : World} {fuel : Nat} {dir : List SrcFile} {ws tail : List Bytes} {sets : List (Bytes × Bytes)} {args : List Bytes}
    (h1 : AllFlags ws sets) (h2 : Arguments tail args) :
    command W fuel dir (ws ++ tail) = (some (main W fuel dir (flagsOf sets) args).1, (main W fuel dir (flagsOf sets) args).2) := by
  unfold command
  rw [(C102_flags (ws ++ tail) (flagsOf sets) args).2 ⟨ws, tail, sets, rfl, h1, h2, rfl⟩]

/-- Flags that follow the package are not flags: without flags before it no file is written, with or without `-w` after it. -/
theorem C102_late (W : World) (fuel : Nat) (dir : List SrcFile) (pkg : Bytes) (words : List Bytes) (h : pkg.head? ≠ some 45) :
    (command W fuel dir (pkg :: words)).2 = dir ∧ parseFlags {} (pkg :: words) = .ok {} (pkg :: words) := by
  have hp : parseFlags {} (pkg :: words) = .ok {} (pkg :: words) := parse_args (.word (.inr h)) {}
  refine ⟨?_, hp⟩
  unfold command
  rw [hp]
  dsimp only
  unfold main
  split
  · unfold output
    simp only [Bool.false_eq_true, if_false, false_and]
    split <;> rfl
  · rfl
  · rfl

theorem lastValue_perm {sets sets' : List (Bytes × Bytes)} (hp : sets.Perm sets') (hn : (sets.map (·.1)).Nodup) (name : Bytes) :
    lastValue sets name = lastValue sets' name := by
  have key : ∀ {l : List (Bytes × Bytes)}, (l.map (·.1)).Nodup → ∀ v, lastValue l name = some v ↔ (name, v) ∈ l := by
    intro l hl
    induction l with
    | nil => intro v; simp [lastValue]
    | cons a l ih =>
      intro v
      rw [List.map_cons, List.nodup_cons] at hl
      have ih := ih hl.2
      by_cases ha : a.1 = name
      · have hnone : l.filter (·.1 = name) = [] := by
          rw [List.filter_eq_nil_iff]
          intro x hx
          simp only [decide_eq_true_eq]
          intro e
          exact hl.1 (List.mem_map.2 ⟨x, hx, by rw [e, ha]⟩)
        have hnot : (name, v) ∉ l := fun hm => hl.1 (List.mem_map.2 ⟨_, hm, ha.symm⟩)
        unfold lastValue
        rw [List.filter_cons_of_pos (by simpa using ha), hnone]
        simp only [List.getLast?_singleton, Option.map_some, Option.some.injEq, List.mem_cons, hnot, or_false]
        constructor
        · rintro rfl; rw [← ha]
        · intro e; rw [← e]
      · have : lastValue (a :: l) name = lastValue l name := by
          unfold lastValue
          rw [List.filter_cons_of_neg (by simpa using ha)]
        rw [this, ih, List.mem_cons]
        constructor
        · exact .inr
        · rintro (e | e)
          · exact absurd (by rw [← e]) ha
          · exact e
  have hn' : (sets'.map (·.1)).Nodup := (hp.map _).nodup_iff.1 hn
  apply Option.ext
  intro v
  rw [key hn, key hn', hp.mem_iff]

/-- The order of the flags does not matter if every flag is given once. -/
theorem C102_order {sets sets' : List (Bytes × Bytes)} (hp : sets.Perm sets') (hn : (sets.map (·.1)).Nodup) : flagsOf sets = flagsOf sets' := by
  unfold flagsOf isSet
  simp only [lastValue_perm hp hn]

-- `njson -w --append=false -p dir -k=x -append pkg T`
example : AllFlags [b!"-w", b!"--append=false", b!"-p", b!"dir", b!"-k=x", b!"-append"]
    [(b!"w", b!"true"), (b!"append", b!"false"), (b!"p", b!"dir"), (b!"k", b!"x"), (b!"append", b!"true")] :=
  .cons (ws := [b!"-w"]) (.bare (dash := b!"-") (.inl rfl) (by decide))
  (.cons (ws := [b!"--append=false"]) (.eqBool (dash := b!"--") (name := b!"append") (.inr rfl) (by decide) (.inr (by decide)))
  (.cons (ws := [b!"-p", b!"dir"]) (.next (dash := b!"-") (.inl rfl) (by decide))
  (.cons (ws := [b!"-k=x"]) (.eqText (dash := b!"-") (name := b!"k") (.inl rfl) (by decide))
  (.cons (ws := [b!"-append"]) (.bare (dash := b!"-") (.inl rfl) (by decide)) .nil))))
example : Arguments [b!"pkg", b!"T"] [b!"pkg", b!"T"] := .word (.inr (by decide))
example : flagsOf [(b!"w", b!"true"), (b!"append", b!"false"), (b!"p", b!"dir"), (b!"k", b!"x"), (b!"append", b!"true")] =
    { path := b!"dir", tagKey := b!"x", append := true, write := true } := by rfl
-- not accepted: an unknown flag, a flag without its text
example : parseFlags {} [b!"-tests"] = .bad := by decide +kernel
example : parseFlags {} [b!"-w", b!"-p"] = .bad := by decide +kernel
example : parseFlags {} [b!"-w", b!"--help"] = .help := by decide +kernel

end Verif.Props
