import Verif.Proofs.BytemaperFile
import Verif.Props.Bytemaper

/-! # C116: the file that bytemaper prints -/

namespace Verif.Props
open Verif Verif.Spec Verif.Spec.TableFile Verif.Bytemaper

/-- What has to be said of package, prefix and names for the text to be a Go file: they are identifiers. -/
def Named (pkg pre : Bytes) (m : List (Bytes × Bytes)) : Prop := IsIdent pkg ∧ ∀ p ∈ m, IsIdent p.1 ∧ IsIdent (pre ++ p.1)

/-- **C116**: the tables are those of the arguments: of two arguments with one name the last counts; the program fails exactly when one of
the arguments is refused. (C92 says which table a single argument gives.) -/
theorem C116_tables (args : List Bytes) :
    (run args [] = none ↔ ∃ a ∈ args, run [a] [] = none) ∧
    ∀ m, run args [] = some m → (m.map (·.1)).Nodup ∧ ∀ p, p ∈ m ↔
      ∃ x a y, args = x ++ a :: y ∧ run [a] [] = some [p] ∧ ∀ b ∈ y, ∀ t, run [b] [] ≠ some [(p.1, t)] := by
  refine ⟨run_none, fun m h => ⟨run_names (by simp) h, fun p => ?_⟩⟩
  rw [run_mem h p]
  simp

/-- **C116**: the file is one of Go, in one way only: constants with the tables as their values, in the order of the names, and for each a function. -/
theorem C116_reads (hi : Nat → Bool) {pkg pre : Bytes} {args : List Bytes} {m : List (Bytes × Bytes)} (h : run args [] = some m)
    (hn : Named pkg pre m) : ∃ m' : List (Bytes × Bytes), m'.Perm m ∧ (m'.Pairwise fun p q => Below p.1 q.1) ∧ ∀ pkg' cs fs,
      GoFile (main hi pkg pre args).1 pkg' cs fs ↔ pkg' = pkg ∧ cs = (m'.map fun p => (pre ++ p.1, p.2)) ∧
        fs = m'.map fun p => ⟨p.1, b!"Is".isPrefixOf p.1, pre ++ p.1⟩ := by
  have hm : main hi pkg pre args = (fileText hi pkg pre m, true) := by unfold main; rw [h]
  rw [hm]
  have hn' : ∀ p ∈ sortKeys m, IsIdent p.1 ∧ IsIdent (pre ++ p.1) := fun p hp => hn.2 p ((sortKeys_perm m).mem_iff.1 hp)
  have hf : GoFile (fileText hi pkg pre m) pkg (constsOf pre (sortKeys m)) (funcsOf pre (sortKeys m)) :=
    ⟨b!" Code generated by bytemaper; DO NOT EDIT.", _, _, by decide, hn.1, constText_reads hi pre _ (fun p hp => (hn' p hp).2),
      funcText_reads pre _ hn', rfl⟩
  refine ⟨sortKeys m, sortKeys_perm m, sortKeys_sorted (run_names (by simp) h), fun pkg' cs fs => ⟨fun h' => ?_, ?_⟩⟩
  · obtain ⟨rfl, rfl, rfl⟩ := goFile_one h' hf
    exact ⟨rfl, rfl, rfl⟩
  · rintro ⟨rfl, rfl, rfl⟩
    exact hf

/-- **C116**: the functions return the entries of the tables; those whose name begins with `Is` return whether the entry is 1. -/
theorem C116_calls (hi : Nat → Bool) {pkg pre : Bytes} {args : List Bytes} {m : List (Bytes × Bytes)} (h : run args [] = some m)
    (hn : Named pkg pre m) {pkg' : Bytes} {cs : List (Bytes × Bytes)} {fs : List Fn} (hf : GoFile (main hi pkg pre args).1 pkg' cs fs)
    {name t : Bytes} (hp : (name, t) ∈ m) (c : UInt8) (v : Val) :
    Call cs fs name c v ↔ v = if b!"Is".isPrefixOf name then .bool (tableAt t c == 1) else .byte (tableAt t c) := by
  obtain ⟨m', hm', -, hu⟩ := C116_reads hi h hn
  obtain ⟨-, rfl, rfl⟩ := (hu _ _ _).1 hf
  have hnd : (m'.map (·.1)).Nodup := (hm'.map _).nodup_iff.2 (run_names (by simp) h)
  have hmem := hm'.mem_iff.2 hp
  have huniq : ∀ t', (name, t') ∈ m' → t' = t := by
    intro t' ht'
    have := List.inj_on_of_nodup_map hnd ht' hmem rfl
    simpa using this
  have hl : t.length = 256 := run_length h hp
  have hget : t[c.toNat]? = some (tableAt t c) := by
    have := c.toNat_lt
    unfold tableAt
    rw [List.getD_eq_getElem?_getD, List.getElem?_eq_getElem (by omega)]
    rfl
  constructor
  · rintro ⟨g, hg, rfl, t', ht', x, hx, rfl⟩
    obtain ⟨p, hp', rfl⟩ := List.mem_map.1 hg
    obtain ⟨q, hq, e⟩ := List.mem_map.1 ht'
    simp only [Prod.mk.injEq, List.append_cancel_left_eq] at e
    obtain ⟨e1, rfl⟩ := e
    obtain ⟨q1, q2⟩ := q
    simp only at e1 hx
    subst e1
    rw [huniq q2 hq, hget] at hx
    simp only [Option.some.injEq] at hx
    rw [hx]
  · rintro rfl
    refine ⟨⟨name, b!"Is".isPrefixOf name, pre ++ name⟩, List.mem_map.2 ⟨_, hmem, rfl⟩, rfl, t, List.mem_map.2 ⟨_, hmem, rfl⟩, _, hget, rfl⟩

theorem nodup_blank {l : List Bytes} (h : l.Nodup) : (l.filter (· ≠ b!"_")).Nodup := h.sublist List.filter_sublist

/-- **C116**: exactly when the file compiles. -/
theorem C116_compiles_partial (hi : Nat → Bool) {pkg pre : Bytes} {args : List Bytes} {m : List (Bytes × Bytes)} (h : run args [] = some m)
    (hn : Named pkg pre m) {pkg' : Bytes} {cs : List (Bytes × Bytes)} {fs : List Fn} (hf : GoFile (main hi pkg pre args).1 pkg' cs fs) :
    Compiles pkg' cs fs ↔ pkg ≠ b!"_" ∧ ∀ p ∈ m, (∀ q ∈ m, p.1 ≠ pre ++ q.1) ∧ pre ++ p.1 ≠ b!"_" ∧ pre ++ p.1 ≠ b!"c" ∧
      ∀ x ∈ [p.1, pre ++ p.1], x ≠ b!"init" ∧ x ≠ b!"byte" ∧ (pkg = b!"main" → x ≠ b!"main") ∧
        ((∃ q ∈ m, b!"Is".isPrefixOf q.1 = true) → x ≠ b!"bool") := by
  obtain ⟨m', hm', -, hu⟩ := C116_reads hi h hn
  obtain ⟨rfl, rfl, rfl⟩ := (hu _ _ _).1 hf
  have hnd : (m'.map (·.1)).Nodup := (hm'.map _).nodup_iff.2 (run_names (by simp) h)
  simp only [← hm'.mem_iff]
  have hdecl : declared (m'.map fun p => (pre ++ p.1, p.2)) (m'.map fun p => (⟨p.1, b!"Is".isPrefixOf p.1, pre ++ p.1⟩ : Fn)) =
      m'.map (fun p => pre ++ p.1) ++ m'.map (·.1) := by
    unfold declared
    rw [List.map_map, List.map_map]; rfl
  unfold Compiles
  rw [hdecl]
  have hin : ∀ x, x ∉ m'.map (fun p => pre ++ p.1) ++ m'.map (·.1) ↔ ∀ p ∈ m', x ≠ pre ++ p.1 ∧ x ≠ p.1 := by
    intro x
    simp only [List.mem_append, List.mem_map, not_or, not_exists, not_and]
    constructor
    · rintro ⟨h1, h2⟩ p hp
      exact ⟨fun e => h1 p hp e.symm, fun e => h2 p hp e.symm⟩
    · intro h
      exact ⟨fun p hp e => (h p hp).1 e.symm, fun p hp e => (h p hp).2 e.symm⟩
  simp only [hin]
  constructor
  · rintro ⟨h1, h2, h3, h4, h5⟩
    refine ⟨h1, fun p hp => ?_⟩
    have hg := h5 ⟨p.1, b!"Is".isPrefixOf p.1, pre ++ p.1⟩ (List.mem_map.2 ⟨p, hp, rfl⟩)
    simp only at hg
    obtain ⟨g1, g2, g3, g4, -⟩ := hg
    refine ⟨fun q hq e => ?_, g3, g4, fun x hx => ?_⟩
    · rw [List.filter_append, List.nodup_append] at h2
      have hq3 : pre ++ q.1 ≠ b!"_" := (h5 ⟨q.1, b!"Is".isPrefixOf q.1, pre ++ q.1⟩ (List.mem_map.2 ⟨q, hq, rfl⟩)).2.2.1
      refine h2.2.2 (pre ++ q.1) ?_ p.1 ?_ e.symm
      · exact List.mem_filter.2 ⟨List.mem_map.2 ⟨q, hq, rfl⟩, by simpa using hq3⟩
      · exact List.mem_filter.2 ⟨List.mem_map.2 ⟨p, hp, rfl⟩, by rw [e]; simpa using hq3⟩
    · have hb : (∃ q ∈ m', b!"Is".isPrefixOf q.1 = true) → ∀ p ∈ m', b!"bool" ≠ pre ++ p.1 ∧ b!"bool" ≠ p.1 := by
        rintro ⟨q, hq, hq'⟩
        exact (h5 ⟨q.1, b!"Is".isPrefixOf q.1, pre ++ q.1⟩ (List.mem_map.2 ⟨q, hq, rfl⟩)).2.1 hq'
      simp only [List.mem_cons, List.not_mem_nil, or_false] at hx
      rcases hx with rfl | rfl
      · exact ⟨(h3 p hp).2.symm, (g1 p hp).2.symm, fun e => (h4 e p hp).2.symm, fun e => (hb e p hp).2.symm⟩
      · exact ⟨(h3 p hp).1.symm, (g1 p hp).1.symm, fun e => (h4 e p hp).1.symm, fun e => (hb e p hp).1.symm⟩
  · rintro ⟨h1, h2⟩
    have hx : ∀ p ∈ m', ∀ x ∈ [p.1, pre ++ p.1], x ≠ b!"init" ∧ x ≠ b!"byte" ∧ (pkg' = b!"main" → x ≠ b!"main") ∧
        ((∃ q ∈ m', b!"Is".isPrefixOf q.1 = true) → x ≠ b!"bool") := fun p hp => (h2 p hp).2.2.2
    refine ⟨h1, nodup_blank ?_, fun p hp => ⟨(hx p hp _ (by simp)).1.symm, (hx p hp _ (by simp)).1.symm⟩,
      fun e p hp => ⟨((hx p hp _ (by simp)).2.2.1 e).symm, ((hx p hp _ (by simp)).2.2.1 e).symm⟩, ?_⟩
    · rw [List.nodup_append]
      refine ⟨?_, hnd, ?_⟩
      · have : (m'.map fun p => pre ++ p.1) = (m'.map (·.1)).map (pre ++ ·) := by rw [List.map_map]; rfl
        rw [this]
        exact hnd.map (fun a b e => List.append_cancel_left e)
      · intro a ha b hb e
        obtain ⟨q, hq, rfl⟩ := List.mem_map.1 ha
        obtain ⟨p, hp, rfl⟩ := List.mem_map.1 hb
        exact (h2 p hp).1 q hq e.symm
    · intro f hf'
      obtain ⟨p, hp, rfl⟩ := List.mem_map.1 hf'
      refine ⟨fun q hq => ⟨(hx q hq _ (by simp)).2.1.symm, (hx q hq _ (by simp)).2.1.symm⟩,
        fun hb q hq => ⟨((hx q hq _ (by simp)).2.2.2 ⟨p, hp, hb⟩).symm, ((hx q hq _ (by simp)).2.2.2 ⟨p, hp, hb⟩).symm⟩,
        (h2 p hp).2.1, (h2 p hp).2.2.1, ?_⟩
      rw [List.map_map]
      exact List.mem_map.2 ⟨p, hp, rfl⟩

/-- **C116** with the prefix of the flag's default: names that do not begin with it, other than `init`, `byte`, `bool` and `main`, compile. -/
theorem C116_default (hi : Nat → Bool) {pkg : Bytes} {args : List Bytes} {m : List (Bytes × Bytes)} (h : run args [] = some m)
    (hp : IsIdent pkg) (hpk : pkg ≠ b!"_") (hn : ∀ p ∈ m, IsIdent p.1 ∧ ¬ b!"bytemap" <+: p.1 ∧ p.1 ∉ [b!"init", b!"byte", b!"bool", b!"main"]) :
    ∃ cs fs, GoFile (main hi pkg b!"bytemap" args).1 pkg cs fs ∧ Compiles pkg cs fs := by
  have hid : ∀ s, IsIdent s → IsIdent (b!"bytemap" ++ s) := by
    rintro s ⟨_, h2, _⟩
    refine ⟨by rfl, by rw [List.all_append, h2]; decide, fun hk => ?_⟩
    have : ∀ k ∈ keywords, ¬ b!"bytemap".isPrefixOf k = true := by decide
    exact this _ hk (by rw [List.isPrefixOf_iff_prefix]; exact List.prefix_append _ _)
  have hnm : Named pkg b!"bytemap" m := ⟨hp, fun p hp => ⟨(hn p hp).1, hid _ (hn p hp).1⟩⟩
  obtain ⟨m', -, -, hu⟩ := C116_reads hi h hnm
  have hf := (hu pkg _ _).2 ⟨rfl, rfl, rfl⟩
  refine ⟨_, _, hf, (C116_compiles_partial hi h hnm hf).2 ⟨hpk, fun p hp => ?_⟩⟩
  have hp' := hn p hp
  have hpre : ∀ y : Bytes, ¬ b!"bytemap" <+: y → b!"bytemap" ++ p.1 ≠ y := by
    rintro y hy rfl
    exact hy (List.prefix_append _ _)
  refine ⟨fun q hq e => hp'.2.1 (by rw [e]; exact List.prefix_append _ _), hpre _ (by decide), hpre _ (by decide), fun x hx => ?_⟩
  simp only [List.mem_cons, List.not_mem_nil, or_false, not_or] at hp' hx
  rcases hx with rfl | rfl
  · exact ⟨hp'.2.2.1, hp'.2.2.2.1, fun _ => hp'.2.2.2.2.2, fun _ => hp'.2.2.2.2.1⟩
  · exact ⟨hpre _ (by decide), hpre _ (by decide), fun _ => hpre _ (by decide), fun _ => hpre _ (by decide)⟩

/-- **C116** is false of the code for the empty prefix: constant and function have one name, and no such file compiles. -/
theorem C116_false (hi : Nat → Bool) {pkg : Bytes} {args : List Bytes} {m : List (Bytes × Bytes)} (h : run args [] = some m) (hne : args ≠ [])
    (hn : Named pkg [] m) {pkg' : Bytes} {cs : List (Bytes × Bytes)} {fs : List Fn} (hf : GoFile (main hi pkg [] args).1 pkg' cs fs) :
    ¬ Compiles pkg' cs fs := by
  intro hc
  rw [C116_compiles_partial hi h hn hf] at hc
  obtain ⟨a, ha⟩ := List.exists_mem_of_ne_nil args hne
  have hm : m ≠ [] := by
    rintro rfl
    have hl : args = args.dropLast ++ [args.getLast hne] := (List.dropLast_concat_getLast hne).symm
    cases hr : run [args.getLast hne] [] with
    | none => 
      have := run_none (m := []) |>.2 ⟨_, List.getLast_mem hne, hr⟩
      rw [h] at this; cases this
    | some l =>
      have hr' := hr
      rw [run_one] at hr
      cases ht : table (args.getLast hne) with
      | none => rw [ht] at hr; cases hr
      | some p =>
        rw [ht] at hr
        simp only [Option.map_some, Option.some.injEq] at hr
        subst hr
        have := ((C116_tables args).2 [] h).2 (p.1, mask p.2) |>.2 ⟨_, _, [], hl, hr', by simp⟩
        cases this
  obtain ⟨p, hp⟩ := List.exists_mem_of_ne_nil m hm
  exact (hc.2 p hp).1 p hp rfl

/-- The file of the flag -w is lost when an argument is refused: `os.Create` has emptied it. -/
theorem C116_lost (hi : Nat → Bool) (pkg pre : Bytes) {args : List Bytes} (h : ∃ a ∈ args, run [a] [] = none) :
    main hi pkg pre args = ([], false) := by
  unfold main
  rw [(C116_tables args).1.2 h]

/-! ## Examples -/

/-- `bytemaper -pkg strjson 'IsQuote:"\""' ToHex`; the names and the values satisfy the hypotheses. -/
example : ∃ m, run [b!"IsQuote:\"\\\"\"", b!"ToHex"] [] = some m ∧ Named b!"strjson" b!"bytemap" m ∧
    ∀ p ∈ m, IsIdent p.1 ∧ ¬ b!"bytemap" <+: p.1 ∧ p.1 ∉ [b!"init", b!"byte", b!"bool", b!"main"] := by
  have e : (run [b!"IsQuote:\"\\\"\"", b!"ToHex"] []).map (·.map (·.1)) = some [b!"IsQuote", b!"ToHex"] := by decide +kernel
  cases h : run [b!"IsQuote:\"\\\"\"", b!"ToHex"] [] with
  | none => rw [h] at e; cases e
  | some m =>
    rw [h] at e
    simp only [Option.map_some, Option.some.injEq] at e
    have hm : ∀ p ∈ m, p.1 = b!"IsQuote" ∨ p.1 = b!"ToHex" := by
      intro p hp
      have := List.mem_map_of_mem (f := (·.1)) hp
      rw [e] at this
      simpa using this
    have i1 : IsIdent b!"strjson" := ⟨by decide, by decide, by decide⟩
    refine ⟨m, rfl, ⟨i1, fun p hp => ?_⟩, fun p hp => ?_⟩
    · rcases hm p hp with e | e <;> rw [e] <;> exact ⟨⟨by decide, by decide, by decide⟩, ⟨by decide, by decide, by decide⟩⟩
    · rcases hm p hp with e | e <;> rw [e] <;> exact ⟨⟨by decide, by decide, by decide⟩, by decide, by decide⟩

/-- An argument that is refused. -/
example : run [b!":x"] [] = none := by decide +kernel

end Verif.Props
