import Verif.Model.Bytemaper
import Verif.Spec.Bytemaper
import Verif.Proofs.StructTag

/-! # C92: the tables printed by bytemaper -/

namespace Verif.Props
open Verif Verif.Spec Verif.StructTag Verif.Bytemaper

theorem splitColon_append {a b : Bytes} (h : 58 ∉ a) : splitColon (a ++ 58 :: b) = some (a, b) := by
  induction a with
  | nil => simp [splitColon]
  | cons c a ih =>
    simp only [List.mem_cons, not_or] at h
    simp only [List.cons_append]
    unfold splitColon
    rw [if_neg (fun e => h.1 e.symm), ih h.2]

theorem splitColon_none {a : Bytes} (h : 58 ∉ a) : splitColon a = none := by
  induction a with
  | nil => rfl
  | cons c a ih =>
    simp only [List.mem_cons, not_or] at h
    unfold splitColon
    rw [if_neg (fun e => h.1 e.symm), ih h.2]

theorem builtin_none {name : Bytes} (h : name ∉ tableNames) : builtin name = none := by
  simp only [tableNames, List.mem_cons, List.not_mem_nil, or_false, not_or] at h
  obtain ⟨h1, h2, h3, h4, h5, h6, h7, h8, h9, h10, h11, h12, h13⟩ := h
  unfold builtin
  rw [if_neg h1, if_neg h2, if_neg h3, if_neg h4, if_neg h5, if_neg h6, if_neg h7, if_neg h8, if_neg h9, if_neg h10, if_neg h11, if_neg h12,
    if_neg h13]

theorem unquoteArg_of {text v : Bytes} (h : SetText text v) : unquoteArg text = v := by
  unfold unquoteArg
  rcases h with ⟨q, rfl, h⟩ | ⟨h1, h2, h3, h⟩
  · rw [if_pos (by simp)]
    have hl : (34 :: (q ++ [34])).getLast? = some (34 : UInt8) := by
      rw [← List.cons_append, List.getLast?_append]; rfl
    rw [if_neg (by simp), if_pos ⟨rfl, hl⟩]
    simp only [List.drop_succ_cons, List.drop_zero, List.dropLast_concat]
    rw [(unquote_iff q v).2 h]; rfl
  · rw [if_pos h1, if_pos ⟨h2, h3⟩, (unquote_iff text v).2 h]; rfl

theorem mask_get (tr : UInt8 → UInt8) (c : UInt8) : tableAt (mask tr) c = tr c := by
  unfold tableAt mask
  have := c.toNat_lt
  rw [List.getD_eq_getElem?_getD, List.getElem?_map, List.getElem?_range this]
  simp

theorem mask_length (tr : UInt8 → UInt8) : (mask tr).length = 256 := by simp [mask]

theorem run_single {arg name : Bytes} {tr : UInt8 → UInt8} (h : table arg = some (name, tr)) : run [arg] [] = some [(name, mask tr)] := by
  simp [run, h, put]

/-- **C92**: the argument `name:text` prints, under this name, the table of 256 entries that is 1 for the bytes of the text and 0 for the
others, when the text is in quotes or has two bytes at least. -/
theorem C92_set_partial {name text v : Bytes} (hn : name ∉ tableNames) (hne : name ≠ []) (hc : 58 ∉ name) (h : SetText text v) :
    ∃ t, run [name ++ 58 :: text] [] = some [(name, t)] ∧ t.length = 256 ∧ ∀ c, tableAt t c = if c ∈ v then 1 else 0 := by
  have ht : table (name ++ 58 :: text) = some (name, fun b => if b ∈ v then 1 else 0) := by
    unfold table
    rw [splitColon_append hc]
    simp only [builtin_none hn, unquoteArg_of h]
    rw [if_neg hne]
  exact ⟨_, run_single ht, mask_length _, mask_get _⟩

example : b!"IsNumberEnd" ∉ tableNames ∧ SetText b!"\\n,]" b!"\n,]" ∧ SetText b!"\",\"" b!"," := by
  have ch : ∀ (c : Char) (hc : c.toNat < 128), c ≠ '"' → c ≠ '\\' → c ≠ '\n' → ∀ {q v}, Unq q v → Unq (UInt8.ofNat c.toNat :: q) (UInt8.ofNat c.toNat :: v) := by
    intro c hc h1 h2 h3 q v h
    have := Unq.char c h1 h2 h3 h
    rw [enc_ascii hc] at this
    exact this
  refine ⟨by decide, .inr ⟨by decide, by decide, by decide, ?_⟩, .inl ⟨b!",", rfl, ?_⟩⟩
  · exact .esc (by decide) (ch ',' (by decide) (by decide) (by decide) (by decide) (ch ']' (by decide) (by decide) (by decide) (by decide) .nil))
  · exact ch ',' (by decide) (by decide) (by decide) (by decide) .nil

/-- **C92** fails for a set of one byte without quotes: the table is empty. -/
theorem C92_one_byte {name : Bytes} (hn : name ∉ tableNames) (hne : name ≠ []) (hc : 58 ∉ name) (b : UInt8) :
    ∃ t, run [name ++ [58, b]] [] = some [(name, t)] ∧ ∀ c, tableAt t c = 0 := by
  have ht : table (name ++ 58 :: [b]) = some (name, fun b => if b ∈ ([] : Bytes) then 1 else 0) := by
    unfold table
    rw [splitColon_append hc]
    simp only [builtin_none hn]
    rw [if_neg hne]
    rfl
  refine ⟨_, run_single ht, fun c => ?_⟩
  rw [mask_get]; simp

/-- **C92**: the tables that the packages use are the ones that bytemaper prints for their names, except for `IsSpace` and `IsNumberEnd`,
which are sets. -/
theorem C92_tables :
    run [b!"IsDigit"] [] = some [(b!"IsDigit", bytemapIsDigit)] ∧
    run [b!"FromHex", b!"ToHex", b!"ToJSON"] [] = some [(b!"FromHex", bytemapFromHex), (b!"ToHex", bytemapToHex), (b!"ToJSON", bytemapToJSON)] ∧
    run [b!"IsNumberEnd: \\t\\r\\n,]}"] [] = some [(b!"IsNumberEnd", bytemapIsNumberEnd)] ∧
    run [b!"isSpace: \\t\\r\\n"] [] = some [(b!"isSpace", bytemapIsSpace)] :=
  ⟨by decide +kernel, by decide +kernel, by decide +kernel, by decide +kernel⟩

/-- **C92**: no argument prints the table `bytemapIsSpace` under the name `IsSpace`, because that name stands for `unicode.IsSpace`. -/
theorem C92_isSpace (arg : Bytes) (tr : UInt8 → UInt8) (h : table arg = some (b!"IsSpace", tr)) : mask tr ≠ bytemapIsSpace := by
  have hb : ∀ name tr, builtin name = some tr → mask tr ≠ bytemapIsSpace := by
    intro name tr h
    unfold builtin at h
    iterate 13
      replace h := ite_eq_ne h
      rcases h with ⟨_, h⟩ | ⟨_, h⟩
      · cases h; decide +kernel
    cases h
  unfold table at h
  split at h
  rename_i name arg' _
  split at h
  · rename_i tr' hx
    simp only [Option.some.injEq, Prod.mk.injEq] at h
    rw [← h.2]
    exact hb _ _ hx
  · rename_i hx
    split at h
    · cases h
    · simp only [Option.some.injEq, Prod.mk.injEq] at h
      rw [h.1] at hx
      exact absurd hx (by decide)

/-- **C92**: the table `FromHex` takes every letter for a digit, not only the hexadecimal ones. -/
theorem C92_fromHex_false : tableAt bytemapFromHex 122 = 35 ∧ hexVal 122 = none := by decide +kernel

end Verif.Props
