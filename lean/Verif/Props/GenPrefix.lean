import Verif.Props.UnPrefix

/-! # Property C142 for generated methods -/

namespace Verif.Props
open Verif Verif.Float Verif.Spec Verif.Njson Verif.Unjson Verif.Gen

/-- the slice begins with the one that was given, whatever the error -/
def PreG (out : Bytes) : Out Bytes → Prop
  | .panic => True
  | .done r _ => ∃ s, r = out ++ s

theorem preG_trans {out s : Bytes} : ∀ {x : Out Bytes}, PreG (out ++ s) x → PreG out x
  | .panic, _ => trivial
  | .done r _, ⟨s', h⟩ => ⟨s ++ s', by rw [h, List.append_assoc]⟩

theorem preG_next {out : Bytes} {x : Out Bytes} {f : Bytes → Out Bytes} (hx : PreG out x) (hf : ∀ s, PreG out (f (out ++ s))) : PreG out (next x f) := by
  match x, hx with
  | .panic, _ => trivial
  | .done r none, ⟨s, h⟩ => rw [h]; exact hf s
  | .done r (some e), h => exact h

theorem preG_elems {rec : GV → Bytes → Out Bytes} (hr : ∀ x b, PreG b (rec x b)) : ∀ (xs : List GV) (first : Bool) (b : Bytes), PreG b (runElems rec first xs b)
  | [], _, b => ⟨[], by simp⟩
  | x :: xs, first, b => by
    unfold runElems
    obtain ⟨s, h1⟩ : ∃ s, (if first then b else b ++ [44]) = b ++ s := by cases first; exact ⟨[44], rfl⟩; exact ⟨[], by simp⟩
    rw [h1]
    exact preG_trans (preG_next (hr x _) fun s' => preG_trans (preG_elems hr xs false _))

theorem preG_entries {key elem : GV → Bytes → Out Bytes} (hk : ∀ x b, PreG b (key x b)) (he : ∀ x b, PreG b (elem x b)) :
    ∀ (es : List (GV × GV)) (first : Bool) (b : Bytes), PreG b (runEntries key elem first es b)
  | [], _, b => ⟨_, rfl⟩
  | (k, x) :: es, first, b => by
    unfold runEntries
    exact preG_trans (preG_next (hk k _) fun s => preG_trans (preG_trans (preG_next (he x _) fun s' => preG_trans (preG_entries hk he es false _))))

theorem preG_method {U : Univ} (hA : U.KeepsOut) (m : Meth) (t : Ty) (v : GV) (b : Bytes) : PreG b (callMethod U m t v b) := by
  have hn : ∀ rv, PreG b (encMethod U m b rv) := by
    intro rv
    have := keeps_method hA m b rv
    unfold encMethod at this ⊢
    split
    · trivial
    · rename_i t v _
      split
      · split
        · split
          · trivial
          · exact hA t v b
        · split
          · trivial
          · split
            · rename_i s _; exact ⟨[34] ++ s ++ [34], by simp only [List.append_assoc]⟩
            · exact ⟨[], by simp⟩
        · split
          · trivial
          · split
            · exact ⟨_, rfl⟩
            · exact ⟨[], by simp⟩
      · trivial
  unfold callMethod
  split <;> exact hn _

theorem preG_ite {out : Bytes} {p : Prop} [Decidable p] {a b : Out Bytes} (ha : PreG out a) (hb : PreG out b) : PreG out (if p then a else b) := by
  split
  · exact ha
  · exact hb

mutual
theorem preG_block {U : Univ} (hA : U.KeepsOut) (h64 : Floats64 U) : ∀ (b : ABlock) (t : Ty) (v : GV) (out : Bytes), PreG out (b.run U t v out)
  | .callAppend, t, v, out => preG_method hA _ t v out
  | .callJSON, t, v, out => preG_method hA _ t v out
  | .callText, t, v, out => preG_method hA _ t v out
  | .ptr b, t, v, out => by
    unfold ABlock.run
    split
    · exact ⟨_, rfl⟩
    · exact preG_block hA h64 b t v out
  | .map kb b, t, v, out => by
    unfold ABlock.run
    split
    · exact ⟨_, rfl⟩
    · exact preG_entries (preG_block hA h64 kb _) (preG_block hA h64 b _) _ _ _
    · trivial
  | .slice b, t, v, out => by
    unfold ABlock.run
    split
    · exact ⟨_, rfl⟩
    · exact preG_trans (preG_next (preG_elems (preG_block hA h64 b _) _ _ _) fun s => ⟨s ++ [93], by simp⟩)
    · trivial
  | .struct fs, t, v, out => by unfold ABlock.run; exact preG_fields hA h64 fs t v true out
  | .bool, _, v, out => by unfold ABlock.run; split; exact ⟨_, rfl⟩; trivial
  | .raw, _, v, out => by unfold ABlock.run; split; exact ⟨_, by simp only [List.append_assoc]; rfl⟩; trivial
  | .str, _, v, out => by
    unfold ABlock.run; split
    · rw [StrJson.appendEscaped_eq]; exact ⟨_, by simp only [List.append_assoc]; rfl⟩
    · trivial
  | .float, _, v, out => by unfold ABlock.run; split; exact ⟨_, appendFloat64 h64 _ _⟩; trivial
  | .uint, _, v, out => by unfold ABlock.run; split; exact ⟨_, rfl⟩; trivial
  | .int, _, v, out => by unfold ABlock.run; split; exact ⟨_, rfl⟩; trivial
  | .any, _, _, _ => by unfold ABlock.run; trivial
theorem preG_fields {U : Univ} (hA : U.KeepsOut) (h64 : Floats64 U) : ∀ (fs : AFields) (t : Ty) (v : GV) (first : Bool) (out : Bytes), PreG out (fs.run U t v first out)
  | .nil, _, _, first, out => by unfold AFields.run; exact ⟨_, rfl⟩
  | .cons name path guards c b rest, t, v, first, out => by
    unfold AFields.run
    split
    · trivial
    · exact preG_fields hA h64 rest t v first out
    · split
      · refine preG_ite trivial (preG_ite ?_ (preG_fields hA h64 rest t v first out))
        rw [List.append_assoc, List.append_assoc]
        exact preG_trans (preG_next (preG_block hA h64 b _ _ _) fun s => preG_trans (preG_fields hA h64 rest t v false _))
      · trivial
end

/-- **C142, generated methods**: a generated `AppendJSON` returns a slice that begins with the one that it was given, with any error. -/
theorem C142_generated {U : Univ} (hA : U.KeepsOut) (h64 : Floats64 U) (o : GenOptions) (b : ABlock) (t : Ty) (recv : GV) (out r : Bytes) (e : Option UErr)
    (h : runAppender U o b t recv out = some (.done r e)) : ∃ s, r = out ++ s := by
  have key : ∀ b : ABlock, PreG out (b.run U (.ptr t) recv out) := fun b => preG_block hA h64 b _ _ _
  unfold runAppender at h
  split at h
  · cases h; exact ⟨_, rfl⟩
  · split at h
    · split at h
      · cases h
      · simp only [Option.some.injEq] at h; have := key .callAppend; rw [h] at this; exact this
    · rename_i b' _; simp only [Option.some.injEq] at h; have := key b; rw [h] at this; exact this

-- a struct type 5 whose AppendJSON method fails after it has written something, in a field `A` of a struct
example : (AFields.cons b!"A" [0] [] none .callAppend .nil).run
    { exStr with fields := fun _ => [⟨b!"A", [], false, true, .struct 5⟩], impl := fun t m => decide (t = .struct 5 ∧ m = .appender),
                 appendJSON := fun _ _ b => (b ++ b!"{", true) }
    (.struct 0) (.struct [.struct []]) true b!"x" = .done b!"x{\"A\":{" (some .hook) := by rfl

end Verif.Props
