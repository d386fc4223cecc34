import Verif.Proofs.ErrText
import Verif.Props.ErrPos
import Verif.Props.Types

/-! # C95: error texts say what happened -/

namespace Verif.Props
open Verif Verif.Spec Verif.Njson Verif.ErrText

/-- The text of the error that `Parse` returns, if it returns one. `hi` says which characters above U+00FF are printable. -/
def parseErrText (hi : Nat → Bool) : ParseOut → Option Bytes
  | .err pos typ got want _ => some (perrText hi (.abort pos typ got want))
  | .eof typ _ => some (perrText hi (.eof typ))
  | _ => none

/-- **C95**: a text that was found, whatever its bytes, is quoted as a string literal of Go for exactly these bytes. -/
theorem C95_quoted (hi : Nat → Bool) (s : Bytes) : ∃ q, gotText hi (.str s) = 34 :: (q ++ [34]) ∧ Lit q s := quoteStr_lit hi s

theorem shape_any {typ : Typ} {got : Got} {want : Want} (h : ErrShape typ got want) : typ &&& tAnyValue = typ := by
  cases h <;> decide

theorem eof_any {typ : Typ} (h : typ ∈ [tAnyValue, tString, tObject, tArray, tNull, tBoolean]) : typ &&& tAnyValue = typ := by
  simp only [List.mem_cons, List.not_mem_nil, or_false] at h
  rcases h with rfl | rfl | rfl | rfl | rfl | rfl <;> decide

/-- **C95**: the text of a parse error determines the error: kind, position, type, what was found and what was wanted. -/
theorem C95_determines (hi : Nat → Bool) (d e : Doc) (hd : d.Wf) (he : e.Wf) (s s' m : Bytes)
    (h : parseErrText hi (d.parse s).2 = some m) (h' : parseErrText hi (e.parse s').2 = some m) :
    (∃ pos typ got want, (d.parse s).2 = .err pos typ got want [] ∧ (e.parse s').2 = .err pos typ got want []) ∨
    ∃ typ, (d.parse s).2 = .eof typ s ∧ (e.parse s').2 = .eof typ s' := by
  cases o : (d.parse s).2 with
  | ok => rw [o] at h; simp [parseErrText] at h
  | crash => rw [o] at h; simp [parseErrText] at h
  | err pos typ got want r =>
    cases o' : (e.parse s').2 with
    | ok => rw [o'] at h'; simp [parseErrText] at h'
    | crash => rw [o'] at h'; simp [parseErrText] at h'
    | err pos' typ' got' want' r' =>
      left
      rw [o] at h
      rw [o'] at h'
      rw [← h'] at h
      simp only [parseErrText, Option.some.injEq] at h
      obtain ⟨rfl, e1, rfl, rfl⟩ := abort_cut h
      have := C58_names_distinct _ _ (shape_any (C94_token d hd _ _ _ _ _ _ o).1) (shape_any (C94_token e he _ _ _ _ _ _ o').1) e1
      subst this
      rw [(C15_error_position d hd _ _ _ _ _ _ o).2, (C15_error_position e he _ _ _ _ _ _ o').2]
      exact ⟨_, _, _, _, rfl, rfl⟩
    | eof typ' r' =>
      rw [o] at h
      rw [o'] at h'
      rw [← h'] at h
      simp [parseErrText, perrText] at h
  | eof typ r =>
    cases o' : (e.parse s').2 with
    | ok => rw [o'] at h'; simp [parseErrText] at h'
    | crash => rw [o'] at h'; simp [parseErrText] at h'
    | err pos' typ' got' want' r' =>
      rw [o] at h
      rw [o'] at h'
      rw [← h'] at h
      simp [parseErrText, perrText] at h
    | eof typ' r' =>
      right
      rw [o] at h
      rw [o'] at h'
      rw [← h'] at h
      simp only [parseErrText, Option.some.injEq, perrText] at h
      have := C58_names_distinct _ _ (eof_any (C94_eof d hd _ _ _ o)) (eof_any (C94_eof e he _ _ _ o')) (List.append_cancel_left h)
      subst this
      rw [(parse_eof hd (eta o)).2.1, (parse_eof he (eta o')).2.1]
      exact ⟨_, rfl, rfl⟩

-- the text for a token of bytes that are no UTF-8, and for a quote
example : parseErrText (fun _ => true) (dirty.parse [110, 0xff, 34, 10]).2 =
    some b!"Invalid token \"n\\xff\\\"\\n\" != \"null\" at position 0 while scanning Null" := by decide +kernel
example : parseErrText (fun _ => true) (dirty.parse b!"{'a':1}").2 =
    some b!"Invalid token '\\'' != ['}' '\"'] at position 1 while scanning Object" := by decide +kernel
example : parseErrText (fun _ => true) (dirty.parse b!"[1,").2 = some b!"Unexpected end of input while scanning AnyValue" := by decide +kernel

/-! ## type errors -/

theorem cut_last {a a' b b' : Bytes} {c : UInt8} (hb : c ∉ b) (hb' : c ∉ b') (h : a ++ c :: b = a' ++ c :: b') : a = a' ∧ b = b' := by
  rcases List.append_eq_append_iff.1 h with ⟨z, h1, h2⟩ | ⟨z, h1, h2⟩
  · cases z with
    | nil => simp only [List.nil_append, List.cons.injEq, true_and] at h2; simp_all
    | cons y z =>
      simp only [List.cons_append, List.cons.injEq] at h2
      exact absurd (by rw [h2.2]; simp) hb
  · cases z with
    | nil => simp only [List.nil_append, List.cons.injEq, true_and] at h2; simp_all
    | cons y z =>
      simp only [List.cons_append, List.cons.injEq] at h2
      exact absurd (by rw [h2.2]; simp) hb'

/-- **C95**: the text of a type error determines the type that was found, whether that type was among the wanted ones, and, when it was not, the
wanted types. -/
theorem C95_typeError (t w t' w' : Typ) (ht : t &&& tAnyValue = t) (hw : w &&& tAnyValue = w) (ht' : t' &&& tAnyValue = t')
    (hw' : w' &&& tAnyValue = w') (h : typeErrorText t w = typeErrorText t' w') :
    t = t' ∧ ((w &&& t ≠ 0 ∧ w' &&& t' ≠ 0) ∨ (w &&& t = 0 ∧ w = w')) := by
  have names : ∀ w : UInt8, ∃ b : Bytes, sprint ((typTypes w).map typString) = 91 :: b ∧ 91 ∉ b := by
    intro w
    refine ⟨(sprint ((typTypes w).map typString)).tail, ?_, ?_⟩
    · revert w; exact forall_byte (by decide +kernel)
    · revert w; exact forall_byte (by decide +kernel)
  have inj : ∀ w w' : UInt8, w &&& tAnyValue = w → w' &&& tAnyValue = w' →
      sprint ((typTypes w).map typString) = sprint ((typTypes w').map typString) → w = w' := forall_byte₂ (by decide +kernel)
  unfold typeErrorText at h
  by_cases c : w &&& t ≠ 0
  · rw [if_pos c] at h
    by_cases c' : w' &&& t' ≠ 0
    · rw [if_pos c'] at h
      exact ⟨C58_names_distinct _ _ ht ht' (List.append_cancel_left h), .inl ⟨c, c'⟩⟩
    · rw [if_neg c'] at h
      simp at h
  · rw [if_neg c] at h
    by_cases c' : w' &&& t' ≠ 0
    · rw [if_pos c'] at h
      simp at h
    · rw [if_neg c'] at h
      simp only [List.append_assoc] at h
      replace h := List.append_cancel_left h
      obtain ⟨b, e, hb⟩ := names w
      obtain ⟨b', e', hb'⟩ := names w'
      rw [e, e', ← List.append_assoc, ← List.append_assoc] at h
      obtain ⟨h1, h2⟩ := cut_last hb hb' h
      exact ⟨C58_names_distinct _ _ ht ht' (List.append_cancel_right h1), .inr ⟨by simpa using c, inj _ _ hw hw' (by rw [e, e', h2])⟩⟩

example : typeErrorText tString tNumber = b!"Invalid type String not in [Number]" := by decide +kernel
example : typeErrorText tNumber (tNumber ||| tNull) = b!"Invalid value for type Number" := by decide +kernel

end Verif.Props
