import Verif.Proofs.UnRound
import Verif.Proofs.UnAccept
import Verif.Props.UnMarshal
import Verif.Props.UnUnmarshal

/-! # Unmarshal after Marshal (C48) -/

namespace Verif.Props
open Verif Verif.Float Verif.Spec Verif.Njson Verif.Unjson

theorem jsonAny_leaf {U : Univ} {P : Bytes → Prop} {Q : Flt → Prop} (hP : ∀ s, SafeText s → P s)
    (hQ : ∀ neg m e, NumJson.toF32 (.fin m e) ≠ .inf → Q (.num neg (.fin m e))) {v : GV} (h : JsonAny U v) : AllLeaf P Q v := by
  induction h with
  | nil => exact .nilIface
  | bool => exact .iface .bool
  | float h1 _ => exact .iface (.float (hQ _ _ _ h1))
  | str h1 => exact .iface (.str (hP _ h1))
  | slice _ _ ih => exact .iface (.slice ih)
  | map _ _ _ ih => exact .iface (.map ih)

theorem survives_leaf {U : Univ} (hU : U.Ok) {P : Bytes → Prop} {Q : Flt → Prop} (hP : ∀ s, SafeText s → P s)
    (hQ : ∀ neg m e, NumJson.toF32 (.fin m e) ≠ .inf → Q (.num neg (.fin m e))) {h : Hint} {t : Ty} {v : GV} (hs : Survives U h t v) :
    AllLeaf P Q v := by
  have hz : ∀ t, AllLeaf P Q (U.zero t) := allLeaf_zero hU (hP [] ⟨⟨[], rfl⟩, .inr (by simp)⟩) (hQ _ _ _ (by decide +kernel))
  refine Survives.rec (motive_1 := fun h t v _ => AllLeaf P Q v) (motive_2 := fun fs ws _ => ∀ x ∈ ws, AllLeaf P Q x)
    ?_ ?_ ?_ ?_ ?_ ?_ ?_ ?_ ?_ ?_ ?_ ?_ ?_ ?_ ?_ ?_ ?_ ?_ hs
  · intros; exact .bool
  · intros; exact .int
  · intros; exact .uint
  · intro h t k neg m e _ h1 _ _; exact .float (hQ _ _ _ h1)
  · intro h t s _ _ h1; exact .str (hP _ h1)
  · intros; exact .nilPtr
  · intro h t e v _ _ _ _ _ ih; exact .ptr ih
  · intro h t e arr len _ _ _ ih; exact .slice ih
  · intro h t n e xs _ _ _ ih; exact .array ih
  · intros; exact .nilMap
  · intro h v hv; exact jsonAny_leaf hP hQ hv
  · intro h t j fs cs _ _ _ _ ih; exact .struct ih
  · simp
  · intro f fs vs _ _ ih x hx
    rcases List.mem_cons.1 hx with rfl | hx
    · exact hz _
    · exact ih x hx
  · intro f fs vs j ws _ _ _ _ _ _ _ ih1 ih2 x hx
    rcases List.mem_cons.1 hx with rfl | hx
    · exact .struct ih1
    · exact ih2 x hx
  · intro f fs vs e _ _ _ _ _ ih x hx
    rcases List.mem_cons.1 hx with rfl | hx
    · exact .nilPtr
    · exact ih x hx
  · intro f fs vs v idx _ _ _ _ _ _ ih1 ih2 x hx
    rcases List.mem_cons.1 hx with rfl | hx
    · exact ih1
    · exact ih2 x hx
  · intro f fs vs idx _ _ _ _ _ ih x hx
    rcases List.mem_cons.1 hx with rfl | hx
    · exact hz _
    · exact ih x hx

theorem marshalsAs_encodes {U : Univ} {t : Ty} {v : GV} {j : JVal} (h : MarshalsAs U t v j) : Encodes U defaultOptions Hint.none t v j := by
  rcases h with ⟨_, h⟩ | ⟨e, x, rfl, hb, h⟩
  · exact h
  · exact .ptr hb h

/-- **C48 (partial)**: a value of a supported type, without marshal and unmarshal methods, that `Survives` describes comes
back: when `Marshal` returns a text for it, then `Unmarshal` of the text into a zero variable of its type stores the same
value (with slices cut to their lengths, which `reflect.DeepEqual` does not notice) and returns no error.
`Survives` excludes nil slices, non-nil maps outside interfaces, pointers to null, integers that are no float64, floats that are
not read back, strings that are not UTF-8 or end in a backslash, values in non-nil embedded pointers and in fields that
are not written. For these the full claim is false (`C48_false`). -/
theorem C48_partial {U : Univ} (hU : U.Ok) (hE : U.EmbedsStructs) (hO : U.NoOmitMethod) (hF : U.GoFloats) (hT : U.PlainTags defaultOptions)
    {t e : Ty} {x : GV} (hb : U.base t = .ptr e) (hn : NoUnmarshal U t) (hp : PlainTy U e) (hsup : Supported U e)
    (hv : MarshalArg U e x) (hs : Survives U Hint.none e x)
    (fuel : Nat) (text : Bytes) (hm : marshal U fuel (some (e, x)) = some (.done text none))
    (fuel' : Nat) {d : Doc} (hd : d.Wf) (r : Out (Option (Ty × GV)))
    (h : unmarshal U fuel' d text (some (t, .ptr (U.zero e))) = some r) :
    r = .done (some (t, .ptr x.trim)) none := by
  have hq : AllFlt Fits32 x := survives_leaf hU (fun _ _ => trivial) (fun neg m e h => by
    intro neg' m' e' he; cases he; exact h) hs
  have hg : AllStr GoodText x := survives_leaf hU (fun _ h => h.2) (fun _ _ _ _ => trivial) hs
  rcases C47_parse_partial hE hO hF hT hv hq hg fuel [] _ hm d hd with ⟨text', j, d', id, h1, h2, h3⟩ | ⟨b, er, he⟩
  · cases h1
    rw [List.nil_append] at h
    rcases unmarshal_tree hU hE ⟨hb, hn, hp, hasTy_zero hU e⟩ fuel' hd _ r h h3 with ⟨err, hq, _⟩ | ⟨r', hdec, rfl⟩
    · exact absurd hq (newTypeDecoder_accepts hU hb hsup err)
    · rw [decodes_unique hdec _ (survives_back hU hs (marshalsAs_encodes h2))]; rfl
  · cases he

/-- Integers up to 2^53 are float64. -/
theorem repr64_small {n : Nat} (h : n ≤ 2 ^ 53) : Repr64 n := nat_isFloat h

theorem trim_example : exList.trim = exList := rfl

theorem exU_cands0 : Cands exU defaultOptions (exU.fields 0) 0 []
    [⟨b!"A", [0], .int .std, Hint.none⟩, ⟨b!"b", [1], .string, Hint.none⟩, ⟨b!"next", [2], .ptr (.struct 0), ⟨false, false, true⟩⟩] := by
  refine .field (idx' := [0]) rfl (by decide +kernel) rfl ?_
  refine .field (idx' := [1]) rfl (by decide +kernel) rfl ?_
  refine .field (idx' := [2]) rfl (by decide +kernel) rfl ?_
  exact .nil

theorem survives_list (i : Int) (s : Bytes) (p : GV) (hi : -2 ^ 53 ≤ i ∧ i ≤ 2 ^ 53) (hs : SafeText s)
    (hp : p = .nilPtr ∨ ∃ q, p = .ptr q ∧ q ≠ .nilPtr ∧ q ≠ .nilMap ∧ q ≠ .nilIface ∧ Survives exU ⟨false, false, true⟩ (.struct 0) q) (h : Hint) :
    Survives exU h (.struct 0) (.struct [.int i, .str s, p]) := by
  refine .struct (j := 0) rfl exU_cands0 (by decide +kernel) ?_
  refine .kept (f := fld b!"A" (.int .std)) (idx := []) rfl (by decide +kernel) (fun h => by cases h) (.keep rfl) ?_ ?_
  · exact .int (k := .std) rfl (by simp [IKind.bits]; omega) (by simp [IKind.bits]; omega) (repr64_small (by omega))
  refine .kept (f := fld b!"B" .string b!"b") (idx := []) rfl (by decide +kernel) (fun h => by cases h) (.keep rfl) ?_ ?_
  · exact .str rfl (by decide +kernel) hs
  rcases hp with rfl | ⟨q, rfl, h1, h2, h3, hq⟩
  · exact .omitted (f := fld b!"Next" (.ptr (.struct 0)) b!"next,omitempty") (idx := []) rfl (by decide +kernel) (fun h => by cases h)
      (.value rfl (by intro j hj; cases hj)) .nil
  · refine .kept (f := fld b!"Next" (.ptr (.struct 0)) b!"next,omitempty") (idx := []) rfl (by decide +kernel) (fun h => by cases h)
      (.value rfl (by intro j hj; cases hj)) ?_ .nil
    exact .ptr (e := .struct 0) rfl h1 h2 h3 hq

theorem safe_ascii {s : Bytes} (h : ∀ b ∈ s, b < 128) (h' : 34 ∈ s ∨ s.getLast? ≠ some 92) : SafeText s := by
  refine ⟨⟨s.map fun b => Char.ofNat b.toNat, ?_⟩, h'⟩
  clear h'
  induction s with
  | nil => rfl
  | cons c s ih =>
    have h1 := h c (by simp)
    have key : ∀ c : UInt8, c < 128 → enc (Char.ofNat c.toNat) = [c] := by
      apply forall_byte; decide +kernel
    rw [List.map_cons, List.flatMap_cons, key c h1, ← ih fun b hb => h b (by simp [hb])]; rfl

theorem exU_supported : Supported exU (.struct 0) := by
  intro t h
  rcases exU_comp h with rfl | rfl | rfl | rfl <;> simp [Univ.base]

/-- The hypotheses hold for a linked list, and it comes back. -/
example : Survives exU Hint.none (.struct 0) exList ∧ MarshalArg exU (.struct 0) exList ∧ Supported exU (.struct 0) ∧
    PlainTy exU (.struct 0) ∧ ∃ text, marshal exU 30 (some (.struct 0, exList)) = some (.done text none) ∧
      unmarshal exU 30 Doc.empty text (some (.ptr (.struct 0), .ptr (exU.zero (.struct 0)))) = some (.done (some (.ptr (.struct 0), .ptr exList)) none) := by
  refine ⟨?_, ?_, exU_supported, fun _ _ => exU_noUnmarshal _, b!"{\"A\":-12,\"b\":\"a\\\"b\",\"next\":{\"A\":3,\"b\":\"\"}}",
    eq_of_sameB (by decide +kernel), eq_of_sameX (by decide +kernel)⟩
  · refine survives_list _ _ _ (by decide) (safe_ascii (by decide) (by decide)) (.inr ⟨_, rfl, by simp, by simp, by simp, ?_⟩) _
    exact survives_list _ _ _ (by decide) (safe_ascii (by decide) (by decide)) (.inl rfl) _
  · rcases exList_arg with ⟨h, _⟩ | ⟨e, x, h1, h2, _, h3⟩
    · exact absurd rfl (h (.struct 0))
    · cases h1; cases h2
      exact .inl ⟨(fun e h => by cases h), ⟨by decide, by decide, by decide⟩, h3⟩

/-- A value in an interface: a slice with a map, a string and a boolean. -/
example : Survives exU Hint.none .any (.iface (.slice .any) (.slice [.iface (.map .string .any) (.map [(.str b!"k", .iface .string (.str b!"v")),
    (.str b!"l", .nilIface)]), .iface .bool (.bool true), .opaque] 2)) := by
  refine .any (.slice (by decide) ?_)
  intro x hx
  simp at hx
  rcases hx with rfl | rfl
  · refine .map ?_ (by simp) ?_
    · intro p hp
      simp at hp
      rcases hp with rfl | rfl
      · exact ⟨_, rfl, by decide +kernel⟩
      · exact ⟨_, rfl, by decide +kernel⟩
    · intro p hp
      simp at hp
      rcases hp with rfl | rfl
      · exact .str (safe_ascii (by decide) (by decide))
      · exact .nil
  · exact .bool

/-- What `Marshal` and then `Unmarshal` into a zero variable do. -/
def roundTrip (U : Univ) (fuel : Nat) (e : Ty) (x : GV) : Option (Out (Option (Ty × GV))) :=
  match marshal U fuel (some (e, x)) with
  | some (.done text none) => unmarshal U fuel Doc.empty text (some (.ptr e, .ptr (U.zero e)))
  | _ => none

/-- **C48 is false** of the code: a nil slice comes back as an empty one, 2^53 + 1 as 2^53, an empty map as a nil map,
a pointer to a nil pointer as nil, the content of an embedded pointer is lost, a map with an entry makes `Unmarshal` panic,
a key of a map in an interface comes back escaped, bytes that are no UTF-8 are replaced. -/
theorem C48_false :
    roundTrip exU 30 (.slice .bool) .nilSlice = some (.done (some (.ptr (.slice .bool), .ptr (.slice [] 0))) none) ∧
    roundTrip exU 30 (.int .b64) (.int 9007199254740993) = some (.done (some (.ptr (.int .b64), .ptr (.int 9007199254740992))) none) ∧
    roundTrip exU 30 (.map .string .bool) (.map []) = some (.done (some (.ptr (.map .string .bool), .ptr .nilMap)) none) ∧
    roundTrip exU 30 (.slice (.ptr (.ptr .bool))) (.slice [.ptr .nilPtr] 1) =
      some (.done (some (.ptr (.slice (.ptr (.ptr .bool))), .ptr (.slice [.nilPtr] 1))) none) ∧
    roundTrip exU 30 (.struct 6) (.struct [.ptr (.struct [.bool true])]) = some (.done (some (.ptr (.struct 6), .ptr (.struct [.nilPtr]))) none) ∧
    roundTrip exU 30 (.map .string .bool) (.map [(.str b!"k", .bool true)]) = some .panic ∧
    roundTrip exU 30 .any (.iface (.map .string .any) (.map [(.str b!"\n", .nilIface)])) =
      some (.done (some (.ptr .any, .ptr (.iface (.map .string .any) (.map [(.str b!"\\n", .nilIface)])))) none) ∧
    roundTrip exU 30 .string (.str [255]) = some (.done (some (.ptr .string, .ptr (.str [239, 191, 189]))) none) := by
  refine ⟨eq_of_sameX ?_, eq_of_sameX ?_, eq_of_sameX ?_, eq_of_sameX ?_, eq_of_sameX ?_, eq_of_isPanic ?_, eq_of_sameX ?_, eq_of_sameX ?_⟩ <;> decide +kernel

end Verif.Props
