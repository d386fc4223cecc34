import Verif.Spec.UnPrefix
import Verif.Proofs.UnEncode
import Verif.Proofs.GenRun
import Verif.Proofs.UnReject
import Verif.Proofs.UnExample
import Verif.Props.FormatGo

/-!
# Property C142: the slice that AppendJSON returns begins with the slice that it was given

False of the code when no encoder can be made: `AppendJSON` then returns nil, so that what the caller had in its buffer is lost.
-/

namespace Verif.Props
open Verif Verif.Float Verif.Spec Verif.Njson Verif.Unjson Verif.Gen

/-- the same for a call that may run out of budget -/
def KeepsO (out : Bytes) : Option (Out Bytes) → Prop
  | none => True
  | some r => KeepsPrefix out r

theorem keepsO_app {out s : Bytes} : KeepsO out (some (.done (out ++ s) none)) := ⟨s, rfl⟩

theorem keepsO_trans {out s : Bytes} : ∀ {x : Option (Out Bytes)}, KeepsO (out ++ s) x → KeepsO out x
  | none, _ => trivial
  | some .panic, _ => trivial
  | some (.done r none), ⟨s', h⟩ => ⟨s ++ s', by rw [h, List.append_assoc]⟩
  | some (.done r (some e)), h => by
    cases e with
    | invalidType => exact h
    | _ => obtain ⟨s', h⟩ := h; exact ⟨s ++ s', by rw [h, List.append_assoc]⟩

theorem keepsO_andThen {out : Bytes} {x : Option (Out Bytes)} {f : Bytes → Option (Out Bytes)} (hx : KeepsO out x)
    (hf : ∀ s, KeepsO out (f (out ++ s))) : KeepsO out (andThen x id f) := by
  match x, hx with
  | none, _ => trivial
  | some .panic, _ => trivial
  | some (.done r none), ⟨s, h⟩ => rw [h]; exact hf s
  | some (.done r (some e)), h => exact h

theorem keepsO_elems {rec : Bytes → RV → Option (Out Bytes)} (hr : ∀ b x, KeepsO b (rec b x)) : ∀ (xs : List RV) (first : Bool) (b : Bytes),
    KeepsO b (encElems rec xs first b)
  | [], _, b => ⟨[], by simp⟩
  | x :: xs, first, b => by
    unfold encElems
    have h1 : ∃ s, (if first then b else b ++ [44]) = b ++ s := by cases first; exact ⟨[44], rfl⟩; exact ⟨[], by simp⟩
    obtain ⟨s, h1⟩ := h1
    rw [h1]
    exact keepsO_trans (keepsO_andThen (hr _ x) fun s' => keepsO_trans (keepsO_elems hr xs false _))

theorem keepsO_entries {key val : Bytes → RV → Option (Out Bytes)} (hk : ∀ b x, KeepsO b (key b x)) (hv : ∀ b x, KeepsO b (val b x)) :
    ∀ (es : List (RV × RV)) (first : Bool) (b : Bytes), KeepsO b (encEntries key val es first b)
  | [], _, b => ⟨[], by simp⟩
  | (k, x) :: es, first, b => by
    unfold encEntries
    have h1 : ∃ s, (if first then b else b ++ [44]) = b ++ s := by cases first; exact ⟨[44], rfl⟩; exact ⟨[], by simp⟩
    obtain ⟨s, h1⟩ := h1
    rw [h1]
    exact keepsO_trans (keepsO_andThen (hk _ k) fun s' => keepsO_trans (keepsO_trans
      (keepsO_andThen (hv _ x) fun s'' => keepsO_trans (keepsO_entries hk hv es false _))))

/-- an omiter returns no error -/
def NoErr : Option (Out Bool) → Prop
  | some (.done _ (some _)) => False
  | _ => True

theorem noErr_andThen {x : Option (Out Bool)} {f : Bool → Option (Out Bool)} (hx : NoErr x) (hf : ∀ b, NoErr (f b)) : NoErr (andThen x id f) := by
  match x, hx with
  | none, _ => trivial
  | some .panic, _ => trivial
  | some (.done r none), _ => exact hf r

theorem noErr_all {rec : RV → Option (Out Bool)} (hr : ∀ x, NoErr (rec x)) : ∀ xs, NoErr (omitAll rec xs)
  | [] => trivial
  | x :: xs => by
    unfold omitAll
    refine noErr_andThen (hr x) fun b => ?_
    cases b
    · trivial
    · exact noErr_all hr xs

theorem noErr_fields {U : Univ} {rec : Omiter → RV → Option (Out Bool)} (hr : ∀ o x, NoErr (rec o x)) (rv : RV) : ∀ cs, NoErr (omitFields U rec rv cs)
  | [] => trivial
  | c :: cs => by
    unfold omitFields
    split
    · trivial
    · exact noErr_fields hr rv cs
    · refine noErr_andThen (hr _ _) fun b => ?_
      cases b
      · trivial
      · exact noErr_fields hr rv cs

theorem noErr_omit (U : Univ) (objs : List Obj) : ∀ (fuel : Nat) (o : Omiter) (rv : RV), NoErr (omitRun U objs fuel o rv)
  | 0, _, _ => trivial
  | fuel + 1, o, rv => by
    have ih := noErr_omit U objs fuel
    unfold omitRun
    cases o with
    | array n o =>
      dsimp only
      split
      · split
        · exact noErr_all (ih o) _
        · trivial
      · trivial
    | struct r =>
      dsimp only
      split
      · exact noErr_fields ih rv _
      · trivial
    | method name t => dsimp only; split <;> (try split) <;> trivial
    | ptrMethod name t => dsimp only; split <;> (try split) <;> trivial
    | elemMethod name t => dsimp only; split <;> (try split) <;> trivial
    | _ => dsimp only; (try split) <;> trivial

theorem keepsO_fields {U : Univ} {rec : Enc → Bytes → RV → Option (Out Bytes)} {om : Omiter → RV → Option (Out Bool)}
    (hr : ∀ e b x, KeepsO b (rec e b x)) (ho : ∀ o x, NoErr (om o x)) (rv : RV) : ∀ (cs : List Codec) (more : Bool) (b : Bytes),
    KeepsO b (encFields U rec om rv cs more b)
  | [], more, b => ⟨_, rfl⟩
  | c :: cs, more, b => by
    unfold encFields
    split
    · trivial
    · exact keepsO_fields hr ho rv cs more b
    · rename_i f _
      have hom := ho c.om f
      match hx : om c.om f, hom with
      | none, _ => trivial
      | some .panic, _ => trivial
      | some (.done true none), _ => exact keepsO_fields hr ho rv cs more b
      | some (.done false none), _ =>
        show KeepsO b (andThen (rec c.enc (b ++ [if more then 44 else 123] ++ [34] ++ c.key ++ [34, 58]) f) id fun b => encFields U rec om rv cs true b)
        simp only [List.append_assoc]
        exact keepsO_trans (keepsO_andThen (hr _ _ f) fun s => keepsO_trans (keepsO_fields hr ho rv cs true _))

theorem keeps_float {U : Univ} (h32 : U.GoFloats) (h64 : Floats64 U) (bits : Nat) (inf nan : Bool) (b : Bytes) (f : Flt) : KeepsPrefix b (encFloat U bits inf nan b f) := by
  have hn : ∀ neg m e, ∃ s, NumJson.appendFloat b (.num neg (.fin m e)) bits (U.fmtFloat (.num neg (.fin m e)) bits) = b ++ s := by
    intro neg m e
    by_cases hb : bits = 32
    · subst hb; exact ⟨_, appendFloat_append h32.floatText b neg m e⟩
    · by_cases hb' : bits = 64
      · subst hb'; exact ⟨_, appendFloat64 h64 b _⟩
      · have : NumJson.fmtByte (.num neg (.fin m e)) bits ≠ 101 := by
          have h1 : (bits == 32) = false := by simpa using hb
          have h2 : (bits == 64) = false := by simpa using hb'
          unfold NumJson.fmtByte
          simp [h1, h2]
        unfold NumJson.appendFloat
        rw [if_neg this]
        exact ⟨_, rfl⟩
  cases f with
  | nan => unfold encFloat; cases nan; exact ⟨[], by simp⟩; exact ⟨_, rfl⟩
  | num neg x =>
    cases x with
    | inf => unfold encFloat; cases inf; exact ⟨[], by simp⟩; exact ⟨_, rfl⟩
    | fin m e => exact hn neg m e

theorem keeps_method {U : Univ} (hA : U.KeepsOut) (m : Meth) (b : Bytes) (rv : RV) : KeepsPrefix b (encMethod U m b rv) := by
  unfold encMethod
  split
  · trivial
  · rename_i t v _
    split
    · split
      · split
        · trivial
        · dsimp only
          obtain ⟨s, hs⟩ := hA t v b
          split <;> exact ⟨s, hs⟩
      · split
        · trivial
        · split
          · rename_i s _; exact ⟨[34] ++ s ++ [34], by simp only [List.append_assoc]⟩
          · exact ⟨[], by simp⟩
      · split
        · trivial
        · split
          · exact ⟨_, rfl⟩
          · exact ⟨[], by simp⟩
    · trivial

theorem keeps_encode {U : Univ} (hU : U.Ok) (hA : U.KeepsOut) (h32 : U.GoFloats) (h64 : Floats64 U) : ∀ (fuel : Nat) (objs : List Obj) (e : Enc) (b : Bytes) (rv : RV),
    KeepsO b (Unjson.encode U objs fuel e b rv)
  | 0, _, _, _, _ => trivial
  | fuel + 1, objs, e, b, rv => by
    have ih := keeps_encode hU hA h32 h64 fuel
    have ho := noErr_omit U objs fuel
    unfold Unjson.encode
    cases e with
    | njson => exact keeps_method hA _ _ _
    | json => exact keeps_method hA _ _ _
    | text => exact keeps_method hA _ _ _
    | bool => dsimp only; split; exact keepsO_app; trivial
    | int => dsimp only; split; exact keepsO_app; trivial
    | uint => dsimp only; split; exact keepsO_app; trivial
    | float bits inf nan => dsimp only; split; exact keeps_float h32 h64 _ _ _ _ _; trivial
    | str html =>
      dsimp only; split
      · rw [StrJson.appendEscaped_eq]; simp only [List.append_assoc]; exact keepsO_app
      · trivial
    | rawStr => dsimp only; split; simp only [List.append_assoc]; exact keepsO_app; trivial
    | ptr r =>
      dsimp only; split
      · exact keepsO_app
      · exact keepsO_app
      · exact keepsO_app
      · exact ih _ _ _ _
      · trivial
    | slice r =>
      dsimp only; split
      · exact keepsO_app
      · exact keepsO_trans (keepsO_andThen (keepsO_elems (ih objs _) _ _ _) fun s => by rw [List.append_assoc]; exact keepsO_app)
      · trivial
    | array r =>
      dsimp only; split
      · split
        · exact keepsO_trans (keepsO_andThen (keepsO_elems (ih objs _) _ _ _) fun s => by rw [List.append_assoc]; exact keepsO_app)
        · trivial
      · trivial
    | map r =>
      dsimp only; split
      · exact keepsO_app
      · exact keepsO_trans (keepsO_andThen (keepsO_entries (ih objs _) (ih objs _) _ _ _) fun s => by rw [List.append_assoc]; exact keepsO_app)
      · trivial
    | struct r =>
      dsimp only; split
      · exact keepsO_fields (ih objs) ho _ _ _ _
      · trivial
    | iface =>
      dsimp only; split
      · exact keepsO_app
      · split
        · trivial
        · rename_i e he; rw [((newTypeEncoder_cases hU).2 e he).1]; exact rfl
        · split
          · split
            · exact ih _ _ _ _
            · exact ⟨[], by simp⟩
          · trivial
          · split
            · exact ih _ _ _ _
            · exact ⟨[], by simp⟩
      · trivial

/-- **C142 (partial)**: whatever is encoded, by `AppendJSON` or by an `Encoder`, with an error or without one: if there is an encoder for all the types, the slice that is
returned begins with the one that was given. With the error that there is no encoder for a type the slice is nil (`C142_lost`, `C142_false`). -/
theorem C142_kept_partial {U : Univ} (hU : U.Ok) (hA : U.KeepsOut) (h32 : U.GoFloats) (h64 : Floats64 U) (fuel : Nat) (out : Bytes) (x : Option (Ty × GV)) :
    (∀ r, Unjson.appendJSON U fuel out x = some r → KeepsPrefix out r) ∧
    (∀ (m : TypeEncoder) r, m.encodeArg U fuel out x = some r → KeepsPrefix out r) := by
  have key : ∀ (m : TypeEncoder) t v, KeepsO out (m.encode U fuel out t v) := by
    intro m t v
    unfold TypeEncoder.encode
    split
    · split
      · exact keeps_encode hU hA h32 h64 _ _ _ _ _
      · exact ⟨[], by simp⟩
    · trivial
    · split
      · exact keeps_encode hU hA h32 h64 _ _ _ _ _
      · exact ⟨[], by simp⟩
  have toK : ∀ {y : Option (Out Bytes)}, KeepsO out y → ∀ r, y = some r → KeepsPrefix out r := by
    rintro y h r rfl; exact h
  constructor
  · refine toK ?_
    unfold Unjson.appendJSON
    split
    · exact keepsO_app
    · split
      · trivial
      · rename_i e he; rw [((newTypeEncoder_cases hU).2 e he).1]; exact rfl
      · exact key _ _ _
  · intro m
    refine toK ?_
    unfold TypeEncoder.encodeArg
    split
    · exact ⟨[], by simp⟩
    · exact key _ _ _

/-- **C142**: for every value of a type without encoder `AppendJSON` returns nil, whatever it was given. -/
theorem C142_lost {U : Univ} (hU : U.Ok) {t : Ty} (hp : ∀ e, U.base t ≠ .ptr e) (hm : marshalMeth U (.ptr t) = none) (hn : NoEncoder U defaultOptions t)
    (v : GV) (fuel : Nat) (out : Bytes) (r : Out Bytes) (h : Unjson.appendJSON U fuel out (some (t, v)) = some r) : r = .done [] (some .invalidType) := by
  unfold Unjson.appendJSON at h
  dsimp only at h
  cases hc : newTypeEncoder U {} fuel t with
  | diverge => rw [hc] at h; cases h
  | err e => rw [hc] at h; cases h; rw [((newTypeEncoder_cases hU).2 e hc).1]
  | ok m => exact absurd hn (((newTypeEncoder_cases hU).1 m hc).2 hp hm)

/-- `exU` with the texts of strconv -/
def exStr : Univ := { exU with fmtFloat := Strconv.formatFloat }

theorem exStr_ok : exStr.Ok where
  under_base := exU_ok.under_base
  under_struct := exU_ok.under_struct
  zero_struct := by
    intro i
    unfold exStr exU exZero exFields
    dsimp only
    split <;> simp [fld, Univ.zero, List.replicate]
  zero_named := by
    intro i
    unfold exStr exU exUnder
    dsimp only
    split <;> simp [Univ.zero]

/-- **C142 is false of the code**: `AppendJSON` of a channel, or of `[]interface{}{1, make(chan int)}`, returns nil instead of the text `[7` that it was given. -/
theorem C142_false : exStr.Ok ∧ exStr.KeepsOut ∧ exStr.GoFloats ∧ Floats64 exStr ∧
    Unjson.appendJSON exStr 30 b!"[7" (some (.other, .opaque)) = some (.done [] (some .invalidType)) ∧
    Unjson.appendJSON exStr 30 b!"[7" (some (.slice .any, .slice [.iface (.int .std) (.int 1), .iface .other .opaque] 2)) = some (.done [] (some .invalidType)) :=
  ⟨exStr_ok, fun _ _ _ => ⟨[], by simp [exStr, exU]⟩, strconv_goFloats rfl, strconv_floats64 rfl, eq_of_sameB (by decide +kernel), eq_of_sameB (by decide +kernel)⟩

-- with other errors the text is kept, with what was written before the error
example : Unjson.appendJSON exStr 30 b!"[7" (some (.slice .any, .slice [.iface (.int .std) (.int 1), .iface (.float .b64) (.float .nan)] 2)) =
    some (.done b!"[7[1," (some .value)) := eq_of_sameB (by decide +kernel)
example : Unjson.appendJSON exStr 30 b!"[7" (some (.slice .any, .slice [.iface (.int .std) (.int 1)] 1)) = some (.done b!"[7[1]" none) :=
  eq_of_sameB (by decide +kernel)
example : (∀ e, exStr.base .other ≠ .ptr e) ∧ marshalMeth exStr (.ptr .other) = none ∧ NoEncoder exStr defaultOptions .other :=
  ⟨(fun _ h => by cases h), (by decide), .other (by decide) rfl⟩

end Verif.Props
