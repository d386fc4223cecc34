import Verif.Proofs.GenCompile
import Verif.Proofs.UnTyped

/-! # What the generated `AppendJSON` writes -/

namespace Verif.Gen
open Verif Verif.Float Verif.Spec Verif.Njson Verif.Unjson

/-- A run that has stopped. -/
def Stopped : Stop → Out Bytes → Prop
  | .error, r => ∃ out', r = .done out' (some .hook)
  | .panic, r => r = .panic

/-- A run appends the text of a tree with `P`, or it stops. -/
def Writes (F : Stop → Prop) (P : JVal → Prop) (run : Bytes → Out Bytes) : Prop :=
  (∃ j, P j ∧ (∀ s, ¬ F s) ∧ ∀ out, run out = .done (out ++ j.ser) none) ∨ ∃ s, F s ∧ ∀ out, Stopped s (run out)

theorem Stopped.next {s : Stop} {r : Out Bytes} {f : Bytes → Out Bytes} (h : Stopped s r) : Stopped s (Gen.next r f) := by
  cases s with
  | error => obtain ⟨out', rfl⟩ := h; exact ⟨out', rfl⟩
  | panic => cases h; rfl

/-- A value without methods at this place does not stop there. -/
theorem noStop_leaf {E : Env} {o : GenOptions} {t : Ty} {v : GV} {s : Stop} (hm : NoMarshal E.U t) (h1 : ∀ x, v ≠ .ptr x) (h2 : ∀ a l, v ≠ .slice a l)
    (h3 : ∀ es, v ≠ .map es) (h4 : ∀ fs, v ≠ .struct fs) : ¬ GStops E o s t v := by
  intro h
  cases h with
  | appender h => rw [hm.1] at h; cases h
  | json _ h => rw [hm.2.1] at h; cases h
  | text _ _ h => rw [hm.2.2] at h; cases h
  | ptr => exact h1 _ rfl
  | slice => exact h2 _ _ rfl
  | map => exact h3 _ rfl
  | struct => exact h4 _ rfl
  | omits => exact h4 _ rfl

theorem appendFloat64 {U : Univ} (hF : Floats64 U) (out : Bytes) (f : Flt) :
    NumJson.appendFloat out f 64 (U.fmtFloat f 64) = out ++ floatText64 U f := by
  have hlen : NumJson.fmtByte f 64 = 101 → 4 ≤ (U.fmtFloat f 64 101).length := by
    intro h
    cases f with
    | nan => cases h
    | num neg x =>
      cases x with
      | inf => rw [hF.inf]; cases neg <;> decide
      | fin m e =>
        obtain ⟨x, sg, ds, hx, _, he, hd, ht⟩ := hF.exp neg m e
        rw [ht, Props.text_split x he]; simp; omega
  unfold floatText64 NumJson.appendFloat
  by_cases h : NumJson.fmtByte f 64 = 101
  · simp only [h, if_true]
    rw [Props.fixExp_append _ _ (hlen h), List.nil_append]
  · simp only [if_neg h, List.nil_append]

/-! ## Methods -/

theorem callStops_one {U : Univ} {m : Meth} {t : Ty} {v : GV} {s s' : Stop} (h : CallStops U m t v s) (h' : CallStops U m t v s') : s = s' := by
  cases s <;> cases s' <;> first | rfl | skip
  · have := h.1; rw [show U.panics m t v [] = true from h'] at this; cases this
  · have := h'.1; rw [show U.panics m t v [] = true from h] at this; cases this

theorem run_method {E : Env} (hH : Hooks E.U) {o : GenOptions} {ps : List Bytes} {t : Ty} (hm : Marshals E.U t) (v : GV) :
    Writes (fun s => GStops E o s t v) (GEnc E o ps t v) ((methodBlock E.U t).run E.U t v) := by
  have hdyn : ∀ (a : Bool), (RV.mk t v a).dyn E.U = some (t, v) := by
    intro a
    unfold RV.dyn
    cases hb : E.U.base t with
    | iface m i => exact absurd (hH.iface t m i hb) hm
    | _ => simp
  have inv : ∀ {s}, GStops E o s t v → (E.U.impl t .appender = true ∧ CallStops E.U .appender t v s) ∨
      (E.U.impl t .appender = false ∧ E.U.impl t .jsonMarshaler = true ∧ CallStops E.U .jsonMarshaler t v s) ∨
      (E.U.impl t .appender = false ∧ E.U.impl t .jsonMarshaler = false ∧ CallStops E.U .textMarshaler t v s) := by
    intro s h
    cases h with
    | appender h1 h2 => exact .inl ⟨h1, h2⟩
    | json h1 h2 h3 => exact .inr (.inl ⟨h1, h2, h3⟩)
    | text h1 h2 _ h3 => exact .inr (.inr ⟨h1, h2, h3⟩)
    | ptr h => exact absurd h hm
    | slice h => exact absurd h hm
    | map h => exact absurd h hm
    | struct h => exact absurd h hm
    | omits h => exact absurd h hm
  unfold methodBlock
  cases h1 : E.U.impl t .appender
  · cases h2 : E.U.impl t .jsonMarshaler
    · cases h3 : E.U.impl t .textMarshaler
      · exact absurd ⟨h1, h2, h3⟩ hm
      · simp only [Bool.false_eq_true, if_false]
        cases hp : E.U.panics .textMarshaler t v [] with
        | true =>
          refine .inr ⟨.panic, .text h1 h2 h3 hp, fun out => ?_⟩
          change _ = _
          rw [ABlock.run, callMethod, if_pos h3, encMethod, hdyn]; simp [h3, hp]
        | false =>
          cases hs : E.U.marshal .textMarshaler t v with
          | none =>
            exact .inr ⟨.error, .text h1 h2 h3 ⟨hp, by simpa using hs⟩, fun out => ⟨out, by
              rw [ABlock.run, callMethod, if_pos h3, encMethod, hdyn]; simp [h3, hs, hp]⟩⟩
          | some s =>
            refine .inl ⟨.str s, .text h1 h2 h3 hs, fun q h => ?_, fun out => ?_⟩
            · rcases inv h with ⟨h, _⟩ | ⟨_, h, _⟩ | ⟨_, _, h⟩
              · rw [h1] at h; cases h
              · rw [h2] at h; cases h
              · cases q with
                | error => have := h.2; simp [hs] at this
                | panic => rw [show _ = true from h] at hp; cases hp
            · rw [ABlock.run, callMethod, if_pos h3, encMethod, hdyn, ser_str]; simp [h3, hs, hp]
    · simp only [Bool.false_eq_true, if_false, if_true]
      cases hp : E.U.panics .jsonMarshaler t v [] with
      | true =>
        refine .inr ⟨.panic, .json h1 h2 hp, fun out => ?_⟩
        change _ = _
        rw [ABlock.run, callMethod, if_pos h2, encMethod, hdyn]; simp [h2, hp]
      | false =>
        cases hs : E.U.marshal .jsonMarshaler t v with
        | none =>
          exact .inr ⟨.error, .json h1 h2 ⟨hp, by simpa using hs⟩, fun out => ⟨out, by
            rw [ABlock.run, callMethod, if_pos h2, encMethod, hdyn]; simp [h2, hs, hp]⟩⟩
        | some s =>
          obtain ⟨j, hj, rfl⟩ := hH.json t v s h2 hp hs
          refine .inl ⟨j, .json h1 h2 hj hs, fun q h => ?_, fun out => ?_⟩
          · rcases inv h with ⟨h, _⟩ | ⟨_, _, h⟩ | ⟨_, h, _⟩
            · rw [h1] at h; cases h
            · cases q with
              | error => have := h.2; simp [hs] at this
              | panic => rw [show _ = true from h] at hp; cases hp
            · rw [h2] at h; cases h
          · rw [ABlock.run, callMethod, if_pos h2, encMethod, hdyn]; simp [h2, hs, hp]
  · simp only [if_true]
    cases hp : E.U.panics .appender t v [] with
    | true =>
      refine .inr ⟨.panic, .appender h1 hp, fun out => ?_⟩
      change _ = _
      rw [ABlock.run, callMethod, if_pos h1, encMethod, hdyn]; simp [h1, hH.same t v out, hp]
    | false =>
      rcases hH.append t v h1 hp with ⟨j, hr, hj⟩ | hj
      · refine .inl ⟨j, .appender h1 hr hj, fun q h => ?_, fun out => ?_⟩
        · rcases inv h with ⟨_, h⟩ | ⟨h, _⟩ | ⟨h, _⟩
          · cases q with
            | error => have := h.2; simp [hj] at this
            | panic => rw [show _ = true from h] at hp; cases hp
          · rw [h1] at h; cases h
          · rw [h1] at h; cases h
        · rw [ABlock.run, callMethod, if_pos h1, encMethod, hdyn]; simp [h1, hj, hH.same t v out, hp]
      · refine .inr ⟨.error, .appender h1 ⟨hp, ?_⟩, fun out => ?_⟩
        · rw [if_pos rfl]
          intro out
          obtain ⟨out', h⟩ := hj out; rw [h]
        · obtain ⟨out', h⟩ := hj out
          exact ⟨out', by rw [ABlock.run, callMethod, if_pos h1, encMethod, hdyn]; simp [h1, h, hH.same t v out, hp]⟩

/-! ## Elements and entries -/

theorem runElems_spec {E : Env} {o : GenOptions} {ps : List Bytes} {t : Ty} {rec : GV → Bytes → Out Bytes} : ∀ (xs : List GV),
    (∀ x ∈ xs, Writes (fun s => GStops E o s t x) (GEnc E o ps t x) (rec x)) →
    (∃ js, GEncElems E o ps t xs js ∧ (∀ x ∈ xs, ∀ s, ¬ GStops E o s t x) ∧
      ∀ first out, runElems rec first xs out = .done (out ++ sepElems first js) none) ∨
    ∃ s, (∃ x ∈ xs, GStops E o s t x) ∧ ∀ first out, Stopped s (runElems rec first xs out)
  | [], _ => .inl ⟨[], .nil, by simp, fun first out => by simp [runElems, sepElems_nil]⟩
  | x :: xs, h => by
    rcases h x (by simp) with ⟨j, hj, hq, h1⟩ | ⟨s, hx, h1⟩
    · rcases runElems_spec xs (fun y hy => h y (by simp [hy])) with ⟨js, hjs, hqs, h2⟩ | ⟨s, ⟨y, hy, hx⟩, h2⟩
      · refine .inl ⟨j :: js, .cons hj hjs, List.forall_mem_cons.2 ⟨hq, hqs⟩, fun first out => ?_⟩
        rw [runElems, h1, next, h2, sepElems_cons]
        cases first <;> simp
      · refine .inr ⟨s, ⟨y, by simp [hy], hx⟩, fun first out => ?_⟩
        rw [runElems, h1, next]
        exact h2 _ _
    · refine .inr ⟨s, ⟨x, by simp, hx⟩, fun first out => ?_⟩
      rw [runElems]
      exact (h1 _).next

/-- What is written after the opening of an object. -/
def tailText (first : Bool) (ms : List (Bytes × JVal)) : Bytes := (if first then [123] else []) ++ sepMembers first ms ++ [125]

theorem tailText_nil (first : Bool) : tailText first [] = if first then [123, 125] else [125] := by
  cases first <;> simp [tailText, sepMembers_nil]

theorem tailText_cons (first : Bool) (k : Bytes) (j : JVal) (ms : List (Bytes × JVal)) :
    tailText first ((k, j) :: ms) = [if first then 123 else 44, 34] ++ k ++ [34, 58] ++ j.ser ++ tailText false ms := by
  cases first <;> simp [tailText, sepMembers_cons]

theorem tailText_true (ms : List (Bytes × JVal)) : tailText true ms = (JVal.obj ms).ser := by
  rw [ser_obj, tailText, sepMembers_true]; simp

theorem runEntries_spec {E : Env} {o : GenOptions} {ps : List Bytes} {t : Ty} {key elem : GV → Bytes → Out Bytes} : ∀ (es : List (GV × GV)),
    (∀ p ∈ es, ∃ s, keyText E.U p.1 = some s ∧ ∀ out, key p.1 out = .done (out ++ s) none) →
    (∀ p ∈ es, Writes (fun s => GStops E o s t p.2) (GEnc E o ps t p.2) (elem p.2)) →
    (∃ ms, GEncEntries E o ps t es ms ∧ (∀ p ∈ es, ∀ s, ¬ GStops E o s t p.2) ∧
      ∀ first out, runEntries key elem first es out = .done (out ++ tailText first ms) none) ∨
    ∃ s, (∃ p ∈ es, GStops E o s t p.2) ∧ ∀ first out, Stopped s (runEntries key elem first es out)
  | [], _, _ => .inl ⟨[], .nil, by simp, fun first out => by rw [runEntries, tailText_nil]⟩
  | (k, x) :: es, hk, h => by
    obtain ⟨s, hs, hk1⟩ := hk (k, x) (by simp)
    dsimp only at hs hk1
    rcases h (k, x) (by simp) with ⟨j, hj, hq, h1⟩ | ⟨r, hx, h1⟩
    · rcases runEntries_spec es (fun y hy => hk y (by simp [hy])) (fun y hy => h y (by simp [hy])) with ⟨ms, hms, hqs, h2⟩ | ⟨r, ⟨y, hy, hx⟩, h2⟩
      · refine .inl ⟨(s, j) :: ms, .cons hs hj hms, List.forall_mem_cons.2 ⟨hq, hqs⟩, fun first out => ?_⟩
        rw [runEntries, hk1, next]
        rw [h1, next, h2, tailText_cons]
        simp
      · refine .inr ⟨r, ⟨y, by simp [hy], hx⟩, fun first out => ?_⟩
        rw [runEntries, hk1, next]
        rw [h1, next]
        exact h2 _ _
    · refine .inr ⟨r, ⟨(k, x), by simp, hx⟩, fun first out => ?_⟩
      rw [runEntries, hk1, next]
      exact (h1 _).next

/-! ## Fields -/

theorem getPath_append : ∀ {p q : List Nat} {v : GV}, getPath v (p ++ q) = (getPath v p).bind fun x => getPath x q := by
  intro p
  induction p with
  | nil => intros; simp [getPath]
  | cons i is ih =>
    intro q v
    rw [List.cons_append]
    cases v with
    | struct fs =>
      rw [getPath, getPath]
      cases fs[i]? with
      | none => rfl
      | some x => exact ih
    | ptr x =>
      cases x with
      | struct fs =>
        rw [getPath, getPath]
        cases fs[i]? with
        | none => rfl
        | some x => exact ih
      | _ => simp [getPath]
    | _ => simp [getPath]

/-- One step of a selector. -/
theorem step_field {U : Univ} {t ti : Ty} {i : Nat} {v : GV} (hv : HasTy U t v) (hn : v ≠ .nilPtr) (hf : fieldTy U t i = some ti) :
    ∃ x, HasTy U ti x ∧ (∀ is, getPath v (i :: is) = getPath x is) ∧ ∀ is, look v (i :: is) = look x is := by
  unfold fieldTy at hf
  cases hb : U.base t with
  | struct j =>
    simp only [hb] at hf
    obtain ⟨fs, rfl, hl, hall⟩ := hv.inv_struct hb
    cases hfi : (U.fields j)[i]? with
    | none => rw [hfi] at hf; cases hf
    | some f =>
      rw [hfi] at hf
      cases hf
      have hlt : i < fs.length := by rw [hl]; exact (List.getElem?_eq_some_iff.1 hfi).1
      have hx : fs[i]? = some fs[i] := List.getElem?_eq_getElem hlt
      exact ⟨fs[i], hall i f _ hfi hx, fun is => by rw [getPath, hx], fun is => by rw [look, hx]⟩
  | ptr e =>
    simp only [hb] at hf
    rcases hv.inv_ptr hb with rfl | ⟨y, rfl, hy⟩
    · exact absurd rfl hn
    · cases hbe : U.base e with
      | struct j =>
        simp only [hbe] at hf
        obtain ⟨fs, rfl, hl, hall⟩ := hy.inv_struct hbe
        cases hfi : (U.fields j)[i]? with
        | none => rw [hfi] at hf; cases hf
        | some f =>
          rw [hfi] at hf
          cases hf
          have hlt : i < fs.length := by rw [hl]; exact (List.getElem?_eq_some_iff.1 hfi).1
          have hx : fs[i]? = some fs[i] := List.getElem?_eq_getElem hlt
          exact ⟨fs[i], hall i f _ hfi hx, fun is => by rw [getPath, hx], fun is => by rw [look, hx]⟩
      | _ => simp only [hbe] at hf; cases hf
  | _ => simp only [hb] at hf; cases hf

theorem nil_iff {U : Univ} {t e : Ty} {v : GV} (hv : HasTy U t v) (hb : U.base t = .ptr e) : GV.isNil v = true ↔ v = .nilPtr := by
  rcases hv.inv_ptr hb with rfl | ⟨y, rfl, -⟩
  · simp [GV.isNil]
  · simp [GV.isNil]

theorem not_nilPtr {U : Univ} {t : Ty} {v : GV} (hv : HasTy U t v) (hb : ∀ e, U.base t ≠ .ptr e) : v ≠ .nilPtr := by
  rintro rfl
  cases hv with
  | nilPtr h => exact hb _ h

theorem look_nil (is : List Nat) : look .nilPtr is = none := by cases is <;> rfl

/-- The guards find out whether there is a nil pointer on the path. -/
theorem guards_spec {U : Univ} {V : GV} : ∀ {is pre : List Nat} {t t' : Ty} {v : GV}, getPath V pre = some v → HasTy U t v → v ≠ .nilPtr →
    pathTy U t is = some t' →
    guardsHold V (guardsOf U t pre is) = some (look v is).isSome ∧ ∀ x, look v is = some x → getPath V (pre ++ is) = some x ∧ HasTy U t' x := by
  intro is
  induction is with
  | nil =>
    intro pre t t' v hV hv hn hp
    cases hp
    have hl : look v [] = some v := by cases v <;> first | rfl | exact absurd rfl hn
    rw [hl]
    refine ⟨rfl, fun x hx => ?_⟩
    cases hx
    exact ⟨by simpa using hV, hv⟩
  | cons i is ih =>
    intro pre t t' v hV hv hn hp
    rw [pathTy] at hp
    cases hf : fieldTy U t i with
    | none => rw [hf] at hp; cases hp
    | some ti =>
      rw [hf] at hp
      obtain ⟨x, hx, hg, hl⟩ := step_field hv hn hf
      have hVx : getPath V (pre ++ [i]) = some x := by rw [getPath_append, hV]; simp [hg, getPath]
      rw [hl, guardsOf, hf]
      have happ : pre ++ i :: is = (pre ++ [i]) ++ is := by simp
      rw [happ]
      by_cases hb : ∃ e, U.base ti = .ptr e
      · obtain ⟨e, hb⟩ := hb
        simp only [hb, List.singleton_append, guardsHold, hVx]
        by_cases hnil : x = .nilPtr
        · subst hnil
          rw [look_nil]
          simp [GV.isNil]
        · rw [if_neg (fun h => hnil ((nil_iff hx hb).1 h))]
          exact ih hVx hx hnil hp
      · have hb : ∀ e, U.base ti ≠ .ptr e := fun e h => hb ⟨e, h⟩
        simp only [List.nil_append]
        exact ih hVx hx (not_nilPtr hx hb) hp

theorem base_not_named {U : Univ} (hU : U.Ok) (t : Ty) (i : Nat) : U.base t ≠ .named i := by
  cases t with
  | named k => exact hU.under_base k i
  | _ => simp [Univ.base]

/-- The condition of a field, if there is one. -/
def condHolds (U : Univ) (x : GV) : Option Cond → Bool
  | some c => c.holds U x
  | none => true

theorem cond_holds {E : Env} (hU : E.U.Ok) {o : GenOptions} {t : Ty} {c : Option Cond} {x : GV} (hx : HasTy E.U t x) (h : typeOmiter E o t = .ok c) :
    condHolds E.U x c = !omitted E o t x := by
  unfold typeOmiter at h
  unfold condHolds
  unfold omitted
  cases hm : E.U.omitMethod o.omitMethod t with
  | some f =>
    rw [hm] at h
    cases h
    simp [Cond.holds, hm]
  | none =>
    rw [hm] at h
    simp only [Option.isSome_none, Bool.false_eq_true, if_false] at h
    cases hb : E.U.base t with
    | bool =>
      simp only [hb] at h; cases h
      obtain ⟨b, rfl⟩ := hx.inv_bool hb
      simp [Cond.holds, GV.empty]
    | int k =>
      simp only [hb] at h; cases h
      obtain ⟨b, rfl⟩ := hx.inv_int hb
      simp [Cond.holds, GV.empty, GV.isZeroNum]
    | uint k =>
      simp only [hb] at h; cases h
      obtain ⟨b, rfl⟩ := hx.inv_uint hb
      simp [Cond.holds, GV.empty, GV.isZeroNum]
    | float k =>
      simp only [hb] at h; cases h
      obtain ⟨f, rfl⟩ := hx.inv_float hb
      cases f with
      | nan => simp [Cond.holds, GV.empty, GV.isZeroNum]
      | num neg y => cases y <;> simp [Cond.holds, GV.empty, GV.isZeroNum]
    | string =>
      simp only [hb] at h; cases h
      obtain ⟨s, rfl⟩ := hx.inv_str hb
      cases s <;> simp [Cond.holds, GV.empty, GV.len]
    | ptr e =>
      simp only [hb] at h; cases h
      rcases hx.inv_ptr hb with rfl | ⟨y, rfl, -⟩ <;> simp [Cond.holds, GV.empty, GV.isNil]
    | slice e =>
      simp only [hb] at h; cases h
      cases hx with
      | nilSlice => simp [Cond.holds, GV.empty, GV.len]
      | @slice _ _ arr len _ => cases len <;> simp [Cond.holds, GV.empty, GV.len]
      | _ hb' => rw [hb] at hb'; cases hb'
    | map k e =>
      simp only [hb] at h; cases h
      cases hx with
      | nilMap => simp [Cond.holds, GV.empty, GV.len]
      | @map _ _ _ es _ => cases es <;> simp [Cond.holds, GV.empty, GV.len]
      | _ hb' => rw [hb] at hb'; cases hb'
    | iface m i =>
      simp only [hb] at h
      by_cases h0 : m = 0
      · rw [if_pos h0] at h
        cases h
        cases hx with
        | nilIface => simp [Cond.holds, GV.empty, GV.isNil, h0]
        | iface => simp [Cond.holds, GV.empty, GV.isNil]
        | _ hb' => rw [hb] at hb'; cases hb'
      · rw [if_neg h0] at h
        cases h
        simp [h0]
    | struct j => simp only [hb] at h; cases h
    | array n e => simp only [hb] at h; cases h; rfl
    | other => simp only [hb] at h; cases h; rfl
    | named i => exact absurd hb (base_not_named hU t i)

/-- The condition of a field panics. -/
def condPanics (U : Univ) (x : GV) : Option Cond → Bool
  | some c => c.panics U x
  | none => false

theorem cond_panics {E : Env} {o : GenOptions} {t : Ty} {c : Option Cond} {x : GV} (h : typeOmiter E o t = .ok c) :
    condPanics E.U x c = true ↔ (E.U.omitMethod o.omitMethod t).isSome = true ∧ E.U.omitPanics o.omitMethod t x = true := by
  unfold typeOmiter at h
  cases hm : E.U.omitMethod o.omitMethod t with
  | some f =>
    rw [hm] at h
    cases h
    simp [condPanics, Cond.panics]
  | none =>
    rw [hm] at h
    simp only [Option.isSome_none, Bool.false_eq_true, if_false, false_and, iff_false] at h ⊢
    split at h <;> first | (split at h <;> cases h <;> simp [condPanics, Cond.panics]) | (cases h <;> simp [condPanics, Cond.panics])

/-- A method that is called for one of the fields stops. -/
def FieldStops (E : Env) (o : GenOptions) (v : GV) (ps : List Pick) (s : Stop) : Prop :=
  ∃ p ∈ ps, ∃ x, look v p.field.path = some x ∧ (((b!"omitempty" ∈ p.params → omitted E o p.field.typ x = false) ∧ GStops E o s p.field.typ x) ∨
    (s = .panic ∧ b!"omitempty" ∈ p.params ∧ (E.U.omitMethod o.omitMethod p.field.typ).isSome = true ∧
      E.U.omitPanics o.omitMethod p.field.typ x = true))

theorem FieldStops.cons {E : Env} {o : GenOptions} {v : GV} {p : Pick} {ps : List Pick} {s : Stop} (h : FieldStops E o v ps s) :
    FieldStops E o v (p :: ps) s := by
  obtain ⟨q, hq, h⟩ := h
  exact ⟨q, by simp [hq], h⟩

theorem noFieldStops_cons {E : Env} {o : GenOptions} {v : GV} {p : Pick} {ps : List Pick} {s : Stop} (h : ¬ FieldStops E o v ps s)
    (hp : ¬ FieldStops E o v [p] s) : ¬ FieldStops E o v (p :: ps) s := by
  rintro ⟨q, hq, hx⟩
  rcases List.mem_cons.1 hq with rfl | hq
  · exact hp ⟨q, by simp, hx⟩
  · exact h ⟨q, hq, hx⟩

/-- The fields of a struct, through a variable of the struct type or a pointer. -/
theorem fields_run {E : Env} (hE : E.Ok) {o : GenOptions} {rec : Ty → List Bytes → Res ABlock} {j : Nat} {T : Ty} (hs : SameSel E.U T j)
    {V : GV} (hV : HasTy E.U T V) (hn : V ≠ .nilPtr) {fs : List GV} (hfs : ∀ p, p ≠ [] → look V p = look (.struct fs) p)
    (ih : ∀ {t : Ty} {ps : List Bytes} {b : ABlock} {x : GV}, rec t ps = .ok b → ACompiles E o ps t → HasTy E.U t x →
      NumKeys E o t x → Writes (fun s => GStops E o s t x) (GEnc E o ps t x) (b.run E.U t x)) :
    ∀ {ps : List Pick} {bs : AFields}, (∀ p ∈ ps, p.field ∈ (E.fields j).flatten) → (∀ p ∈ ps, ACompiles E o p.params p.field.typ) →
      (∀ p ∈ ps, ∀ x, look (.struct fs) p.field.path = some x → NumKeys E o p.field.typ x) →
      pickFields E o rec (.struct j) ps = .ok bs →
      (∃ ms, GEncFields E o (.struct fs) ps ms ∧ (∀ s, ¬ FieldStops E o (.struct fs) ps s) ∧
        ∀ first out, bs.run E.U T V first out = .done (out ++ tailText first ms) none) ∨
      ∃ s, FieldStops E o (.struct fs) ps s ∧ ∀ first out, Stopped s (bs.run E.U T V first out) := by
  intro ps
  induction ps with
  | nil =>
    intro bs _ _ _ h
    cases h
    exact .inl ⟨[], .nil, (by rintro s ⟨q, hq, -⟩; cases hq), fun first out => by rw [AFields.run, tailText_nil]⟩
  | cons p ps ih2 =>
    intro bs hf hc hk h
    rw [List.forall_mem_cons] at hf hc hk
    rw [pickFields] at h
    obtain ⟨y, rest, h1, h2, rfl⟩ := both_ok.1 h
    obtain ⟨b, c, h3, h4, rfl⟩ := both_ok.1 h1
    have hpath := hE.path j _ hf.1
    have hne := hE.nonempty j _ hf.1
    have hguard : guardsOf E.U (.struct j) [] p.field.path = guardsOf E.U T [] p.field.path := by
      cases hp : p.field.path with
      | nil => rfl
      | cons i is => rw [guardsOf, guardsOf, hs.fieldTy]
    have hpathT : pathTy E.U T p.field.path = some p.field.typ := by rw [hs.pathTy hne, hpath]
    obtain ⟨hg1, hg2⟩ := guards_spec (V := V) (pre := []) rfl hV hn hpathT
    rw [hfs _ hne] at hg1 hg2
    have ihr := ih2 hf.2 hc.2 hk.2 h2
    dsimp only
    have hrun : ∀ first out, (AFields.cons p.name p.field.path (guardsOf E.U (.struct j) [] p.field.path) c b rest).run E.U T V first out =
        match look (.struct fs) p.field.path with
        | none => rest.run E.U T V first out
        | some x => if condPanics E.U x c then .panic else if condHolds E.U x c then
            next (b.run E.U p.field.typ x (out ++ [if first then 123 else 44, 34] ++ p.name ++ [34, 58])) fun out => rest.run E.U T V false out
          else rest.run E.U T V first out := by
      intro first out
      rw [AFields.run, hguard, hg1]
      cases hl : look (.struct fs) p.field.path with
      | none => rfl
      | some x =>
        obtain ⟨hx, -⟩ := hg2 x hl
        rw [List.nil_append] at hx
        rw [hpathT, hx]
        dsimp only
        cases c <;> rfl
    have no1 : ∀ {x}, look (.struct fs) p.field.path = some x → (∀ s, (b!"omitempty" ∈ p.params → omitted E o p.field.typ x = false) → ¬ GStops E o s p.field.typ x) →
        condPanics E.U x c = false → ∀ s, ¬ FieldStops E o (.struct fs) [p] s := by
      rintro x hl g1 g2 s ⟨q, hq, x', hx', hh⟩
      rw [List.mem_singleton] at hq
      subst hq
      rw [hl] at hx'; cases hx'
      rcases hh with ⟨a1, a2⟩ | ⟨-, a1, a2⟩
      · exact g1 s a1 a2
      · rw [if_pos a1] at h4
        rw [(cond_panics h4).2 a2] at g2
        cases g2
    cases hl : look (.struct fs) p.field.path with
    | none =>
      simp only [hl] at hrun
      rcases ihr with ⟨ms, h5, hq, h6⟩ | ⟨s, hx, h5⟩
      · refine .inl ⟨ms, .absent hl h5, fun s => noFieldStops_cons (hq s) ?_, fun first out => by rw [hrun]; exact h6 first out⟩
        rintro ⟨q, hq, x', hx', -⟩
        rw [List.mem_singleton] at hq
        subst hq
        rw [hl] at hx'; cases hx'
      · exact .inr ⟨s, hx.cons, fun first out => by rw [hrun]; exact h5 first out⟩
    | some x =>
      simp only [hl] at hrun
      obtain ⟨-, hx⟩ := hg2 x hl
      cases hcp : condPanics E.U x c with
      | true =>
        rw [hcp] at hrun
        simp only [if_true] at hrun
        refine .inr ⟨.panic, ?_, hrun⟩
        split at h4
        · rename_i ho
          exact ⟨p, by simp, x, hl, .inr ⟨rfl, ho, (cond_panics h4).1 hcp⟩⟩
        · cases h4
          cases hcp
      | false =>
      rw [hcp] at hrun
      simp only [Bool.false_eq_true, if_false] at hrun
      have keep : (∀ first out, (AFields.cons p.name p.field.path (guardsOf E.U (.struct j) [] p.field.path) c b rest).run E.U T V first out =
            next (b.run E.U p.field.typ x (out ++ [if first then 123 else 44, 34] ++ p.name ++ [34, 58])) fun out => rest.run E.U T V false out) →
          (b!"omitempty" ∈ p.params → omitted E o p.field.typ x = false) →
          (∃ ms, GEncFields E o (.struct fs) (p :: ps) ms ∧ (∀ s, ¬ FieldStops E o (.struct fs) (p :: ps) s) ∧
            ∀ first out, (AFields.cons p.name p.field.path (guardsOf E.U (.struct j) [] p.field.path) c b rest).run E.U T V first out = .done (out ++ tailText first ms) none) ∨
          ∃ s, FieldStops E o (.struct fs) (p :: ps) s ∧
            ∀ first out, Stopped s ((AFields.cons p.name p.field.path (guardsOf E.U (.struct j) [] p.field.path) c b rest).run E.U T V first out) := by
        intro hrun hom
        rcases ih h3 hc.1 hx (hk.1 x hl) with ⟨jv, h5, hq, h6⟩ | ⟨s, hx, h5⟩
        · rcases ihr with ⟨ms, h7, hqs, h8⟩ | ⟨s, hx, h7⟩
          · refine .inl ⟨(p.name, jv) :: ms, .present hl hom h5 h7, fun s => noFieldStops_cons (hqs s) (no1 hl (fun s _ => hq s) hcp s), fun first out => ?_⟩
            rw [hrun, h6, next, h8, tailText_cons]
            simp
          · refine .inr ⟨s, hx.cons, fun first out => ?_⟩
            rw [hrun, h6, next]
            exact h7 _ _
        · refine .inr ⟨s, ⟨p, by simp, x, hl, .inl ⟨hom, hx⟩⟩, fun first out => ?_⟩
          rw [hrun]
          exact (h5 _).next
      split at h4
      · rename_i ho
        have hc := cond_holds hE.univ hx h4
        simp only [hc] at hrun
        cases hom : omitted E o p.field.typ x with
        | true =>
          rw [hom] at hrun
          simp only [Bool.not_true, Bool.false_eq_true, if_false] at hrun
          rcases ihr with ⟨ms, h5, hq, h6⟩ | ⟨s, hx, h5⟩
          · exact .inl ⟨ms, .omitted hl ho hom h5, fun s => noFieldStops_cons (hq s) (no1 hl (fun s h => by rw [hom] at h; cases h ho) hcp s),
              fun first out => by rw [hrun]; exact h6 first out⟩
          · exact .inr ⟨s, hx.cons, fun first out => by rw [hrun]; exact h5 first out⟩
        | false =>
          rw [hom] at hrun
          simp only [Bool.not_false, if_true] at hrun
          exact keep hrun fun _ => hom
      · rename_i ho
        cases h4
        exact keep (by simpa [condHolds] using hrun) fun h => absurd h ho

theorem key_run {E : Env} (hF : Floats64 E.U) {o : GenOptions} {fuel : Nat} {k : Ty} {b : ABlock} {v : GV} {s : Bytes} (hm : NoMarshal E.U k)
    (h : typeAppender E o fuel k [] = .ok b) (hv : HasTy E.U k v) (hs : keyText E.U v = some s) (out : Bytes) :
    b.run E.U k v out = .done (out ++ s) none := by
  cases fuel with
  | zero => cases h
  | succ fuel =>
    rw [typeAppender_plain hm] at h
    unfold plainBlock at h
    cases v with
    | bool x =>
      cases hv with
      | bool hb => rw [hb] at h; cases h; cases hs; cases x <;> simp [ABlock.run] <;> rfl
    | int i =>
      cases hv with
      | int hb => rw [hb] at h; cases h; cases hs; simp [ABlock.run]
    | uint i =>
      cases hv with
      | uint hb => rw [hb] at h; cases h; cases hs; simp [ABlock.run]
    | float f =>
      cases hv with
      | float hb => rw [hb] at h; cases h; cases hs; simp [ABlock.run, appendFloat64 hF]
    | _ => cases hs

/-- Behind a chain of pointers to a struct without fields, the code writes an empty object. -/
theorem void_run {E : Env} {o : GenOptions} {e : Ty} (h : VoidTy E o e) : ∀ {fuel : Nat} {ps : List Bytes} {b : ABlock} {T : Ty} {v : GV},
    typeAppender E o fuel e ps = .ok b → GV.isNil v = false → ∀ out, b.run E.U T v out = .done (out ++ [123, 125]) none := by
  have base : ∀ {j : Nat} {fuel : Nat} {ps : List Bytes} {b : ABlock} {T : Ty} {v : GV}, NoMarshal E.U (.struct j) → appendPicks E o j = [] →
      typeAppender E o fuel (.struct j) ps = .ok b → ∀ out, b.run E.U T v out = .done (out ++ [123, 125]) none := by
    intro j fuel ps b T v h1 h2 h out
    cases fuel with
    | zero => cases h
    | succ fuel =>
      rw [typeAppender_plain h1] at h
      unfold plainBlock at h
      simp only [Univ.base, h2] at h
      cases h
      simp [ABlock.run, AFields.run]
  rcases h with ⟨j, rfl, h1, h2⟩ | h
  · intro fuel ps b T v h _ out; exact base h1 h2 h out
  · induction h with
    | struct hb hm h1 h2 =>
      intro fuel ps b T v h hv out
      cases fuel with
      | zero => cases h
      | succ fuel =>
        rw [typeAppender_plain hm] at h
        unfold plainBlock at h
        rw [hb] at h
        obtain ⟨b', h0, rfl⟩ := mapR_ok.1 h
        rw [ABlock.run, hv]
        simp only [Bool.false_eq_true, if_false]
        exact base h1 h2 h0 out
    | ptr hb hm _ ih =>
      intro fuel ps b T v h hv out
      cases fuel with
      | zero => cases h
      | succ fuel =>
        rw [typeAppender_plain hm] at h
        unfold plainBlock at h
        rw [hb] at h
        obtain ⟨b', h0, rfl⟩ := mapR_ok.1 h
        rw [ABlock.run, hv]
        simp only [Bool.false_eq_true, if_false]
        exact ih h0 hv out

theorem struct_run {E : Env} (hE : E.Ok) {o : GenOptions} {fuel : Nat} {j : Nat} {T : Ty} (hs : SameSel E.U T j) (hm : NoMarshal E.U (.struct j))
    {V : GV} (hV : HasTy E.U T V) (hn : V ≠ .nilPtr) {fs : List GV} (hfs : ∀ p, p ≠ [] → look V p = look (.struct fs) p)
    (ih : ∀ {t : Ty} {ps : List Bytes} {b : ABlock} {x : GV}, typeAppender E o fuel t ps = .ok b → ACompiles E o ps t → HasTy E.U t x →
      NumKeys E o t x → Writes (fun s => GStops E o s t x) (GEnc E o ps t x) (b.run E.U t x))
    {ps : List Bytes} {b : ABlock} (h : typeAppender E o (fuel + 1) (.struct j) ps = .ok b) (hc : ACompiles E o ps (.struct j))
    (hk : NumKeys E o (.struct j) (.struct fs)) : Writes (fun s => GStops E o s (.struct j) (.struct fs)) (GEnc E o ps (.struct j) (.struct fs)) (b.run E.U T V) := by
  rw [typeAppender_plain hm] at h
  unfold plainBlock at h
  simp only [Univ.base] at h
  obtain ⟨bs, h0, rfl⟩ := mapR_ok.1 h
  have hc := hc.inv_struct hm
  have hk : ∀ p ∈ appendPicks E o j, ∀ x, look (.struct fs) p.field.path = some x → NumKeys E o p.field.typ x := by
    cases hk with
    | method h => exact absurd hm h
    | leaf _ _ _ h => exact absurd rfl (h j)
    | struct h => exact h
  rcases fields_run hE hs hV hn hfs ih (fun p hp => (mem_appendPicks hp).1) (fun p hp => (hc p hp).1) hk h0 with ⟨ms, h1, hq, h2⟩ | ⟨s, hx, h1⟩
  · refine .inl ⟨.obj ms, .struct hm h1, fun s h => ?_, fun out => ?_⟩
    · cases h with
      | appender h => rw [hm.1] at h; cases h
      | json _ h => rw [hm.2.1] at h; cases h
      | text _ _ h => rw [hm.2.2] at h; cases h
      | struct _ hp hl ho hx => exact hq s ⟨_, hp, _, hl, .inl ⟨ho, hx⟩⟩
      | omits _ hp hl ho h1 h2 => exact hq _ ⟨_, hp, _, hl, .inr ⟨rfl, ho, h1, h2⟩⟩
    · rw [ABlock.run, h2, tailText_true]
  · obtain ⟨p, hp, x, hl, ⟨ho, hx⟩ | ⟨rfl, ho, hx, hy⟩⟩ := hx
    · refine .inr ⟨s, .struct hm hp hl ho hx, fun out => ?_⟩
      rw [ABlock.run]
      exact h1 _ _
    · refine .inr ⟨.panic, .omits hm hp hl ho hx hy, fun out => ?_⟩
      rw [ABlock.run]
      exact h1 _ _

theorem look_ptr (fs : List GV) (p : List Nat) (hp : p ≠ []) : look (.ptr (.struct fs)) p = look (.struct fs) p := by
  cases p with
  | nil => exact absurd rfl hp
  | cons i is => rw [look, look]

theorem run_nilSlice {U : Univ} {b : ABlock} {t e : Ty} (hb : U.base t = .slice e) (out : Bytes) :
    (ABlock.slice b).run U t .nilSlice out = .done (out ++ [91, 93]) none := by
  unfold ABlock.run; rw [hb]

theorem run_slice {U : Univ} {b : ABlock} {t e : Ty} (hb : U.base t = .slice e) (arr : List GV) (len : Nat) (out : Bytes) :
    (ABlock.slice b).run U t (.slice arr len) out =
      next (runElems (b.run U e) true (arr.take len) (out ++ [91])) fun out => .done (out ++ [93]) none := by
  rw [ABlock.run.eq_def]; simp only [hb]

theorem run_nilMap {U : Univ} {b b' : ABlock} {t k e : Ty} (hb : U.base t = .map k e) (out : Bytes) :
    (ABlock.map b b').run U t .nilMap out = .done (out ++ [123, 125]) none := by
  unfold ABlock.run; rw [hb]

theorem run_map {U : Univ} {b b' : ABlock} {t k e : Ty} (hb : U.base t = .map k e) (es : List (GV × GV)) (out : Bytes) :
    (ABlock.map b b').run U t (.map es) out = runEntries (b.run U k) (b'.run U e) true es out := by
  rw [ABlock.run.eq_def]; simp only [hb]

/-- What the generated block does. -/
theorem run_spec {E : Env} (hE : E.Ok) (hH : Hooks E.U) (hF : Floats64 E.U) {o : GenOptions} : ∀ (fuel : Nat) {t : Ty} {ps : List Bytes} {b : ABlock} {v : GV},
    typeAppender E o fuel t ps = .ok b → ACompiles E o ps t → HasTy E.U t v → NumKeys E o t v → Writes (fun s => GStops E o s t v) (GEnc E o ps t v) (b.run E.U t v) := by
  intro fuel
  induction fuel using Nat.strong_induction_on with
  | _ fuel IH =>
    intro t ps b v h hc hv hk
    cases fuel with
    | zero => cases h
    | succ fuel =>
      have ih : ∀ {t : Ty} {ps : List Bytes} {b : ABlock} {x : GV}, typeAppender E o fuel t ps = .ok b → ACompiles E o ps t → HasTy E.U t x →
        NumKeys E o t x → Writes (fun s => GStops E o s t x) (GEnc E o ps t x) (b.run E.U t x) := fun h => IH fuel (by omega) h
      by_cases hm : NoMarshal E.U t
      · have h' := h
        rw [typeAppender_plain hm] at h
        unfold plainBlock at h
        cases hb : E.U.base t with
        | ptr e =>
          rw [hb] at h
          obtain ⟨b', h0, rfl⟩ := mapR_ok.1 h
          rcases hv.inv_ptr hb with rfl | ⟨x, rfl, hx⟩
          · exact .inl ⟨.null, .nilPtr hm hb, fun _ => noStop_leaf hm (by simp) (by simp) (by simp) (by simp), fun out => by rw [ABlock.run, ser_null]; rfl⟩
          · have hrun : ∀ out, (ABlock.ptr b').run E.U t (.ptr x) out = b'.run E.U t (.ptr x) out := fun out => by rw [ABlock.run]; rfl
            rcases hc.inv_ptr hm hb with ⟨j, rfl, h1, h2⟩ | h1
            · obtain ⟨fs, rfl, -⟩ := hx.inv_struct rfl
              cases fuel with
              | zero => cases h0
              | succ fuel =>
                have hk' : NumKeys E o (.struct j) (.struct fs) := by
                  cases hk with
                  | method h => exact absurd hm h
                  | leaf h => exact absurd hb (h _)
                  | ptr hb' h => rw [hb] at hb'; cases hb'; exact h
                rcases struct_run hE (.inr hb) h1 hv (by simp) (look_ptr fs) (fun h => IH fuel (by omega) h) h0 h2 hk' with ⟨jv, h3, hq, h4⟩ | ⟨s, hx, h3⟩
                · refine .inl ⟨jv, .ptr hm hb (by simp [Univ.base]) h3, fun s h => ?_, fun out => by rw [hrun, h4]⟩
                  cases h with
                  | appender h => rw [hm.1] at h; cases h
                  | json _ h => rw [hm.2.1] at h; cases h
                  | text _ _ h => rw [hm.2.2] at h; cases h
                  | ptr _ hb' _ h => rw [hb] at hb'; cases hb'; exact hq s h
                · exact .inr ⟨s, .ptr hm hb (by simp [Univ.base]) hx, fun out => by rw [hrun]; exact h3 out⟩
            · refine .inl ⟨.obj [], .ptrVoid hm hb h1, fun s h => ?_, fun out => ?_⟩
              · cases h with
                | appender h => rw [hm.1] at h; cases h
                | json _ h => rw [hm.2.1] at h; cases h
                | text _ _ h => rw [hm.2.2] at h; cases h
                | ptr _ hb' hn => rw [hb] at hb'; cases hb'; cases h1 with
                  | struct h => exact hn _ h
                  | ptr h => exact hn _ h
              rw [hrun, void_run (.inr h1) h0 rfl, ser_obj]; simp [serMembers]
        | struct j =>
          have hej := eq_struct hE.univ hb
          subst hej
          obtain ⟨fs, rfl, -⟩ := hv.inv_struct hb
          exact struct_run hE (.inl hb) hm hv (by simp) (fun _ _ => rfl) ih h' hc hk
        | slice e =>
          rw [hb] at h
          obtain ⟨b', h0, rfl⟩ := mapR_ok.1 h
          have hce : ACompiles E o ps e := by
            cases hc with
            | method h => exact absurd hm h
            | slice hb' h1 h2 => rw [hb] at hb'; cases hb'; exact h1
            | string => cases hb
            | struct => cases hb
            | _ hb' => rw [hb] at hb'; cases hb'
          cases hv with
          | nilSlice hb' =>
            refine .inl ⟨.arr [], .nilSlice hm hb, fun _ => noStop_leaf hm (by simp) (by simp) (by simp) (by simp), fun out => ?_⟩
            rw [run_nilSlice hb, ser_arr]; simp [serElems]
          | @slice _ _ arr len hb' hl hall =>
            rw [hb] at hb'; cases hb'
            have hk' : ∀ x ∈ arr.take len, NumKeys E o e x := by
              cases hk with
              | method h => exact absurd hm h
              | leaf _ h => exact absurd hb (h _)
              | slice hb' h => rw [hb] at hb'; cases hb'; exact h
            rcases runElems_spec (arr.take len) (fun x hx => ih h0 hce (hall x (List.mem_of_mem_take hx)) (hk' x hx)) with ⟨js, h1, hq, h2⟩ | ⟨s, hx, h1⟩
            · refine .inl ⟨.arr js, .slice hm hb h1, fun s h => ?_, fun out => ?_⟩
              · cases h with
                | appender h => rw [hm.1] at h; cases h
                | json _ h => rw [hm.2.1] at h; cases h
                | text _ _ h => rw [hm.2.2] at h; cases h
                | slice _ hb' hx h => rw [hb] at hb'; cases hb'; exact hq _ hx s h
              rw [run_slice hb, h2, next, ser_arr, sepElems_true]
              simp
            · obtain ⟨x, hm', hx⟩ := hx
              refine .inr ⟨s, .slice hm hb hm' hx, fun out => ?_⟩
              rw [run_slice hb]
              exact (h1 _ _).next
          | _ hb' => rw [hb] at hb'; cases hb'
        | map k e =>
          rw [hb] at h
          obtain ⟨b1, b2, h1, h2, rfl⟩ := both_ok.1 h
          have hce : ACompiles E o ps e := by
            cases hc with
            | method h => exact absurd hm h
            | map hb' _ _ h1 h2 => rw [hb] at hb'; cases hb'; exact h1
            | string => cases hb
            | struct => cases hb
            | _ hb' => rw [hb] at hb'; cases hb'
          cases hv with
          | nilMap hb' =>
            refine .inl ⟨.obj [], .nilMap hm hb, fun _ => noStop_leaf hm (by simp) (by simp) (by simp) (by simp), fun out => ?_⟩
            rw [run_nilMap hb, ser_obj]; simp [serMembers]
          | @map _ _ _ es hb' hks hes =>
            rw [hb] at hb'; cases hb'
            obtain ⟨hk1, hk2, hk3⟩ : (NoMarshal E.U k ∨ es = []) ∧ (∀ p ∈ es, (keyText E.U p.1).isSome = true) ∧ ∀ p ∈ es, NumKeys E o e p.2 := by
              cases hk with
              | method h => exact absurd hm h
              | leaf _ _ h => exact absurd hb (h _ _)
              | map hb' h1 h2 h3 => rw [hb] at hb'; cases hb'; exact ⟨h1, h2, h3⟩
            have hkey : ∀ p ∈ es, ∃ s, keyText E.U p.1 = some s ∧ ∀ out, b1.run E.U k p.1 out = .done (out ++ s) none := by
              intro p hp
              obtain ⟨s, hs⟩ := Option.isSome_iff_exists.1 (hk2 p hp)
              refine ⟨s, hs, fun out => ?_⟩
              rcases hk1 with hk1 | rfl
              · exact key_run hF hk1 h1 (hks p hp) hs out
              · cases hp
            rcases runEntries_spec es hkey (fun p hp => ih h2 hce (hes p hp) (hk3 p hp)) with ⟨ms, h3, hq, h4⟩ | ⟨s, hx, h3⟩
            · refine .inl ⟨.obj ms, .map hm hb hk1 h3, fun s h => ?_, fun out => ?_⟩
              · cases h with
                | appender h => rw [hm.1] at h; cases h
                | json _ h => rw [hm.2.1] at h; cases h
                | text _ _ h => rw [hm.2.2] at h; cases h
                | map _ hb' hx h => rw [hb] at hb'; cases hb'; exact hq _ hx s h
              rw [run_map hb, h4, tailText_true]
            · obtain ⟨x, hm', hx⟩ := hx
              refine .inr ⟨s, .map hm hb hm' hx, fun out => ?_⟩
              rw [run_map hb]
              exact h3 _ _
          | _ hb' => rw [hb] at hb'; cases hb'
        | string =>
          rw [hb] at h
          cases h
          obtain ⟨s, rfl⟩ := hv.inv_str hb
          by_cases hr : b!"raw" ∈ ps
          · refine .inl ⟨.str s, .raw hm hb hr, fun _ => noStop_leaf hm (by simp) (by simp) (by simp) (by simp), fun out => ?_⟩
            simp [if_pos hr, ABlock.run, ser_str]
          · refine .inl ⟨_, .str hm hb hr, fun _ => noStop_leaf hm (by simp) (by simp) (by simp) (by simp), fun out => ?_⟩
            rw [if_neg hr, ABlock.run, ser_str, StrJson.appendEscaped_eq, StrJson.escaped_eq]
            simp
        | bool =>
          rw [hb] at h; cases h
          obtain ⟨x, rfl⟩ := hv.inv_bool hb
          exact .inl ⟨_, .bool hm hb, fun _ => noStop_leaf hm (by simp) (by simp) (by simp) (by simp), fun out => by cases x <;> simp [ABlock.run, JVal.ser] <;> rfl⟩
        | int k =>
          rw [hb] at h; cases h
          obtain ⟨x, rfl⟩ := hv.inv_int hb
          exact .inl ⟨_, .int hm hb, fun _ => noStop_leaf hm (by simp) (by simp) (by simp) (by simp), fun out => by simp [ABlock.run, ser_num]⟩
        | uint k =>
          rw [hb] at h; cases h
          obtain ⟨x, rfl⟩ := hv.inv_uint hb
          exact .inl ⟨_, .uint hm hb, fun _ => noStop_leaf hm (by simp) (by simp) (by simp) (by simp), fun out => by simp [ABlock.run, ser_num]⟩
        | float k =>
          rw [hb] at h; cases h
          obtain ⟨x, rfl⟩ := hv.inv_float hb
          exact .inl ⟨_, .float hm hb, fun _ => noStop_leaf hm (by simp) (by simp) (by simp) (by simp), fun out => by simp [ABlock.run, ser_num, appendFloat64 hF]⟩
        | iface m i =>
          cases hc with
          | method h => exact absurd hm h
          | string => cases hb
          | struct => cases hb
          | _ hb' => rw [hb] at hb'; cases hb'
        | array n e => rw [hb] at h; cases h
        | other => rw [hb] at h; cases h
        | named i => rw [hb] at h; cases h
      · rw [typeAppender_method hm] at h
        cases h
        exact run_method hH hm v

end Verif.Gen
