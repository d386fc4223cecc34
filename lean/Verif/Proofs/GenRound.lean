import Verif.Spec.GenRound
import Verif.Proofs.GenDecTyped
import Verif.Proofs.GenDecFun
import Verif.Proofs.GenRun
import Verif.Proofs.GenText
import Verif.Proofs.GenSort
import Verif.Proofs.UnRound
import Verif.Props.Access

/-! # AppendJSON followed by UnmarshalNodeJSON -/

namespace Verif.Gen
open Verif Verif.Float Verif.Spec Verif.Njson Verif.Unjson

theorem look_iff {v : GV} {p : List Nat} {x : GV} : look v p = some x ↔ getPath v p = some x ∧ x ≠ .nilPtr := by
  induction p generalizing v with
  | nil => cases v <;> simp [look, getPath] <;> (rintro rfl; simp)
  | cons i is ih =>
    cases v with
    | struct fs =>
      rw [look, getPath]
      cases fs[i]? with
      | none => simp
      | some y => exact ih
    | ptr w =>
      cases w with
      | struct fs =>
        rw [look, getPath]
        cases fs[i]? with
        | none => simp
        | some y => exact ih
      | _ => simp [look, getPath]
    | _ => simp [look, getPath]

/-- In zeros there are zeros, also below nil pointers. -/
theorem seenAt_zero {U : Univ} (hU : U.Ok) : ∀ {p : List Nat} {t tt : Ty}, pathTy U t p = some tt → seenAt U t (U.zero t) p = some (U.zero tt) := by
  intro p
  induction p with
  | nil => intro t tt h; cases h; rfl
  | cons i is ih =>
    intro t tt hp
    rw [pathTy] at hp
    obtain ⟨t', hf, hp⟩ := Option.bind_eq_some_iff.1 hp
    obtain ⟨j, f, p, fs, z, h1, rfl, h3, h4, h5, h6, h7, h8⟩ := open_struct hU hf (hasTy_zero hU t)
    have hz : z = U.zero f.typ := by
      have key : ∀ e, U.base e = .struct j → U.zero e = .struct fs → z = U.zero f.typ := by
        intro e hb he
        rw [zero_base hU, hb, Univ.zero, hU.zero_struct] at he
        cases he
        rw [List.getElem?_map, h1] at h3
        cases h3; rfl
      rcases open_base h5 with hb | ⟨e, hb, hb'⟩
      · rcases h8 with h8 | ⟨e, hb', -⟩
        · cases p with
          | false => exact key t hb h8
          | true => rw [zero_base hU, hb, Univ.zero, hU.zero_struct] at h8; cases h8
        · rw [hb] at hb'; cases hb'
      · rcases h8 with h8 | ⟨e', hb2, -, h8⟩
        · rw [zero_base hU, hb] at h8
          cases p <;> cases h8
        · rw [hb] at hb2; cases hb2
          cases p with
          | false => cases h8
          | true => exact key e hb' (by simpa [wrapS] using h8.symm)
    subst hz
    rw [seenAt_step h5, h1, h3]
    exact ih hp

/-- When the names of the fields differ, the field that is written is the field that is read. -/
theorem SameFields.mem {E : Env} {o : GenOptions} {j : Nat} {F : Nat → List (List GField)} (hF : ∀ j, (F j).flatten.Perm (E.fields j).flatten)
    (h : SameFields E o j) {p : Pick} (hp : p ∈ appendPicks E o j) : p ∈ unmarshalPicks (E.reorder F) o j := by
  classical
  obtain ⟨h1, h2⟩ := mem_appendPicks hp
  have hel : p ∈ eligible (E.reorder F) o (((E.reorder F).fields j).flatten.filter fun f => Can (E.reorder F).U f.typ) :=
    mem_eligible.2 ⟨List.mem_filter.2 ⟨(hF j).mem_iff.2 h1, decide_eq_true (h.can p hp)⟩, h2⟩
  obtain ⟨q, hq, hn⟩ := name_mem_firsts ⟨p, hel, rfl⟩
  have hq' : q ∈ unmarshalPicks (E.reorder F) o j := by
    unfold unmarshalPicks
    convert hq
  obtain ⟨g1, g2, -⟩ := mem_unmarshalPicks hq'
  replace g1 : q.field ∈ (E.fields j).flatten := (hF j).mem_iff.1 g1
  replace g2 : parseField E o q.field = some (q.name, q.params) := g2
  have hf : q.field = p.field := h.names _ g1 _ h1 p.name q.params p.params (takes_iff.1 (hn ▸ g2)) (takes_iff.1 h2)
  rw [hf, h2] at g2
  have : q = p := by
    obtain ⟨a, b, c⟩ := q
    obtain ⟨a', b', c'⟩ := p
    simp_all
  exact this ▸ hq'

theorem appendPicks_nodup (E : Env) (o : GenOptions) (j : Nat) : ((appendPicks E o j).map Pick.name).Nodup := firsts_nodup _

/-- Texts that are read as they are written. -/
def Clean (j : JVal) : Prop := AllRaw (fun s => RfcBody s ∧ GoodEnd s) RfcBody RfcNumber j

/-- What is to be shown of a value. -/
def Returns (E : Env) (F : Nat → List (List GField)) (o : GenOptions) (t : Ty) (v : GV) (j : JVal) : Prop :=
  ∃ w, GDec (E.reorder F) o t (E.U.zero t) j w none ∧ HasTy E.U t w ∧ Back E o t v w ∧ Clean j ∧ (j = .null → v = .nilPtr)

theorem elems_back {E : Env} {F : Nat → List (List GField)} {o : GenOptions} {ps : List Bytes} {e : Ty} : ∀ {xs : List GV} {js : List JVal}, GEncElems E o ps e xs js →
    (∀ x ∈ xs, ∀ j, GEnc E o ps e x j → Returns E F o e x j) →
    ∃ ws, GDecElems (E.reorder F) o e (List.replicate js.length (E.U.zero e)) js ws none ∧ ws.length = xs.length ∧ js.length = xs.length ∧
      (∀ w ∈ ws, HasTy E.U e w) ∧ (∀ (i : Nat) x w, xs[i]? = some x → ws[i]? = some w → Back E o e x w) ∧ Clean (.arr js) := by
  intro xs
  induction xs with
  | nil =>
    intro js h _
    cases h
    exact ⟨[], .nil, rfl, rfl, by simp, by simp, trivial⟩
  | cons x xs ih =>
    intro js h hr
    cases h with
    | @cons _ _ _ _ j js h1 h2 =>
      obtain ⟨w, g1, g2, g3, g4, -⟩ := hr x (by simp) j h1
      obtain ⟨ws, k1, k2, k3, k4, k5, k6⟩ := ih h2 fun y hy => hr y (by simp [hy])
      refine ⟨w :: ws, ?_, by simp [k2], by simp [k3], ?_, ?_, ⟨g4, k6⟩⟩
      · rw [List.length_cons, List.replicate_succ]
        exact .cons g1 k1
      · intro y hy
        rcases List.mem_cons.1 hy with rfl | hy
        · exact g2
        · exact k4 y hy
      · intro i y z hy hz
        cases i with
        | zero => simp at hy hz; subst hy; subst hz; exact g3
        | succ i => exact k5 i y z (by simpa using hy) (by simpa using hz)

theorem fields_back {E : Env} (hE : E.Ok) {F : Nat → List (List GField)} (hP : ∀ j, (F j).flatten.Perm (E.fields j).flatten) {o : GenOptions} {i : Nat} {fs : List GV} (hS : SameFields E o i)
    (hv : HasTy E.U (.struct i) (.struct fs)) : ∀ {ps : List Pick} {ms : List (Bytes × JVal)} {w : GV}, GEncFields E o (.struct fs) ps ms →
    (∀ p ∈ ps, p ∈ appendPicks E o i) → (ps.map Pick.name).Nodup →
    (∀ p ∈ ps, ∀ x j, look (.struct fs) p.field.path = some x → GEnc E o p.params p.field.typ x j → Returns E F o p.field.typ x j) →
    HasTy E.U (.struct i) w → (∀ p ∈ ps, seenAt E.U (.struct i) w p.field.path = some (E.U.zero p.field.typ)) →
    (∀ q ∈ appendPicks E o i, (∃ z, getPath w q.field.path = some z) → ∃ z, getPath (.struct fs) q.field.path = some z) →
    ∃ w', GDecMembers (E.reorder F) o i w ms w' none ∧ HasTy E.U (.struct i) w' ∧
      (∀ p ∈ ps, ∀ x, Written E o (.struct fs) p x → ∃ y, getPath w' p.field.path = some y ∧ Back E o p.field.typ x y) ∧
      (∀ p ∈ ps, (∀ x, ¬ Written E o (.struct fs) p x) → ∀ y, getPath w' p.field.path = some y → y = E.U.zero p.field.typ) ∧
      (∀ q, (∀ p ∈ ps, Apart p.field.path q) → seenAt E.U (.struct i) w' q = seenAt E.U (.struct i) w q ∧
        ∀ z, getPath w q = some z → getPath w' q = some z) ∧
      (∀ q ∈ appendPicks E o i, (∃ z, getPath w' q.field.path = some z) → ∃ z, getPath (.struct fs) q.field.path = some z) ∧
      Clean (.obj ms) := by
  have hU := hE.univ
  have hpath : ∀ p ∈ appendPicks E o i, pathTy E.U (.struct i) p.field.path = some p.field.typ :=
    fun p hp => hE.path i _ (mem_appendPicks hp).1
  intro ps
  induction ps with
  | nil =>
    intro ms w h _ _ _ hw _ hre
    cases h
    exact ⟨w, .nil, hw, by simp, by simp, fun _ _ => ⟨rfl, fun _ h => h⟩, hre, trivial⟩
  | cons p ps ih =>
    intro ms w h hps hnd hr hw hz hre
    have hp := hps p (by simp)
    rw [List.map_cons, List.nodup_cons] at hnd
    have hap : ∀ q ∈ ps, Apart q.field.path p.field.path := fun q hq =>
      hS.apart q (hps q (by simp [hq])) p hp fun e => hnd.1 (List.mem_map.2 ⟨q, hq, e⟩)
    have skip : (∀ x, ¬ Written E o (.struct fs) p x) → ∀ {ms}, GEncFields E o (.struct fs) ps ms → ∃ w', GDecMembers (E.reorder F) o i w ms w' none ∧ HasTy E.U (.struct i) w' ∧
          (∀ q ∈ p :: ps, ∀ x, Written E o (.struct fs) q x → ∃ y, getPath w' q.field.path = some y ∧ Back E o q.field.typ x y) ∧
          (∀ q ∈ p :: ps, (∀ x, ¬ Written E o (.struct fs) q x) → ∀ y, getPath w' q.field.path = some y → y = E.U.zero q.field.typ) ∧
          (∀ q, (∀ p' ∈ p :: ps, Apart p'.field.path q) → seenAt E.U (.struct i) w' q = seenAt E.U (.struct i) w q ∧
            ∀ z, getPath w q = some z → getPath w' q = some z) ∧
          (∀ q ∈ appendPicks E o i, (∃ z, getPath w' q.field.path = some z) → ∃ z, getPath (.struct fs) q.field.path = some z) ∧
          Clean (.obj ms) := by
      intro hn ms h'
      obtain ⟨w', g1, g2, g3, g4, g5, g6, g7⟩ := ih h' (fun q hq => hps q (by simp [hq])) hnd.2 (fun q hq => hr q (by simp [hq])) hw
        (fun q hq => hz q (by simp [hq])) hre
      refine ⟨w', g1, g2, ?_, ?_, fun q hq => g5 q fun p' hp' => hq p' (by simp [hp']), g6, g7⟩
      · intro q hq x hx
        rcases List.mem_cons.1 hq with rfl | hq
        · exact absurd hx (hn x)
        · exact g3 q hq x hx
      · intro q hq hx y hy
        rcases List.mem_cons.1 hq with rfl | hq
        · have := seen_of_get hU (hpath q hp) g2 hy
          rw [(g5 _ hap).1, hz q (by simp)] at this
          exact (Option.some.inj this).symm
        · exact g4 q hq hx y hy
    cases h with
    | absent h1 h2 => exact skip (fun x hx => by rw [hx.1] at h1; cases h1) h2
    | omitted h1 h2 h3 h4 =>
      refine skip (fun x hx => ?_) h4
      have h5 := hx.1
      rw [h1] at h5; cases h5
      rw [hx.2 h2] at h3; cases h3
    | @present _ _ _ ms x j h1 h2 h3 h4 =>
      obtain ⟨y, k1, k2, k3, k4, -⟩ := hr p (by simp) x j h1 h3
      obtain ⟨x0, mk, F⟩ := focus_spec hU (hpath p hp) hw
      have hx0 : x0 = E.U.zero p.field.typ := by
        have := hz p (by simp)
        unfold seenAt at this
        rw [F.found] at this
        exact Option.some.inj this
      subst hx0
      have hvp : ∃ z, getPath (.struct fs) p.field.path = some z := ⟨x, (look_iff.1 h1).1⟩
      obtain ⟨w', g1, g2, g3, g4, g5, g6, g7⟩ := ih (w := mk y) h4 (fun q hq => hps q (by simp [hq])) hnd.2 (fun q hq => hr q (by simp [hq]))
        (F.keeps y k2) (fun q hq => by rw [F.seen y _ (hap q hq).symm]; exact hz q (by simp [hq]))
        (fun q hq ⟨z, hz'⟩ => by
          by_cases hqp : p.name = q.name
          · have : p = q := List.inj_on_of_nodup_map (appendPicks_nodup E o i) hp hq hqp
            exact this ▸ hvp
          · exact reach_mk hU (hpath p hp) (hpath q hq) hv hw F.found hvp (hS.apart p hp q hq hqp) (hre q hq) y z hz')
      refine ⟨w', .cons (hS.mem hP hp) (fun h => (hS.plain p hp).2 h.1) F.found k1 g1, g2, ?_, ?_, ?_, g6, ⟨(hS.plain p hp).1, k4, g7⟩⟩
      · intro q hq x' hx
        rcases List.mem_cons.1 hq with rfl | hq
        · have := hx.1
          rw [h1] at this; cases this
          exact ⟨y, (g5 _ hap).2 _ (F.get y), k3⟩
        · exact g3 q hq x' hx
      · intro q hq hx
        rcases List.mem_cons.1 hq with rfl | hq
        · exact absurd ⟨h1, h2⟩ (hx x)
        · exact g4 q hq hx
      · intro q hq
        obtain ⟨e1, e2⟩ := g5 q fun p' hp' => hq p' (by simp [hp'])
        exact ⟨by rw [e1, F.seen y q (hq p (by simp))], fun z hz' => e2 z (F.other y q z (hq p (by simp)) hz')⟩

theorem reads_back {E : Env} (hE : E.Ok) (hF : Floats64 E.U) {F : Nat → List (List GField)} (hP : ∀ j, (F j).flatten.Perm (E.fields j).flatten) {o : GenOptions} {t : Ty} {v : GV} (hr : Reads E o t v) :
    ∀ {ps : List Bytes} {j : JVal}, HasTy E.U t v → b!"raw" ∉ ps → GEnc E o ps t v j → Returns E F o t v j := by
  have hU := hE.univ
  induction hr with
  | @bool t b hp hb =>
    intro ps j hv hraw he
    cases he with
    | appender h => rw [hp.1.1] at h; cases h
    | json _ h => rw [hp.1.2.1] at h; cases h
    | text _ _ h => rw [hp.1.2.2] at h; cases h
    | bool => exact ⟨_, .bool hp.2 hb, hv, .bool, trivial, fun h => by cases h⟩
  | @int t k i hp hb hi =>
    intro ps j hv hraw he
    cases he with
    | appender h => rw [hp.1.1] at h; cases h
    | json _ h => rw [hp.1.2.1] at h; cases h
    | text _ _ h => rw [hp.1.2.2] at h; cases h
    | int =>
      obtain ⟨h1, h2⟩ : -(2 ^ (k.bits - 1) : Int) ≤ i ∧ i < 2 ^ (k.bits - 1) := by
        cases hv with
        | int h h1 h2 => rw [hb] at h; cases h; exact ⟨h1, h2⟩
      have hpi := Props.C42_parseInt_partial i _ (formatInt_decimal i) (by have := (bits_le k).1; omega) (by have := (bits_le k).1; omega) hi
      refine ⟨.int i, ?_, hv, .int, formatInt_number i, fun h => by cases h⟩
      have := GDec.int (E := E.reorder F) (o := o) (v := E.U.zero t) (j := .num (formatInt i)) hp.2 hb (by rw [jraw, hpi])
      rwa [jraw, hpi, wrapInt_id h1 h2] at this
  | @uint t k n hp hb hi =>
    intro ps j hv hraw he
    cases he with
    | appender h => rw [hp.1.1] at h; cases h
    | json _ h => rw [hp.1.2.1] at h; cases h
    | text _ _ h => rw [hp.1.2.2] at h; cases h
    | uint =>
      have h1 : n < 2 ^ k.bits := by
        cases hv with
        | uint h h1 => rw [hb] at h; cases h; exact h1
      have hpi := Props.C42_parseUint_partial n _ (formatUint_decimal n) (by omega) (by have := (bits_le k).2; exact_mod_cast lt_of_lt_of_le h1 this)
        (by simpa [Repr64] using hi)
      refine ⟨.uint n, ?_, hv, .uint, formatUint_number n, fun h => by cases h⟩
      have := GDec.uint (E := E.reorder F) (o := o) (v := E.U.zero t) (j := .num (formatUint n)) hp.2 hb (by rw [jraw, hpi])
      rw [jraw, hpi] at this
      simpa [wrapUint, Nat.mod_eq_of_lt h1] using this
  | @float t k neg m e hp hb hi =>
    intro ps j hv hraw he
    cases he with
    | appender h => rw [hp.1.1] at h; cases h
    | json _ h => rw [hp.1.2.1] at h; cases h
    | text _ _ h => rw [hp.1.2.2] at h; cases h
    | float =>
      refine ⟨.float (.num neg (.fin m e)), ?_, hv, .float, floatText64_number hF neg m e, fun h => by cases h⟩
      have := GDec.float (E := E.reorder F) (o := o) (v := E.U.zero t) (j := .num (floatText64 E.U (.num neg (.fin m e)))) hp.2 hb (by
        rw [jraw]
        intro hn
        rw [hn] at hi
        cases k <;> cases hi)
      rwa [jraw, hi] at this
  | @str t s hp hb hs =>
    intro ps j hv hraw he
    cases he with
    | appender h => rw [hp.1.1] at h; cases h
    | json _ h => rw [hp.1.2.1] at h; cases h
    | text _ _ h => rw [hp.1.2.2] at h; cases h
    | raw _ _ h => exact absurd h hraw
    | str =>
      refine ⟨.str s, ?_, hv, .str, ⟨(Props.C03_escaped_legal _ _).1, (Props.goodEnd_escaped s false).2 hs.2⟩, fun h => by cases h⟩
      have := GDec.str (E := E.reorder F) (o := o) (v := E.U.zero t) (s := StrJson.escaped s false false) hp.2 hb
      rwa [Props.C01_roundtrip s false hs.1] at this
  | @nilPtr t e hp hb =>
    intro ps j hv hraw he
    cases he with
    | appender h => rw [hp.1.1] at h; cases h
    | json _ h => rw [hp.1.2.1] at h; cases h
    | text _ _ h => rw [hp.1.2.2] at h; cases h
    | nilPtr => exact ⟨_, .ptrNull hp.2 hb, hv, .nilPtr, trivial, fun _ => rfl⟩
  | @ptr t e v hp hb hne hr ih =>
    intro ps j hv hraw he
    have hv' : HasTy E.U e v := by
      rcases hv.inv_ptr hb with h | ⟨w, h, hw⟩
      · cases h
      · cases h; exact hw
    cases he with
    | appender h => rw [hp.1.1] at h; cases h
    | json _ h => rw [hp.1.2.1] at h; cases h
    | text _ _ h => rw [hp.1.2.2] at h; cases h
    | ptrVoid _ h1 h2 =>
      rw [hb] at h1; cases h1
      cases h2 <;> (rename_i h3 _; exact absurd h3 (hne _))
    | ptr _ h1 _ h2 =>
      rw [hb] at h1; cases h1
      obtain ⟨w, g1, g2, g3, g4, g5⟩ := ih hv' hraw h2
      have hj : j ≠ .null := by
        intro e
        have := g5 e
        subst this
        cases hr with
        | nilPtr _ h => exact hne _ h
      refine ⟨.ptr w, ?_, .ptr hb g2, .ptr hb g3, g4, fun h => absurd h hj⟩
      rw [zero_base hU, hb]
      exact .ptrNew hp.2 hb hj g1
  | @nilSlice t e hp hb =>
    intro ps j hv hraw he
    cases he with
    | appender h => rw [hp.1.1] at h; cases h
    | json _ h => rw [hp.1.2.1] at h; cases h
    | text _ _ h => rw [hp.1.2.2] at h; cases h
    | nilSlice =>
      refine ⟨.nilSlice, ?_, hv, .nilSlice, trivial, fun h => by cases h⟩
      rw [zero_base hU, hb]
      exact .sliceNil hp.2 hb
  | @slice t e arr len hp hb hx ih =>
    intro ps j hv hraw he
    obtain ⟨hl, hxt⟩ : len ≤ arr.length ∧ ∀ x ∈ arr, HasTy E.U e x := by
      rcases hv.inv_slice hb with h | ⟨a, l, h, h1, h2⟩
      · cases h
      · cases h; exact ⟨h1, h2⟩
    cases he with
    | appender h => rw [hp.1.1] at h; cases h
    | json _ h => rw [hp.1.2.1] at h; cases h
    | text _ _ h => rw [hp.1.2.2] at h; cases h
    | slice _ h1 h2 =>
      rw [hb] at h1; cases h1
      obtain ⟨ws, g1, g2, g3, g4, g5, g6⟩ := elems_back h2 fun x hx j hj => ih x hx (hxt x (List.mem_of_mem_take hx)) hraw hj
      rw [List.length_take, Nat.min_eq_left hl] at g2 g3
      by_cases h0 : len = 0
      · subst h0
        rw [List.length_eq_zero_iff] at g3
        subst g3
        refine ⟨.nilSlice, ?_, .nilSlice hb, .emptySlice, trivial, fun h => by cases h⟩
        rw [zero_base hU, hb]
        exact .sliceNil hp.2 hb
      · refine ⟨.slice ws len, ?_, .slice hb (by omega) g4, .slice hb (by omega) g2 g5, g6, fun h => by cases h⟩
        rw [zero_base hU, hb]
        have := GDec.sliceNew (E := E.reorder F) (o := o) hp.2 hb (by rintro rfl; exact h0 g3.symm) g1
        rwa [g3] at this
  | @nilMap t k e hp hb =>
    intro ps j hv hraw he
    cases he with
    | appender h => rw [hp.1.1] at h; cases h
    | json _ h => rw [hp.1.2.1] at h; cases h
    | text _ _ h => rw [hp.1.2.2] at h; cases h
    | nilMap =>
      refine ⟨.map [], ?_, .map hb (by simp) (by simp), .nilMap, trivial, fun h => by cases h⟩
      rw [zero_base hU, hb]
      exact .mapNew hp.2 hb .nil
  | @emptyMap t k e hp hb =>
    intro ps j hv hraw he
    cases he with
    | appender h => rw [hp.1.1] at h; cases h
    | json _ h => rw [hp.1.2.1] at h; cases h
    | text _ _ h => rw [hp.1.2.2] at h; cases h
    | map _ _ _ h =>
      cases h
      refine ⟨.map [], ?_, hv, .emptyMap, trivial, fun h => by cases h⟩
      rw [zero_base hU, hb]
      exact .mapNew hp.2 hb .nil
  | @struct i fs hp hS hx ih =>
    intro ps j hv hraw he
    cases he with
    | appender h => rw [hp.1.1] at h; cases h
    | json _ h => rw [hp.1.2.1] at h; cases h
    | text _ _ h => rw [hp.1.2.2] at h; cases h
    | struct _ h =>
      have hpath : ∀ p ∈ appendPicks E o i, pathTy E.U (.struct i) p.field.path = some p.field.typ :=
        fun p hp => hE.path i _ (mem_appendPicks hp).1
      have hlook : ∀ p ∈ appendPicks E o i, ∀ x, look (.struct fs) p.field.path = some x → HasTy E.U p.field.typ x := by
        intro p hp x hx
        obtain ⟨x', mk, F⟩ := focus_spec hU (hpath p hp) hv
        have := seen_of_get hU (hpath p hp) hv (look_iff.1 hx).1
        unfold seenAt at this
        rw [F.found] at this
        cases this
        exact F.typed
      obtain ⟨w, g1, g2, g3, g4, g5, g6, g7⟩ := fields_back hE hP hS hv (w := E.U.zero (.struct i)) h (fun _ h => h) (appendPicks_nodup E o i)
        (fun p hp x j hx' hj => ih p hp x hx' (hlook p hp x hx') (hS.plain p hp).2 hj) (hasTy_zero hU _)
        (fun p hp => seenAt_zero hU (hpath p hp)) (fun q hq ⟨z, hz⟩ => reach_zero hU (hpath q hq) hv hz)
      obtain ⟨ws, rfl, -, -⟩ := g2.inv_struct (j := i) rfl
      refine ⟨.struct ws, .struct hp.2 g1, g2, .struct ?_ ?_ ?_ ?_, g7, fun h => by cases h⟩
      · intro p hp x hx hn
        obtain ⟨y, hy, -⟩ := g3 p hp x hx
        rw [hn] at hy; cases hy
      · intro p hp x y hx hy
        obtain ⟨y', hy', hb⟩ := g3 p hp x hx
        rw [hy] at hy'; cases hy'
        exact hb
      · intro p hp hx y hy
        refine ⟨g4 p hp hx y hy, fun hn => ?_⟩
        obtain ⟨z, hz⟩ := g6 p hp ⟨y, hy⟩
        rw [hn] at hz; cases hz
      · intro q tq y hq ht hy
        have := seen_of_get hU ht g2 hy
        rw [(g5 q hq).1, seenAt_zero hU ht] at this
        exact (Option.some.inj this).symm

end Verif.Gen
