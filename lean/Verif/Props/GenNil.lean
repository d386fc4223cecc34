import Verif.Spec.GenNil
import Verif.Props.GenAppend
import Verif.Proofs.GenAgain

/-! # Nil pointers in what generated methods write (C124) -/

namespace Verif.Gen
open Verif Verif.Float Verif.Spec Verif.Njson Verif.Unjson

theorem firstMeth_stops {E : Env} {o : GenOptions} {t : Ty} {m : Meth} (h : FirstMeth E.U t m) {v : GV} (hp : E.U.panics m t v [] = true) : GPanics E o t v := by
  cases h with
  | append h1 => exact .appender h1 hp
  | json h1 h2 => exact .json h1 h2 hp
  | text h1 h2 h3 => exact .text h1 h2 h3 hp

theorem nilStop {E : Env} {o : GenOptions} {t : Ty} (h : GPanics E o t .nilPtr) : ∃ m, FirstMeth E.U t m ∧ E.U.panics m t .nilPtr [] = true := by
  cases h with
  | appender h1 h2 => exact ⟨_, .append h1, h2⟩
  | json h1 h2 h3 => exact ⟨_, .json h1 h2, h3⟩
  | text h1 h2 h3 h4 => exact ⟨_, .text h1 h2 h3, h4⟩

theorem nilElem_panics {E : Env} {o : GenOptions} {t : Ty} {v : GV} (h : NilElem E o t v) : GPanics E o t v := by
  induction h with
  | elem hm hb hx h1 h2 => exact .slice hm hb hx (firstMeth_stops h1 h2)
  | entry hm hb hx h1 h2 => exact .map hm hb hx (firstMeth_stops h1 h2)
  | ptr hm hb hn _ ih => exact .ptr hm hb hn ih
  | slice hm hb hx _ ih => exact .slice hm hb hx ih
  | map hm hb hx _ ih => exact .map hm hb hx ih
  | struct hm hp hl ho _ ih => exact .struct hm hp hl ho ih

theorem panics_nilElem {E : Env} (hE : E.Ok) (hN : NilOnly E.U) (hq : OmitCalm E.U) {o : GenOptions} {s : Stop} {t : Ty} {v : GV} (h : GStops E o s t v) :
    s = .panic → HasTy E.U t v → v = .nilPtr ∨ NilElem E o t v := by
  induction h with
  | appender _ h => intro hs; subst hs; exact fun _ => .inl (hN _ _ _ _ h)
  | json _ _ h => intro hs; subst hs; exact fun _ => .inl (hN _ _ _ _ h)
  | text _ _ _ h => intro hs; subst hs; exact fun _ => .inl (hN _ _ _ _ h)
  | @ptr s t e v hm hb hn h ih =>
    intro hs hv
    have hx : HasTy E.U e v := by
      rcases hv.inv_ptr hb with h | ⟨_, h, hx⟩
      · cases h
      · cases h; exact hx
    rcases ih hs hx with rfl | h'
    · exact absurd rfl (not_nilPtr hx hn)
    · exact .inr (.ptr hm hb hn h')
  | @slice s t e arr len x hm hb hx h ih =>
    intro hs hv
    have ht : HasTy E.U e x := by
      rcases hv.inv_slice hb with h | ⟨_, _, h, _, h2⟩
      · cases h
      · cases h; exact h2 _ (List.mem_of_mem_take hx)
    rcases ih hs ht with rfl | h'
    · subst hs
      obtain ⟨m, h1, h2⟩ := nilStop h
      exact .inr (.elem hm hb hx h1 h2)
    · exact .inr (.slice hm hb hx h')
  | @map s t k e es p hm hb hx h ih =>
    intro hs hv
    have ht : HasTy E.U e p.2 := by
      cases hv with
      | map hb' _ h => rw [hb] at hb'; cases hb'; exact h p hx
    rcases ih hs ht with he | h'
    · subst hs
      rw [he] at h
      obtain ⟨m, h1, h2⟩ := nilStop h
      obtain ⟨k', x⟩ := p
      cases he
      exact .inr (.entry hm hb hx h1 h2)
    · exact .inr (.map hm hb hx h')
  | struct hm hp hl ho _ ih =>
    intro hs hv
    obtain ⟨g1, g2⟩ := look_iff.1 hl
    rcases ih hs (path_typed hE.univ (hE.path _ _ (mem_appendPicks hp).1) hv g1) with rfl | h'
    · exact absurd rfl g2
    · exact .inr (.struct hm hp hl ho h')
  | omits _ _ hl _ _ h => rw [hq _ _ _ (look_ne_nil hl)] at h; cases h

end Verif.Gen

namespace Verif.Props
open Verif Verif.Float Verif.Spec Verif.Njson Verif.Unjson Verif.Gen

/-- **C124**: a field that is a nil pointer, or below a nil pointer to an embedded struct, is left out; no method is called for it, neither a marshal method nor
an omit method (`GStops` speaks about the fields that `look` finds, which are no nil pointers; see `C124_calm_partial`). -/
theorem C124_fields {E : Env} {o : GenOptions} {v : GV} {p : Pick} {ps : List Pick} {ms : List (Bytes × JVal)} (h : look v p.field.path = none) :
    GEncFields E o v (p :: ps) ms ↔ GEncFields E o v ps ms := by
  constructor
  · intro h'
    cases h' with
    | absent _ h' => exact h'
    | omitted hl => rw [h] at hl; cases hl
    | present hl => rw [h] at hl; cases hl
  · exact .absent h

/-- **C124 (partial)**: when methods panic at most on nil pointers, the generated method of a struct does not panic if no element of a slice and no value of a
map is a nil pointer whose marshal method panics: it appends the text that `GEnc` describes, or returns the error of a method.
Missing from the full claim: nil pointers of types with methods in slices and maps (`C124_exact`, `C124_false`). -/
theorem C124_calm_partial {E : Env} (hE : E.Ok) (hH : Hooks E.U) (hN : NilOnly E.U) (hq : OmitCalm E.U) (hF : Floats64 E.U) {o : GenOptions} {fuel : Nat} {j : Nat}
    {b : ABlock} (h : typeAppender E o fuel (.struct j) [] = .ok b) (hc : appenderCompiles E b (.struct j) = true) (hm : NoMarshal E.U (.struct j))
    {v : GV} (hv : HasTy E.U (.struct j) v) (hk : NumKeys E o (.struct j) v) (hn : ¬ NilElem E o (.struct j) v) :
    (∃ jv, GEnc E o [] (.struct j) v jv ∧ ∀ out, runAppender E.U o b (.struct j) (.ptr v) out = some (.done (out ++ jv.ser) none)) ∨
    (GFails E o (.struct j) v ∧ ∀ out, ∃ out', runAppender E.U o b (.struct j) (.ptr v) out = some (.done out' (some .hook))) := by
  rcases C78_writes_partial hE hH hF h hc hm hv hk with ⟨jv, h1, -, h2⟩ | h1 | ⟨h1, -⟩
  · exact .inl ⟨jv, h1, h2⟩
  · exact .inr h1
  · rcases panics_nilElem hE hN hq h1 rfl hv with h | h
    · subst h
      obtain ⟨fs, h, -⟩ := hv.inv_struct (j := j) rfl
      cases h
    · exact absurd h hn

/-- **C124**: and it does panic, when no method fails, exactly if there is such a nil pointer in a slice or a map. -/
theorem C124_exact {E : Env} (hE : E.Ok) (hH : Hooks E.U) (hN : NilOnly E.U) (hq : OmitCalm E.U) (hF : Floats64 E.U) {o : GenOptions} {fuel : Nat} {j : Nat}
    {b : ABlock} (h : typeAppender E o fuel (.struct j) [] = .ok b) (hc : appenderCompiles E b (.struct j) = true) (hm : NoMarshal E.U (.struct j))
    {v : GV} (hv : HasTy E.U (.struct j) v) (hk : NumKeys E o (.struct j) v) (hf : ¬ GFails E o (.struct j) v) :
    NilElem E o (.struct j) v ↔ ∃ out, runAppender E.U o b (.struct j) (.ptr v) out = some .panic := by
  refine Iff.trans ⟨nilElem_panics, fun h1 => ?_⟩ ((C78_exact hE hH hF h hc hm hv hk).2 hf)
  rcases panics_nilElem hE hN hq h1 rfl hv with h | h
  · subst h
    obtain ⟨fs, h, -⟩ := hv.inv_struct (j := j) rfl
    cases h
  · exact h

/-- **C124**: among them are all nil pointers to types whose method has a value receiver, as the language says: to call it panics. -/
theorem C124_value {E : Env} (hG : E.U.GoMethods) {o : GenOptions} {t : Ty} {e : Ty} {arr : List GV} {len : Nat} {m : Meth} (hm : NoMarshal E.U t)
    (hb : E.U.base t = .slice (.ptr e)) (hx : .nilPtr ∈ arr.take len) (hp : ∀ e', E.U.base e ≠ .ptr e') (h1 : FirstMeth E.U (.ptr e) m)
    (h2 : E.U.impl e m = true) : NilElem E o t (.slice arr len) :=
  .elem hm hb hx h1 (hG.nil e m [] hp h2)

/-! ### The example -/

def isNilPtr : GV → Bool
  | .nilPtr => true
  | _ => false

/-- The package with `type T0 struct { P *T1; L []*T1 }` and `type T1 struct { X bool }`, where `T1` has a method `AppendJSON` with a value receiver. -/
def gnilU : Univ :=
  { genU with
    fields := fun j => match j with | 0 => [fld b!"P" (.ptr (.struct 1)), fld b!"L" (.slice (.ptr (.struct 1)))] | _ => [fld b!"X" .bool]
    zeroStruct := fun j => match j with | 0 => .struct [.nilPtr, .nilSlice] | _ => .struct [.bool false]
    impl := fun t m => decide ((t = .struct 1 ∨ t = .ptr (.struct 1)) ∧ m = .appender)
    panics := fun _ t v _ => decide (t = .ptr (.struct 1)) && isNilPtr v }

def gnilE : Env :=
  { genE with
    U := gnilU
    fields := fun j => match j with | 0 => [[gfld b!"P" (.ptr (.struct 1)) 0], [gfld b!"L" (.slice (.ptr (.struct 1))) 1]] | _ => [[gfld b!"X" .bool 0]] }

theorem isNilPtr_iff {v : GV} : isNilPtr v = true ↔ v = .nilPtr := by cases v <;> simp [isNilPtr]

theorem gnilU_go : gnilU.GoMethods where
  promoted := by
    intro t m _ _ h
    simp only [gnilU, decide_eq_true_eq] at h ⊢
    rcases h with ⟨rfl | rfl, h⟩
    · exact ⟨.inr rfl, h⟩
    · rename_i hp _; exact absurd rfl (hp (.struct 1))
  nil := by
    intro t m s hp h
    simp only [gnilU, decide_eq_true_eq] at h
    rcases h with ⟨rfl | rfl, h⟩
    · rfl
    · exact absurd rfl (hp (.struct 1))
  omits := by intro name t f _ _ h; cases h
  omit_nil := by intro name t f _ h; cases h

theorem gnilE_mem {j : Nat} {f : GField} (h : f ∈ (gnilE.fields j).flatten) :
    pathTy gnilU (.struct j) f.path = some f.typ ∧ ∃ i, f.path = [i] := by
  unfold gnilE at h
  dsimp only at h
  split at h <;> simp at h
  · rcases h with rfl | rfl <;> exact ⟨rfl, _, rfl⟩
  · subst h
    refine ⟨?_, _, rfl⟩
    simp only [gfld, pathTy, fieldTy, Univ.base, gnilU]
    rfl

theorem gnilE_ok : gnilE.Ok where
  univ := ⟨genU_ok.under_base, genU_ok.under_struct, by
      intro j
      simp only [gnilE, gnilU]
      split <;> simp [fld, Univ.zero], by
      intro i
      simp only [gnilE, gnilU, genU]
      split <;> simp [Univ.zero]⟩
  path := fun j f h => (gnilE_mem h).1
  nonempty := by
    intro j f h
    obtain ⟨-, i, h⟩ := gnilE_mem h
    simp [h]
  embeds := by
    intro j f pre post t e h hp hne ht hb
    obtain ⟨-, i, h⟩ := gnilE_mem h
    rw [h] at hp
    cases pre with
    | nil => cases ht; cases hb
    | cons i pre =>
      simp at hp
      exact absurd hp.2.2 hne
  methods := by
    intro t m h h1 h2
    exact gnilU_go.promoted t m h2 h1 h
  ptrPtr := by
    intro t e m hb
    simp only [gnilE, gnilU, decide_eq_false_iff_not]
    rintro ⟨h | h, -⟩
    · cases h
    · cases h; cases hb
  namedPtr := by intro i e m hb; simp [gnilE, gnilU]

theorem gnilU_hooks : Hooks gnilU where
  iface := by
    intro t m i hb
    have : ∀ m', gnilU.impl t m' = false := by
      intro m'
      simp only [gnilU, decide_eq_false_iff_not]
      rintro ⟨rfl | rfl, -⟩ <;> cases hb
    exact ⟨this _, this _, this _⟩
  same := fun _ _ _ => rfl
  append := by
    intro t v _ _
    refine .inl ⟨.num b!"0", ⟨[], b!"0", [], [], rfl, .inl rfl, .inl rfl, .inl rfl, .inl rfl⟩, fun out => ?_⟩
    rw [ser_num]
    rfl
  json := by intro t v s h; simp [gnilU] at h

/-- The hypotheses of C124 are met by the example, with the value `T0{L: []*T1{nil}}`. -/
example : gnilE.Ok ∧ Hooks gnilE.U ∧ NilOnly gnilE.U ∧ OmitCalm gnilE.U ∧ gnilE.U.GoMethods ∧ Floats64 gnilE.U ∧ NoMarshal gnilE.U (.struct 0) ∧
    HasTy gnilE.U (.struct 0) (.struct [.nilPtr, .slice [.nilPtr] 1]) := by
  refine ⟨gnilE_ok, gnilU_hooks, ?_, fun _ _ _ _ => rfl, gnilU_go, ⟨genU_floats.plain, genU_floats.exp, genU_floats.inf, genU_floats.nan⟩, ⟨rfl, rfl, rfl⟩, ?_⟩
  · intro m t v s h
    simp only [gnilE, gnilU, Bool.and_eq_true] at h
    exact isNilPtr_iff.1 h.2
  · refine .struct rfl rfl ?_
    intro i f v hf hv
    match i with
    | 0 => cases hf; cases hv; exact .nilPtr rfl
    | 1 => cases hf; cases hv; exact .slice rfl (Nat.le_refl _) (by intro x hx; simp at hx; subst hx; exact .nilPtr rfl)
    | i + 2 => cases hf

/-- The full claim is false: a field that is a nil pointer is left out, but a nil pointer in a slice makes the method panic. -/
theorem C124_false : ∃ b, typeAppender gnilE {} 10 (.struct 0) [] = .ok b ∧ appenderCompiles gnilE b (.struct 0) = true ∧
    runAppender gnilE.U {} b (.struct 0) (.ptr (.struct [.nilPtr, .slice [.ptr (.struct [.bool true])] 1])) [] = some (.done b!"{\"L\":[0]}" none) ∧
    runAppender gnilE.U {} b (.struct 0) (.ptr (.struct [.nilPtr, .slice [.nilPtr] 1])) [] = some .panic := by
  obtain ⟨b, h1, h2⟩ := genOk_iff (E := gnilE) (o := {}) (t := .struct 0) (P := fun b => appenderCompiles gnilE b (.struct 0) &&
    (sameB (runAppender gnilE.U {} b (.struct 0) (.ptr (.struct [.nilPtr, .slice [.ptr (.struct [.bool true])] 1])) []) b!"{\"L\":[0]}" none &&
    isPanic (runAppender gnilE.U {} b (.struct 0) (.ptr (.struct [.nilPtr, .slice [.nilPtr] 1])) []))) (by decide +kernel)
  rw [Bool.and_eq_true, Bool.and_eq_true] at h2
  exact ⟨b, h1, h2.1, eq_of_sameB h2.2.1, eq_of_isPanic h2.2.2⟩

end Verif.Props
