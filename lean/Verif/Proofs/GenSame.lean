import Verif.Spec.GenSame
import Verif.Proofs.GenOne
import Verif.Proofs.UnEncTotal
import Verif.Proofs.GenCompile
import Verif.Proofs.UnResolve
import Verif.Proofs.UnTyped

/-! # Generated code and `unjson` write the same -/

namespace Verif.Gen
open Verif Verif.Float Verif.Spec Verif.Njson Verif.Unjson

/-! ## Paths -/

/-- Index and selectors lead to the same value; a selector does not tell a nil pointer from nothing. -/
def Leads (v : GV) (index : List Int) : Prop :=
  (sub v index = none → look v (selectors index) = none) ∧
  (sub v index = some .nilPtr → look v (selectors index) = none) ∧
  ∀ x, x ≠ .nilPtr → sub v index = some x → look v (selectors index) = some x

theorem selectors_nat (i : Nat) (is : List Int) : selectors ((i : Int) :: is) = i :: selectors is := by
  unfold selectors
  have : (decide ((i : Int) ≠ -1)) = true := by simp
  rw [List.filter_cons, if_pos this]
  simp

theorem selectors_neg (is : List Int) : selectors (-1 :: is) = selectors is := by
  unfold selectors
  rw [List.filter_cons, if_neg (by decide)]

theorem sub_nat (gs : List GV) (i : Nat) (is : List Int) :
    sub (.struct gs) ((i : Int) :: is) = match gs[i]? with | some x => sub x is | none => none := by
  rw [sub, if_neg (by omega)]
  rfl

theorem look_nat (gs : List GV) (i : Nat) (is : List Nat) :
    look (.struct gs) (i :: is) = match gs[i]? with | some x => look x is | none => none := by
  rw [look]
  cases gs[i]? <;> rfl

theorem leads_nil (v : GV) : Leads v [] := by
  refine ⟨fun h => by cases v <;> simp [sub] at h, fun h => ?_, fun x hx h => ?_⟩
  · simp only [sub, Option.some.injEq] at h
    subst h
    rfl
  · simp only [sub, Option.some.injEq] at h
    subst h
    show look v [] = some v
    cases v <;> first | rfl | exact absurd rfl hx

theorem leads_step {gs : List GV} {i : Nat} {x : GV} {is : List Int} (hx : gs[i]? = some x) (h : Leads x is) : Leads (.struct gs) ((i : Int) :: is) := by
  unfold Leads at h ⊢
  rw [selectors_nat, sub_nat, look_nat, hx]
  exact h

theorem leads_ptr {gs hs : List GV} {i : Nat} {k : Nat} {is : List Int} (hx : gs[i]? = some (.ptr (.struct hs))) (h : Leads (.struct hs) ((k : Int) :: is)) :
    Leads (.struct gs) ((i : Int) :: -1 :: (k : Int) :: is) := by
  unfold Leads at h ⊢
  rw [selectors_nat, selectors_neg, sub_nat, look_nat, hx]
  have h1 : sub (.ptr (.struct hs)) (-1 :: (k : Int) :: is) = sub (.struct hs) ((k : Int) :: is) := by
    rw [sub, if_pos rfl]
  have h2 : look (.ptr (.struct hs)) (selectors ((k : Int) :: is)) = look (.struct hs) (selectors ((k : Int) :: is)) := by
    rw [selectors_nat]
    rfl
  simp only [h1, h2]
  exact h

theorem leads_nilPtr {gs : List GV} {i k : Nat} {is : List Int} (hx : gs[i]? = some .nilPtr) : Leads (.struct gs) ((i : Int) :: -1 :: (k : Int) :: is) := by
  unfold Leads
  rw [selectors_nat, selectors_neg, sub_nat, look_nat, hx, selectors_nat]
  have h1 : sub .nilPtr (-1 :: (k : Int) :: is) = none := rfl
  simp only [h1]
  refine ⟨fun _ => rfl, ?_, ?_⟩
  · intro h; cases h
  · intro _ _ h; cases h

/-- the fields from number `i` on are values of their types -/
def Fills (U : Univ) (fs : List Field) (i : Nat) (gs : List GV) : Prop :=
  ∀ (k : Nat) f, fs[k]? = some f → ∃ x, gs[i + k]? = some x ∧ HasTy U f.typ x

theorem Fills.tail {U : Univ} {f : Field} {fs : List Field} {i : Nat} {gs : List GV} (h : Fills U (f :: fs) i gs) : Fills U fs (i + 1) gs := by
  intro k g hg
  obtain ⟨x, h1, h2⟩ := h (k + 1) g (by simpa using hg)
  exact ⟨x, by rw [← h1]; congr 1; omega, h2⟩

theorem fills_of {U : Univ} {j : Nat} {gs : List GV} (h : HasTy U (.struct j) (.struct gs)) : Fills U (U.fields j) 0 gs := by
  obtain ⟨_, e, h1, h2⟩ := h.inv_struct (j := j) rfl
  cases e
  intro k f hf
  have hk : k < gs.length := by
    rw [h1]
    rcases Nat.lt_or_ge k (U.fields j).length with h | h
    · exact h
    · rw [List.getElem?_eq_none h] at hf; cases hf
  refine ⟨gs[k], by rw [Nat.zero_add]; exact List.getElem?_eq_getElem hk, h2 k f _ hf (List.getElem?_eq_getElem hk)⟩

theorem cands_leads {U : Univ} (hU : U.Ok) (hE : U.EmbedsStructs) {o : Options} {fs : List Field} {i : Nat} {idx : List Int} {cs : List Cand}
    (h : Cands U o fs i idx cs) : (∀ f ∈ fs, ∃ j, f ∈ U.fields j) →
    ∀ c ∈ cs, ∃ (k : Nat) (suf : List Int), c.index = idx ++ (k : Int) :: suf ∧ ∀ gs, Fills U fs i gs → Leads (.struct gs) ((k : Int) :: suf) := by
  induction h with
  | nil => intro _ c hc; cases hc
  | skip _ _ ih =>
    intro hf c hc
    obtain ⟨k, suf, h1, h2⟩ := ih (fun f h => hf f (List.mem_cons_of_mem _ h)) c hc
    exact ⟨k, suf, h1, fun gs hg => h2 gs hg.tail⟩
  | @embed f fs i idx cs ds idx' j _ _ he _ _ ih1 ih2 =>
    intro hf c hc
    rcases List.mem_append.1 hc with hc | hc
    · obtain ⟨k, suf, h1, h2⟩ := ih1 (fun f h => ⟨j, h⟩) c hc
      unfold embedding at he
      split at he
      · split at he
        · rename_i e hb
          split at he
          · rename_i j' hb'
            cases he
            refine ⟨i, -1 :: (k : Int) :: suf, by simp [h1], fun gs hg => ?_⟩
            obtain ⟨x, hx, hty⟩ := hg 0 f rfl
            rw [Nat.add_zero] at hx
            rcases hty.inv_ptr hb with rfl | ⟨y, rfl, hy⟩
            · exact leads_nilPtr hx
            · obtain ⟨hs, rfl, _⟩ := hy.inv_struct hb'
              have he' : e = .struct j := by
                cases e <;> simp [Univ.base] at hb' <;> first | (subst hb'; rfl) | (exact absurd hb' (hU.under_struct _ _))
              subst he'
              exact leads_ptr hx (h2 hs (fills_of hy))
          · cases he
        · rename_i j' hb
          cases he
          refine ⟨i, (k : Int) :: suf, by simp [h1], fun gs hg => ?_⟩
          obtain ⟨x, hx, hty⟩ := hg 0 f rfl
          rw [Nat.add_zero] at hx
          obtain ⟨hs, rfl, _⟩ := hty.inv_struct hb
          have he' : f.typ = .struct j := by
            cases hq : f.typ <;> rw [hq] at hb <;> simp [Univ.base] at hb <;> first | (subst hb; rfl) | (exact absurd hb (hU.under_struct _ _))
          rw [he'] at hty
          exact leads_step hx (h2 hs (fills_of hty))
        · cases he
      · cases he
    · obtain ⟨k, suf, h1, h2⟩ := ih2 (fun f h => hf f (List.mem_cons_of_mem _ h)) c hc
      exact ⟨k, suf, h1, fun gs hg => h2 gs hg.tail⟩
  | @field f fs i idx cs idx' _ _ he _ ih =>
    intro hf c hc
    rcases List.mem_cons.1 hc with rfl | hc
    · have hi : idx' = idx ++ [(i : Int)] := by
        unfold embedding at he
        split at he
        · rename_i hcond
          simp only [Bool.and_eq_true, Bool.not_eq_true'] at hcond
          split at he
          · rename_i e hb
            split at he
            · cases he
            · rename_i hb'
              obtain ⟨j, hj⟩ := hf f List.mem_cons_self
              obtain ⟨i', hi'⟩ := hE j f e hj hcond.2 hb
              exact absurd hi' (hb' _)
          · cases he
          · cases he; rfl
        · cases he; rfl
      refine ⟨i, [], by simp [hi], fun gs hg => ?_⟩
      obtain ⟨x, hx, _⟩ := hg 0 f rfl
      rw [Nat.add_zero] at hx
      exact leads_step hx (leads_nil x)
    · obtain ⟨k, suf, h1, h2⟩ := ih (fun f h => hf f (List.mem_cons_of_mem _ h)) c hc
      exact ⟨k, suf, h1, fun gs hg => h2 gs hg.tail⟩

theorem resolve_leads {U : Univ} (hU : U.Ok) (hE : U.EmbedsStructs) {o : Options} {j : Nat} {cs : List Cand} (h : Cands U o (U.fields j) 0 [] cs)
    {gs : List GV} (hg : HasTy U (.struct j) (.struct gs)) : ∀ c ∈ resolve [] cs, Leads (.struct gs) c.index := by
  intro c hc
  rcases resolve_mem hc with hc | hc
  · cases hc
  · obtain ⟨k, suf, h1, h2⟩ := cands_leads hU hE h (fun f h => ⟨j, h⟩) c hc
    rw [h1]
    exact h2 gs (fills_of hg)

/-! ## Trees -/

theorem encFields_perm {U : Univ} {o : Options} {v : GV} {cs ds : List Cand} (h : cs.Perm ds) :
    ∀ {ms}, EncFields U o v cs ms → ∃ ns, EncFields U o v ds ns ∧ ms.Perm ns := by
  induction h with
  | nil => intro ms h; exact ⟨ms, h, .refl _⟩
  | cons c _ ih =>
    intro ms h
    cases h with
    | absent h1 h2 => obtain ⟨ns, h3, h4⟩ := ih h2; exact ⟨ns, .absent h1 h3, h4⟩
    | omitted h1 h1' h2 => obtain ⟨ns, h3, h4⟩ := ih h2; exact ⟨ns, .omitted h1 h1' h3, h4⟩
    | present h1 h1' h1'' h2 => obtain ⟨ns, h3, h4⟩ := ih h2; exact ⟨_, .present h1 h1' h1'' h3, h4.cons _⟩
  | swap a b l =>
    intro ms h
    cases h with
    | absent h1 h2 =>
      cases h2 with
      | absent k1 k2 => exact ⟨_, .absent k1 (.absent h1 k2), .refl _⟩
      | omitted k1 k1' k2 => exact ⟨_, .omitted k1 k1' (.absent h1 k2), .refl _⟩
      | present k1 k1' k1'' k2 => exact ⟨_, .present k1 k1' k1'' (.absent h1 k2), .refl _⟩
    | omitted h1 h1' h2 =>
      cases h2 with
      | absent k1 k2 => exact ⟨_, .absent k1 (.omitted h1 h1' k2), .refl _⟩
      | omitted k1 k1' k2 => exact ⟨_, .omitted k1 k1' (.omitted h1 h1' k2), .refl _⟩
      | present k1 k1' k1'' k2 => exact ⟨_, .present k1 k1' k1'' (.omitted h1 h1' k2), .refl _⟩
    | present h1 h1' h1'' h2 =>
      cases h2 with
      | absent k1 k2 => exact ⟨_, .absent k1 (.present h1 h1' h1'' k2), .refl _⟩
      | omitted k1 k1' k2 => exact ⟨_, .omitted k1 k1' (.present h1 h1' h1'' k2), .refl _⟩
      | present k1 k1' k1'' k2 => exact ⟨_, .present k1 k1' k1'' (.present h1 h1' h1'' k2), .swap _ _ _⟩
  | trans _ _ ih1 ih2 =>
    intro ms h
    obtain ⟨ns, h1, h2⟩ := ih1 h
    obtain ⟨ns', h3, h4⟩ := ih2 h1
    exact ⟨ns', h3, h2.trans h4⟩

/-- with the order of members: equal; without: the same -/
def SameText (ord : Bool) (x y : JVal) : Prop := SameTree x y ∧ (ord = true → x = y)

theorem omits_true {U : Univ} {o : Options} {c : Cand} {x : GV} {b : Bool} (h : Omits U o c x b) (hb : b = true) : c.hint.omitempty = true := by
  cases h with
  | keep => cases hb
  | value h => exact h
  | struct h => exact h

theorem fields_alike {ord : Bool} {E : Env} {o : GenOptions} (hO : E.U.NoOmitMethod) {gs : List GV} {ds : List Cand} {ps : List Pick}
    (h : Pairs SameField ds ps) :
    (∀ c ∈ ds, Leads (.struct gs) c.index) → (∀ p ∈ ps, OmitOk E o p) →
    (∀ c ∈ ds, ∀ x, sub (.struct gs) c.index = some x → Alike ord E o c.typ x) →
    (∀ c ∈ ds, sub (.struct gs) c.index = some .nilPtr → c.hint.omitempty = true) →
    (∀ c ∈ ds, ∀ p ∈ ps, SameField c p → ∀ x, sub (.struct gs) c.index = some x → ∀ j1 j2, GEnc E o p.params p.field.typ x j1 →
      Encodes E.U defaultOptions c.hint c.typ x j2 → SameText ord j1 j2) →
    ∀ ms ns, GEncFields E o (.struct gs) ps ms → EncFields E.U defaultOptions (.struct gs) ds ns → SameMembers ms ns ∧ (ord = true → ms = ns) := by
  induction h with
  | nil =>
    intro _ _ _ _ _ ms ns h1 h2
    cases h1; cases h2
    exact ⟨.nil, fun _ => rfl⟩
  | @cons c p ds ps hcp _ ih =>
    intro hl ho ha hn hs ms ns h1 h2
    have ih' := ih (fun c h => hl c (List.mem_cons_of_mem _ h)) (fun p h => ho p (List.mem_cons_of_mem _ h)) (fun c h => ha c (List.mem_cons_of_mem _ h))
      (fun c h => hn c (List.mem_cons_of_mem _ h)) (fun c h p h' => hs c (List.mem_cons_of_mem _ h) p (List.mem_cons_of_mem _ h'))
    obtain ⟨l1, l2, l3⟩ := hl c List.mem_cons_self
    rw [hcp.path] at l1 l2 l3
    have hstr : c.hint.omitempty = true → ∀ j, E.U.base c.typ ≠ .struct j := by
      intro hm j
      rcases ho p List.mem_cons_self (hcp.omitempty.1 hm) with h | h
      · rw [hO] at h; cases h
      · rw [hcp.typ]; exact h j
    -- what omitempty says
    have hom : ∀ x b, sub (.struct gs) c.index = some x → Omits E.U defaultOptions c x b → b!"omitempty" ∈ p.params → x.empty = b := by
      intro x b _ hb hm
      cases hb with
      | keep h => rw [hcp.omitempty.2 hm] at h; cases h
      | value => rfl
      | struct h hb' => exact absurd hb' (hstr h _)
    have hog : ∀ x, sub (.struct gs) c.index = some x → omitted E o p.field.typ x = x.empty := by
      intro x hx
      unfold omitted
      rw [hO]
      dsimp only
      rw [← hcp.typ]
      have hal := ha c List.mem_cons_self x hx
      generalize c.typ = t at hal ⊢
      cases hal with
      | bool _ hb | int _ hb | uint _ hb | float _ hb | str _ hb | nilPtr _ hb | ptr _ hb | nilSlice _ hb | slice _ hb | emptyMap _ hb => rw [hb]
      | struct => rfl
    cases hx : sub (.struct gs) c.index with
    | none =>
      have hlk := l1 hx
      cases h1 with
      | absent _ h1 =>
        cases h2 with
        | absent _ h2 => exact ih' _ _ h1 h2
        | omitted k => rw [hx] at k; cases k
        | present k => rw [hx] at k; cases k
      | omitted k => rw [hlk] at k; cases k
      | present k => rw [hlk] at k; cases k
    | some x =>
      by_cases hnil : x = .nilPtr
      · subst hnil
        have hlk := l2 hx
        have hm := hn c List.mem_cons_self hx
        cases h1 with
        | absent _ h1 =>
          cases h2 with
          | absent k _ => rw [hx] at k; cases k
          | omitted _ _ h2 => exact ih' _ _ h1 h2
          | present k hk =>
            rw [hx] at k; cases k
            have := hom _ _ hx hk (hcp.omitempty.1 hm)
            simp [GV.empty] at this
        | omitted k => rw [hlk] at k; cases k
        | present k => rw [hlk] at k; cases k
      · have hlk := l3 x hnil hx
        cases h1 with
        | absent k => rw [hlk] at k; cases k
        | omitted k km ke h1 =>
          rw [hlk] at k; cases k
          rw [hog _ hx] at ke
          cases h2 with
          | absent k _ => rw [hx] at k; cases k
          | omitted _ _ h2 => exact ih' _ _ h1 h2
          | present k hk =>
            rw [hx] at k; cases k
            have := hom _ _ hx hk km
            rw [ke] at this; cases this
        | present k km ke h1 =>
          rw [hlk] at k; cases k
          cases h2 with
          | absent k _ => rw [hx] at k; cases k
          | omitted k hk h2 =>
            rw [hx] at k; cases k
            have hm := omits_true hk rfl
            have e1 := hom _ _ hx hk (hcp.omitempty.1 hm)
            have e2 := km (hcp.omitempty.1 hm)
            rw [hog _ hx, e1] at e2; cases e2
          | present k _ hk h2 =>
            rw [hx] at k; cases k
            obtain ⟨s1, s2⟩ := hs c List.mem_cons_self p List.mem_cons_self hcp _ hx _ _ ke hk
            obtain ⟨s3, s4⟩ := ih' _ _ h1 h2
            rw [hcp.name]
            exact ⟨.cons s1 s3, fun h => by rw [s2 h, s4 h]⟩

theorem elems_alike {ord : Bool} {E : Env} {o : GenOptions} {e : Ty} {ps : List Bytes} {h : Hint} : ∀ {xs : List GV},
    (∀ x ∈ xs, ∀ j1 j2, GEnc E o ps e x j1 → Encodes E.U defaultOptions h e x j2 → SameText ord j1 j2) →
    ∀ js ks, GEncElems E o ps e xs js → EncElems E.U defaultOptions h e xs ks → SameTrees js ks ∧ (ord = true → js = ks) := by
  intro xs
  induction xs with
  | nil =>
    intro _ js ks h1 h2
    cases h1; cases h2
    exact ⟨.nil, fun _ => rfl⟩
  | cons x xs ih =>
    intro hx js ks h1 h2
    cases h1 with
    | cons a1 a2 =>
      cases h2 with
      | cons b1 b2 =>
        obtain ⟨s1, s2⟩ := hx x List.mem_cons_self _ _ a1 b1
        obtain ⟨s3, s4⟩ := ih (fun x h => hx x (List.mem_cons_of_mem _ h)) _ _ a2 b2
        exact ⟨.cons s1 s3, fun h => by rw [s2 h, s4 h]⟩

theorem supported_field {E : Env} {o : GenOptions} {j : Nat} (hm : NoMarshal E.U (.struct j)) (h : ASupported E o (.struct j)) :
    (∀ p ∈ appendPicks E o j, ASupported E o p.field.typ) ∧ ∀ p ∈ appendPicks E o j, OmitOk E o p := by
  cases h with
  | method h => exact absurd hm h
  | struct hb h1 h2 => cases hb; exact ⟨h1, h2⟩
  | bool hb | string hb | int hb | uint hb | float hb | any hb | ptr hb | slice hb | map hb => cases hb

theorem pairs_mem {α β : Type} {R : α → β → Prop} {as : List α} {bs : List β} (h : Pairs R as bs) : ∀ a ∈ as, ∃ b ∈ bs, R a b := by
  induction h with
  | nil => intro a ha; cases ha
  | cons hr _ ih =>
    intro a ha
    rcases List.mem_cons.1 ha with rfl | ha
    · exact ⟨_, List.mem_cons_self, hr⟩
    · obtain ⟨b, hb, h⟩ := ih a ha
      exact ⟨b, List.mem_cons_of_mem _ hb, h⟩

/-- both write the same -/
theorem alike_same {ord : Bool} {E : Env} (hU : E.U.Ok) (hE : E.U.EmbedsStructs) (hO : E.U.NoOmitMethod) {o : GenOptions} {t : Ty} {v : GV}
    (h : Alike ord E o t v) : HasTy E.U t v → ASupported E o t → ∀ ps hint j1 j2, b!"raw" ∉ ps → hint.raw = false → hint.html = false →
    GEnc E o ps t v j1 → Encodes E.U defaultOptions hint t v j2 → SameText ord j1 j2 := by
  induction h with
  | bool hm hb =>
    intro hty hs ps hint j1 j2 _ _ _ h1 h2
    cases h1 with
    | appender h => rw [hm.1] at h; cases h
    | json _ h => rw [hm.2.1] at h; cases h
    | text _ _ h => rw [hm.2.2] at h; cases h
    | bool =>
      cases h2
      exact ⟨.bool, fun _ => rfl⟩
  | int hm hb =>
    intro hty hs ps hint j1 j2 _ _ _ h1 h2
    cases h1 with
    | appender h => rw [hm.1] at h; cases h
    | json _ h => rw [hm.2.1] at h; cases h
    | text _ _ h => rw [hm.2.2] at h; cases h
    | int =>
      cases h2
      exact ⟨.num, fun _ => rfl⟩
  | uint hm hb =>
    intro hty hs ps hint j1 j2 _ _ _ h1 h2
    cases h1 with
    | appender h => rw [hm.1] at h; cases h
    | json _ h => rw [hm.2.1] at h; cases h
    | text _ _ h => rw [hm.2.2] at h; cases h
    | uint =>
      cases h2
      exact ⟨.num, fun _ => rfl⟩
  | float hm hb he =>
    intro hty hs ps hint j1 j2 _ _ _ h1 h2
    cases h1 with
    | appender h => rw [hm.1] at h; cases h
    | json _ h => rw [hm.2.1] at h; cases h
    | text _ _ h => rw [hm.2.2] at h; cases h
    | float =>
      cases h2
      rw [he]
      exact ⟨.num, fun _ => rfl⟩
  | str hm hb =>
    intro hty hs ps hint j1 j2 hr hr1 hr2 h1 h2
    cases h1 with
    | appender h => rw [hm.1] at h; cases h
    | json _ h => rw [hm.2.1] at h; cases h
    | text _ _ h => rw [hm.2.2] at h; cases h
    | str =>
      cases h2
      unfold strText
      rw [hr1, hr2]
      exact ⟨.str, fun _ => rfl⟩
    | raw _ _ hr' => exact absurd hr' hr
  | nilPtr hm hb =>
    intro hty hs ps hint j1 j2 _ _ _ h1 h2
    cases h1 with
    | appender h => rw [hm.1] at h; cases h
    | json _ h => rw [hm.2.1] at h; cases h
    | text _ _ h => rw [hm.2.2] at h; cases h
    | nilPtr =>
      cases h2
      exact ⟨.null, fun _ => rfl⟩
  | @ptr t e v hm hb hp _ ih =>
    intro hty hs ps hint j1 j2 hr hr1 hr2 h1 h2
    have hs' : ASupported E o e := by
      cases hs with
      | method h => exact absurd hm h
      | ptr hb' h => rw [hb] at hb'; cases hb'; exact h
      | bool hb' | string hb' | int hb' | uint hb' | float hb' | any hb' | slice hb' | map hb' | struct hb' => rw [hb] at hb'; cases hb'
    have hv' : HasTy E.U e v := by
      rcases hty.inv_ptr hb with h | ⟨x, h, hx⟩
      · cases h
      · cases h; exact hx
    cases h1 with
    | appender h => rw [hm.1] at h; cases h
    | json _ h => rw [hm.2.1] at h; cases h
    | text _ _ h => rw [hm.2.2] at h; cases h
    | ptr _ hb1 _ h1 =>
      rw [hb] at hb1; cases hb1
      cases h2 with
      | ptr hb2 h2 =>
        rw [hb] at hb2; cases hb2
        exact ih hv' hs' ps hint _ _ hr hr1 hr2 h1 h2
    | ptrVoid _ hb1 hvoid =>
      rw [hb] at hb1; cases hb1
      cases hvoid with
      | struct hb' => exact absurd hb' (hp _)
      | ptr hb' => exact absurd hb' (hp _)
  | nilSlice hm hb =>
    intro hty hs ps hint j1 j2 _ _ _ h1 h2
    cases h1 with
    | appender h => rw [hm.1] at h; cases h
    | json _ h => rw [hm.2.1] at h; cases h
    | text _ _ h => rw [hm.2.2] at h; cases h
    | nilSlice =>
      cases h2
      exact ⟨.arr .nil, fun _ => rfl⟩
  | @slice t e arr len hm hb _ ih =>
    intro hty hs ps hint j1 j2 hr hr1 hr2 h1 h2
    have hs' : ASupported E o e := by
      cases hs with
      | method h => exact absurd hm h
      | slice hb' h => rw [hb] at hb'; cases hb'; exact h
      | bool hb' | string hb' | int hb' | uint hb' | float hb' | any hb' | ptr hb' | map hb' | struct hb' => rw [hb] at hb'; cases hb'
    have hv' : ∀ x ∈ arr.take len, HasTy E.U e x := by
      rcases hty.inv_slice hb with h | ⟨_, _, h, _, hx⟩
      · cases h
      · cases h; exact fun x hx' => hx x (List.mem_of_mem_take hx')
    cases h1 with
    | appender h => rw [hm.1] at h; cases h
    | json _ h => rw [hm.2.1] at h; cases h
    | text _ _ h => rw [hm.2.2] at h; cases h
    | slice _ hb1 h1 =>
      rw [hb] at hb1; cases hb1
      cases h2 with
      | slice hb2 h2 =>
        rw [hb] at hb2; cases hb2
        obtain ⟨s1, s2⟩ := elems_alike (fun x hx j1 j2 => ih x hx (hv' x hx) hs' ps hint j1 j2 hr hr1 hr2) _ _ h1 h2
        exact ⟨.arr s1, fun h => by rw [s2 h]⟩
  | emptyMap hm hb =>
    intro hty hs ps hint j1 j2 _ _ _ h1 h2
    cases h1 with
    | appender h => rw [hm.1] at h; cases h
    | json _ h => rw [hm.2.1] at h; cases h
    | text _ _ h => rw [hm.2.2] at h; cases h
    | map _ _ _ h1 =>
      cases h1
      cases h2 with
      | map _ h2 =>
        cases h2
        exact ⟨.obj (.refl _) .nil, fun _ => rfl⟩
  | @struct j fs cs hm hc hss ha hn ih =>
    intro hty hs ps hint j1 j2 _ _ _ h1 h2
    obtain ⟨ds, hp, hord, hpair⟩ := hss
    obtain ⟨hsf, hok⟩ := supported_field hm hs
    cases h1 with
    | appender h => rw [hm.1] at h; cases h
    | json _ h => rw [hm.2.1] at h; cases h
    | text _ _ h => rw [hm.2.2] at h; cases h
    | struct _ h1 =>
      cases h2 with
      | @struct _ _ _ _ cs' _ _ hb2 hc2 h2 =>
        cases hb2
        cases cands_unique hc hc2
        obtain ⟨ns, h3, h4⟩ := encFields_perm hp h2
        have hl := resolve_leads hU hE hc hty
        have key := fields_alike (ord := ord) hO hpair (fun c hc => hl c (hp.mem_iff.2 hc)) hok (fun c hc => ha c (hp.mem_iff.2 hc))
          (fun c hc => hn c (hp.mem_iff.2 hc)) (fun c hc p hp' hcp x hx j1 j2 => by
            rw [← hcp.typ]
            refine ih c (hp.mem_iff.2 hc) x hx ?_ ?_ p.params c.hint j1 j2 hcp.plain.2.2 hcp.plain.1 hcp.plain.2.1
            · exact sub_hasTy (cands_path0 hE rfl hc2 c (hp.mem_iff.2 hc)) hty hx
            · rw [hcp.typ]; exact hsf p hp')
        obtain ⟨s1, s2⟩ := key _ _ h1 h3
        refine ⟨.obj h4 s1, fun h => ?_⟩
        have e := hord h
        subst e
        obtain ⟨s3, s4⟩ := key _ _ h1 h2
        rw [s4 h]

end Verif.Gen
