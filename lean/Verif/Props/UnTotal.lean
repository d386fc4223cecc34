import Verif.Spec.UnTotal
import Verif.Proofs.UnDecTotal
import Verif.Proofs.UnRunLe
import Verif.Proofs.UnParts
import Verif.Props.UnOptions
import Verif.Props.UnRound
import Verif.Props.Strip

/-! # Codecs are built, and Marshal and Unmarshal return (C71 to C75) -/

namespace Verif.Props
open Verif Verif.Float Verif.Spec Verif.Njson Verif.Unjson

/-! ## C71 -/

/-- **C71**, encoders: `NewTypeEncoder` returns an encoder for every supported type and all options. -/
theorem C71_encoder {U : Univ} (hU : U.Ok) {o o' : Options} (ho : InForce o o') {t : Ty} (hF : Finite U o' t) (hs : Supported U t) :
    ∃ m N, ∀ fuel, N ≤ fuel → newTypeEncoder U o fuel t = .ok m := by
  cases inForce_eq ho
  obtain ⟨N, m, h⟩ := newTypeEncoder_total hU hF hs
  exact ⟨m, N, h⟩

/-- **C71**, decoders: `NewTypeDecoder` returns a decoder for every pointer to a supported type and all tag keys. -/
theorem C71_decoder {U : Univ} (hU : U.Ok) {tag : Bytes} {o' : Options} (ho : InForceTag tag o') {t e : Ty} (hb : U.base t = .ptr e)
    (hF : Finite U o' e) (hs : Supported U e) : ∃ c N, ∀ fuel, N ≤ fuel → newTypeDecoder U tag fuel t = .ok c := by
  cases inForceTag_eq ho
  obtain ⟨N, m, h⟩ := newTypeDecoder_total hU hb hF hs
  exact ⟨m, N, h⟩

/-! ## C72 -/

/-- A codec for a struct exists only if its fields can be listed. -/
theorem store_struct {U : Univ} {o : Options} {objs : List Obj} (hs : StoreOk U o objs) {r : Nat} {t : Ty} (hr : sh objs r = some (.struct t []))
    {j : Nat} (hb : U.base t = .struct j) : EmbedsEnd U o j := by
  unfold sh at hr
  cases hq : objs[r]? with
  | none => rw [hq] at hr; cases hr
  | some x =>
    rw [hq] at hr
    have := hs r x hq
    cases x with
    | struct t' fs =>
      simp [Obj.shape] at hr
      subst hr
      obtain ⟨j', cs, h1, h2, _⟩ := this
      rw [hb] at h1; cases h1
      exact ⟨cs, h2⟩
    | _ => simp [Obj.shape] at hr

/-- **C72**, encoders: for a struct type that embeds itself `NewTypeEncoder` (and so `Marshal`) does not return. -/
theorem C72_encoder {U : Univ} (hU : U.Ok) {o o' : Options} (ho : InForce o o') {t : Ty} {j : Nat} (hb : U.base t = .struct j)
    (hn : NoMarshal U t) (hp : NoMarshal U (.ptr t)) (hs : Supported U t) (hE : ¬ EmbedsEnd U o' j) (fuel : Nat) :
    newTypeEncoder U o fuel t = .diverge := by
  cases inForce_eq ho
  cases hq : newTypeEncoder U o fuel t with
  | diverge => rfl
  | err e => exact absurd hq (newTypeEncoder_accepts hU hs e)
  | ok m =>
    obtain ⟨_, m2, m3⟩ := newTypeEncoder_ok (.inl ⟨by simp [hb], rfl, hp⟩) hq
    cases he : m.enc with
    | struct r =>
      rw [he] at m3
      obtain ⟨j', h1, h2⟩ := m3
      exact absurd (store_struct m2 h2 hb) hE
    | njson => rw [he] at m3; exact absurd m3 (by simp [EncIs, hn.1])
    | json => rw [he] at m3; exact absurd m3 (by simp [EncIs, hn.2.1])
    | text => rw [he] at m3; exact absurd m3 (by simp [EncIs, hn.2.2])
    | _ => rw [he] at m3; simp [EncIs, hb] at m3

/-- **C72**, decoders: nor do `NewTypeDecoder` and `Unmarshal`. -/
theorem C72_decoder {U : Univ} (hU : U.Ok) {tag : Bytes} {o' : Options} (ho : InForceTag tag o') {t e : Ty} {j : Nat} (hb : U.base t = .ptr e)
    (hj : U.base e = .struct j) (hn : NoUnmarshal U t) (hp : NoUnmarshal U e) (hs : Supported U e) (hE : ¬ EmbedsEnd U o' j) (fuel : Nat) :
    newTypeDecoder U tag fuel t = .diverge := by
  cases inForceTag_eq ho
  cases hq : newTypeDecoder U tag fuel t with
  | diverge => rfl
  | err e => exact absurd hq (newTypeDecoder_accepts hU hb hs e)
  | ok c =>
    unfold newTypeDecoder at hq
    rw [hb] at hq
    simp only at hq
    rw [if_neg (by simp [hn.1]), if_neg (by simp [hn.2.1]), if_neg (by simp [hn.2.2])] at hq
    cases hd : newDecoder U { tag := if tag = [] then defaultTag else tag } fuel e Codecs.empty with
    | diverge => rw [hd] at hq; cases hq
    | err e => rw [hd] at hq; cases hq
    | ok p =>
      obtain ⟨d, c'⟩ := p
      obtain ⟨m2, m3⟩ := newDecoder_store hd
      cases d with
      | struct r =>
        obtain ⟨j', h1, h2⟩ := m3
        exact absurd (store_struct m2 h2 hj) hE
      | njson => exact absurd m3 (by simp [DecIs, hp.1])
      | json => exact absurd m3 (by simp [DecIs, hp.2.1])
      | text => exact absurd m3 (by simp [DecIs, hp.2.2])
      | _ => simp [DecIs, hj] at m3

/-- There is no list of the fields of `type T9 struct { *T9 }`. -/
theorem exU_endless (o : Options) (ho : (o.parseField (fld b!"P" (.ptr (.struct 9)) [] true)).1 = b!"P")
    (ht : (o.parseField (fld b!"P" (.ptr (.struct 9)) [] true)).2.2 = false) : ¬ EmbedsEnd exU o 9 := by
  rintro ⟨cs, h⟩
  have key : ∀ {fs : List Field} {i : Nat} {idx : List Int} {cs : List Cand}, Cands exU o fs i idx cs →
      fs ≠ [fld b!"P" (.ptr (.struct 9)) [] true] := by
    intro fs i idx cs h
    induction h with
    | nil => simp
    | skip hs _ _ =>
      intro hf; cases hf
      rcases hs with hs | hs
      · cases hs
      · rw [ho] at hs; cases hs
    | @embed f fs i idx cs ds idx' j h1 h2 h3 _ _ ih1 ih2 =>
      intro hf; cases hf
      rw [ht] at h3
      have : embedding exU (fld b!"P" (.ptr (.struct 9)) [] true) false (idx ++ [(i : Int)]) = (idx ++ [(i : Int)] ++ [-1], some 9) := rfl
      rw [this] at h3
      cases h3
      exact ih1 rfl
    | @field f fs i idx cs idx' h1 h2 h3 _ _ =>
      intro hf; cases hf
      rw [ht] at h3
      have : embedding exU (fld b!"P" (.ptr (.struct 9)) [] true) false (idx ++ [(i : Int)]) = (idx ++ [(i : Int)] ++ [-1], some 9) := rfl
      rw [this] at h3
      cases h3
  exact key h rfl

theorem exU_comp9 {t' : Ty} (h : Comp exU (.struct 9) t') : t' = .struct 9 ∨ t' = .ptr (.struct 9) := by
  have key : ∀ {t t'}, Comp exU t t' → (t = .struct 9 ∨ t = .ptr (.struct 9)) → (t' = .struct 9 ∨ t' = .ptr (.struct 9)) := by
    intro t t' h
    induction h with
    | refl => exact id
    | ptr hb _ ih => rintro (rfl | rfl) <;> cases hb; exact ih (.inl rfl)
    | slice hb _ ih => rintro (rfl | rfl) <;> cases hb
    | array hb _ ih => rintro (rfl | rfl) <;> cases hb
    | map hb _ ih => rintro (rfl | rfl) <;> cases hb
    | @field t j f t' hb hf _ _ ih =>
      rintro (rfl | rfl) <;> cases hb
      simp [exU, exFields] at hf
      subst hf
      exact ih (.inr rfl)
  exact key h (.inl rfl)

/-- **C72**, `Marshal`: it does not return for a value of a struct type that embeds itself. -/
theorem C72_marshal {U : Univ} (hU : U.Ok) {o' : Options} (ho : InForce {} o') {t : Ty} {j : Nat} (hb : U.base t = .struct j) (hn : NoMarshal U t) (hp : NoMarshal U (.ptr t))
    (hs : Supported U t) (hE : ¬ EmbedsEnd U o' j) (fuel : Nat) (v : GV) : marshal U fuel (some (t, v)) = none := by
  have := C72_encoder hU ho hb hn hp hs hE fuel
  unfold marshal Unjson.appendJSON
  simp only [this]

/-- **C72**, `Unmarshal`: it does not return for a pointer to such a struct, whatever the text is. -/
theorem C72_unmarshal {U : Univ} (hU : U.Ok) {t e : Ty} {j : Nat} (hb : U.base t = .ptr e) (hj : U.base e = .struct j) (hn : NoUnmarshal U t)
    (hp : NoUnmarshal U e) (hs : Supported U e) (hE : ¬ EmbedsEnd U { tag := b!"json" } j) (fuel : Nat) (d : Doc) (s : Bytes) (v : GV) :
    unmarshal U fuel d s (some (t, v)) = none := by
  have := C72_decoder hU (tag := []) (o' := { tag := b!"json" }) ⟨fun _ => rfl, fun h => absurd rfl h, by simp⟩ hb hj hn hp hs hE fuel
  unfold unmarshal
  simp only [this]

/-- So `Marshal` of a value of this type does not return, and neither does `Unmarshal`. The Go program dies of stack overflow. -/
theorem C72_example (fuel : Nat) (v : GV) (d : Doc) (s : Bytes) :
    marshal exU fuel (some (.struct 9, v)) = none ∧ unmarshal exU fuel d s (some (.ptr (.struct 9), .ptr v)) = none := by
  have hs : Supported exU (.struct 9) := by
    intro t h
    rcases exU_comp9 h with rfl | rfl <;> simp [Univ.base]
  have nm : ∀ t, (t ≠ .struct 5 ∧ t ≠ .ptr (.struct 5)) → NoMarshal exU t := by
    intro t ⟨h1, h2⟩; unfold NoMarshal exU; simp [h1, h2]
  constructor
  · have := C72_encoder exU_ok (inForce_exists {}) (t := .struct 9) (j := 9) rfl (nm _ (by decide)) (nm _ (by decide)) hs
      (exU_endless _ (by decide +kernel) (by decide +kernel)) fuel
    unfold marshal Unjson.appendJSON
    simp only [this]
  · have := C72_decoder exU_ok (tag := []) (o' := { tag := b!"json" }) ⟨fun _ => rfl, fun h => absurd rfl h, by simp⟩ (t := .ptr (.struct 9)) (j := 9) rfl rfl
      (exU_noUnmarshal _) (exU_noUnmarshal _) hs (exU_endless _ (by decide +kernel) (by decide +kernel)) fuel
    unfold unmarshal
    simp only [this]

/-! ## C73 -/

/-- What a function of the fuel returns once it returns. -/
theorem stable_result {α : Type} {f : Nat → Option α} (h : ∀ n, OLe (f n) (f (n + 1))) {n : Nat} {r : α} (hr : f n = some r) : ∀ m, n ≤ m → f m = some r := by
  intro m hm
  rcases OLe.steps h hm with h' | h'
  · rw [hr] at h'; cases h'
  · rw [h', hr]

/-- **C73**: results do not depend on the fuel: what `AppendJSON` returns for some fuel it returns for all larger ones, and two
results are equal. So a result in the model is the result of the call. -/
theorem C73_fuel (U : Univ) (out : Bytes) (x : Option (Ty × GV)) (n : Nat) (r : Out Bytes) (h : Unjson.appendJSON U n out x = some r) :
    (∀ m, n ≤ m → Unjson.appendJSON U m out x = some r) ∧ ∀ m r', Unjson.appendJSON U m out x = some r' → r' = r := by
  have key := fun {n r} => @stable_result _ _ (appendJSON_le U out x) n r
  refine ⟨key h, fun m r' h' => ?_⟩
  have h1 := key h (max n m) (by omega)
  have h2 := key h' (max n m) (by omega)
  rw [h1] at h2; cases h2; rfl

/-- `AppendJSON` returns, with success if the value is `Marshalable`. -/
theorem append_ends {U : Univ} (hU : U.Ok) (hE : U.EmbedsStructs) (hO : U.NoOmitMethod) {t : Ty} {v : GV} (hv : MarshalArg U t v)
    (hF : Finite U defaultOptions t) (hd : FiniteDyn U defaultOptions t v) (out : Bytes) :
    ∃ N r, (∀ fuel, N ≤ fuel → Unjson.appendJSON U fuel out (some (t, v)) = some r) ∧
      (Supported U t → Marshalable U defaultOptions t v → ∃ b, r = .done b none) := by
  obtain ⟨N, q, hq, hN⟩ := newTypeEncoder_ends (o := {}) hF
  cases q with
  | diverge => exact absurd rfl hq
  | err e =>
    refine ⟨N, .done [] (some e), fun fuel hf => ?_, fun hs _ => ?_⟩
    · unfold Unjson.appendJSON; simp only [hN fuel hf]
    · exact absurd (hN N (Nat.le_refl _)) (newTypeEncoder_accepts hU hs e)
  | ok m =>
    have run : ∃ N', ∀ fuel, N' ≤ fuel → Fine (Marshalable U defaultOptions t v) (m.encode U fuel out t v) := by
      rcases hv with ⟨hb, hn, hp⟩ | ⟨e, x, rfl, hb, hn, hp⟩
      · obtain ⟨m1, m2, m3⟩ := newTypeEncoder_ok (.inl ⟨hb, rfl, hn⟩) (hN N (Nat.le_refl _))
        obtain ⟨N', h'⟩ := encode_ends hU hE hO _ _ _ _ _ _ _ (Nat.lt_succ_self (sizeOf v)) m2 m3 hp hd
        refine ⟨N', fun fuel hf => ?_⟩
        have : m.encode U fuel out t v = encode U m.objs fuel m.enc out ⟨t, v, false⟩ := by
          unfold TypeEncoder.encode
          cases hbt : U.base t <;> first | exact absurd hbt (hb _) | (simp only; rw [if_pos m1.symm])
        rw [this]
        exact h' fuel hf _ _
      · obtain ⟨m1, m2, m3⟩ := newTypeEncoder_ok (.inr ⟨hb, hn⟩) (hN N (Nat.le_refl _))
        obtain ⟨N', h'⟩ := encode_ends hU hE hO _ _ _ _ _ _ _ (Nat.lt_succ_self (sizeOf x)) m2 m3 hp (hd.inv_ptr hb)
        refine ⟨N', fun fuel hf => ?_⟩
        have : m.encode U fuel out t (.ptr x) = encode U m.objs fuel m.enc out ⟨e, x, true⟩ := by
          unfold TypeEncoder.encode
          simp only [hb]
          rw [if_pos m1.symm]
        rw [this]
        exact (h' fuel hf _ _).mono fun hm => hm.inv_ptr hb
    obtain ⟨N', h'⟩ := run
    obtain ⟨r, hr, hm⟩ := h' (max N N') (by omega)
    have happ : Unjson.appendJSON U (max N N') out (some (t, v)) = some r := by
      unfold Unjson.appendJSON; simp only [hN (max N N') (by omega)]; exact hr
    exact ⟨max N N', r, (C73_fuel U out _ _ _ happ).1, fun _ hM => hm hM⟩

/-- **C73**: `AppendJSON` returns for every value without marshal methods of a type that is made of finitely many types and does not
embed itself (also in interfaces). -/
theorem C73_returns {U : Univ} (hU : U.Ok) (hE : U.EmbedsStructs) (hO : U.NoOmitMethod) {t : Ty} {v : GV} (hv : MarshalArg U t v)
    (hF : Finite U defaultOptions t) (hd : FiniteDyn U defaultOptions t v) (out : Bytes) :
    ∃ N r, ∀ fuel, N ≤ fuel → Unjson.appendJSON U fuel out (some (t, v)) = some r := by
  obtain ⟨N, r, h, _⟩ := append_ends hU hE hO hv hF hd out
  exact ⟨N, r, h⟩

/-- **C73**: it returns without an error, with the text of the tree that the value is encoded as, when the types are supported and
the floats finite. -/
theorem C73_success {U : Univ} (hU : U.Ok) (hE : U.EmbedsStructs) (hO : U.NoOmitMethod) (hG : U.GoFloats) {t : Ty} {v : GV} (hv : MarshalArg U t v)
    (hF : Finite U defaultOptions t) (hd : FiniteDyn U defaultOptions t v) (hs : Supported U t) (hm : Marshalable U defaultOptions t v) (out : Bytes) :
    ∃ N j, MarshalsAs U t v j ∧ ∀ fuel, N ≤ fuel → Unjson.appendJSON U fuel out (some (t, v)) = some (.done (out ++ j.ser) none) := by
  obtain ⟨N, r, h, h'⟩ := append_ends hU hE hO hv hF hd out
  obtain ⟨b, rfl⟩ := h' hs hm
  rcases C47_encodes hE hO hG hv N out _ (h N (Nat.le_refl _)) with ⟨j, h1, h2⟩ | ⟨b', e, h1⟩
  · rw [h1] at h; exact ⟨N, j, h2, h⟩
  · cases h1

/-! ## C74 -/

/-- **C74**: results of `Unmarshal` do not depend on the fuel. -/
theorem C74_fuel (U : Univ) (d : Doc) (s : Bytes) (x : Option (Ty × GV)) (n : Nat) (r : Out (Option (Ty × GV))) (h : unmarshal U n d s x = some r) :
    (∀ m, n ≤ m → unmarshal U m d s x = some r) ∧ ∀ m r', unmarshal U m d s x = some r' → r' = r := by
  have key := fun {n r} => @stable_result _ _ (unmarshal_le U d s x) n r
  refine ⟨key h, fun m r' h' => ?_⟩
  have h1 := key h (max n m) (by omega)
  have h2 := key h' (max n m) (by omega)
  rw [h1] at h2; cases h2; rfl

/-- **C74**: `Unmarshal` returns for every text and every destination whose type is made of finitely many types, does not embed
itself and contains no endless chain of pointers. Types with unmarshal methods are included. -/
theorem C74_returns {U : Univ} (hE : U.EmbedsStructs) {t : Ty} (v : GV) (hF : ∀ e, U.base t = .ptr e → Finite U decodeOptions e ∧ ∀ t', Comp U e t' → PtrEnds U t')
    {d : Doc} (hd : d.Wf) (s : Bytes) : ∃ N r, ∀ fuel, N ≤ fuel → unmarshal U fuel d s (some (t, v)) = some r := by
  suffices ∃ N r, unmarshal U N d s (some (t, v)) = some r by
    obtain ⟨N, r, h⟩ := this
    exact ⟨N, r, (C74_fuel U d s _ N r h).1⟩
  obtain ⟨N, q, hq, hN⟩ := newTypeDecoder_ends (U := U) (tag := []) (t := t) (fun e hb => (hF e hb).1)
  have fin : ∀ {c : TypeDecoder} {fuel : Nat}, newTypeDecoder U [] fuel t = .ok c →
      (∀ h n j, Tree h n j → Heap.parse (fun _ => d) 0 s = (h, n, (Heap.parse (fun _ => d) 0 s).2.2) → c.decode U fuel h n t v ≠ none) →
      ∃ r, unmarshal U fuel d s (some (t, v)) = some r := by
    intro c fuel hc hdec
    unfold unmarshal
    simp only [hc]
    rcases heap_parse hd s with ⟨d', id, j, tail, h, n, q1, q2, q3⟩ | ⟨q1, h, n, out, q2, q3, q4⟩
    · have := hdec h n j q3 (by rw [q2])
      rw [q2]
      simp only
      cases hr : c.decode U fuel h n t v with
      | none => exact absurd hr this
      | some r => cases r <;> exact ⟨_, rfl⟩
    · rw [q2]
      cases out with
      | ok id tail => exact absurd rfl (q4 _ _)
      | crash => exact absurd rfl q3
      | _ => exact ⟨_, rfl⟩
  cases q with
  | diverge => exact absurd rfl hq
  | err e => exact ⟨N, .done (some (t, v)) (some e), by unfold unmarshal; simp only [hN N (Nat.le_refl _)]⟩
  | ok c =>
    -- the tree of the text, if it parses
    have tree : ∃ j0 : JVal, ∀ h n j, Tree h n j → Heap.parse (fun _ => d) 0 s = (h, n, (Heap.parse (fun _ => d) 0 s).2.2) → j = j0 := by
      rcases heap_parse hd s with ⟨d', id, j0, tail, h0, n0, q1, q2, q3⟩ | ⟨q1, h0, n0, out, q2, q3, q4⟩
      · refine ⟨j0, fun h n j ht hp => ?_⟩
        rw [q2] at hp; cases hp
        exact tree_unique ht q3
      · by_cases hj : ∃ j, Tree h0 n0 j
        · obtain ⟨j0, hj⟩ := hj
          refine ⟨j0, fun h n j ht hp => ?_⟩
          rw [q2] at hp; cases hp
          exact tree_unique ht hj
        · refine ⟨.null, fun h n j ht hp => ?_⟩
          rw [q2] at hp; cases hp
          exact absurd ⟨j, ht⟩ hj
    obtain ⟨j0, hj0⟩ := tree
    have dec : ∃ N', ∀ fuel, N' ≤ fuel → ∀ h n, Tree h n j0 → c.decode U fuel h n t v ≠ none := by
      have hc := hN N (Nat.le_refl _)
      unfold newTypeDecoder at hc
      cases hb : U.base t with
      | ptr e =>
        rw [hb] at hc
        simp only at hc
        have meth : ∀ (m : Meth) (x : Option (Out GV)), x ≠ none → ∀ fuel, j0.size ≤ fuel → ∀ h n, Tree h n j0 →
            (if U.impl t m then decMethod U m fuel h n t v else x) ≠ none := by
          intro m x hx fuel hf h n ht
          split
          · exact decMethod_ends ht hf m t v
          · exact hx
        by_cases h1 : U.impl t .unmarshaler = true
        · rw [if_pos h1] at hc; cases hc
          exact ⟨j0.size, fun fuel hf h n ht => meth .unmarshaler _ (by simp) fuel hf h n ht⟩
        rw [if_neg h1] at hc
        by_cases h2 : U.impl t .jsonUnmarshaler = true
        · rw [if_pos h2] at hc; cases hc
          exact ⟨j0.size, fun fuel hf h n ht => meth .jsonUnmarshaler _ (by simp) fuel hf h n ht⟩
        rw [if_neg h2] at hc
        by_cases h3 : U.impl t .textUnmarshaler = true
        · rw [if_pos h3] at hc; cases hc
          exact ⟨j0.size, fun fuel hf h n ht => meth .textUnmarshaler _ (by simp) fuel hf h n ht⟩
        rw [if_neg h3] at hc
        simp only [if_true] at hc
        cases hn : newDecoder U { tag := defaultTag } N e Codecs.empty with
        | diverge => rw [hn] at hc; cases hc
        | err e => rw [hn] at hc; cases hc
        | ok p =>
          obtain ⟨dec, cs⟩ := p
          rw [hn] at hc
          cases hc
          obtain ⟨hs, hdi⟩ := newDecoder_store hn
          obtain ⟨N', h'⟩ := decode_ends hE hs j0 e dec hdi (hF e hb).2
          refine ⟨N', fun fuel hf h n ht => ?_⟩
          have key : ∀ rv, (match Unjson.decode U cs.objs h fuel dec n rv with
              | some (.done x e) => some (.done (GV.ptr x) e) | r => r) ≠ none := by
            intro rv
            have := h' fuel hf h n rv ht
            cases hr : Unjson.decode U cs.objs h fuel dec n rv with
            | none => exact absurd hr this
            | some r => cases r <;> simp
          simp only [TypeDecoder.decode, if_true, hb]
          split
          · exact key _
          · split <;> simp
          · simp
      | iface m i =>
        rw [hb] at hc
        simp only at hc
        split at hc
        · cases hc
          refine ⟨0, fun fuel _ h n _ => ?_⟩
          cases t with
          | ptr t' => cases hb
          | _ => simp [TypeDecoder.decode]
        · cases hc
      | _ => rw [hb] at hc; cases hc
    obtain ⟨N', h'⟩ := dec
    obtain ⟨r, hr⟩ := fin (fuel := max N N') (hN _ (by omega)) fun h n j ht hp => by
      cases hj0 h n j ht hp
      exact h' _ (by omega) h n ht
    exact ⟨_, r, hr⟩

/-- A decoder for an endless chain of pointers does not return. -/
theorem decode_endless {U : Univ} {o : Options} {objs : List Obj} (hs : StoreOk U o objs) {h : Heap} {n : Node} {j : JVal} (ht : Tree h n j)
    (hj : j ≠ .null) : ∀ (fuel : Nat) (t : Ty) (d : Dec) (v : GV) (a : Bool), DecIs U objs d t → PlainTy U t → ¬ PtrEnds U t →
      decode U objs h fuel d n ⟨t, v, a⟩ = none := by
  have hnull : n.typ h ≠ tNull := by
    rw [tree_typ ht]
    cases j <;> first | exact absurd rfl hj | (simp [jtyp]; decide)
  intro fuel
  induction fuel with
  | zero => intros; rw [decode]
  | succ fuel ih =>
    intro t d v a hd hp he
    obtain ⟨e, hb⟩ : ∃ e, U.base t = .ptr e := by
      by_cases h : ∃ e, U.base t = .ptr e
      · exact h
      · exact absurd (PtrEnds.leaf fun e hb => h ⟨e, hb⟩) he
    have hn := hp t .refl
    cases d with
    | ptr r =>
      obtain ⟨e', h1, h2⟩ := hd
      rw [hb] at h1; cases h1
      unfold sh at h2
      cases hq : objs[r]? with
      | none => rw [hq] at h2; cases h2
      | some x =>
        rw [hq] at h2
        have hx := hs r x hq
        cases x with
        | ptrD e'' d' =>
          simp [Obj.shape] at h2
          subst h2
          obtain ⟨d', rfl, hd'⟩ := hx
          rw [decode.eq_def]
          simp only [hq, hb, if_true]
          rw [if_neg hnull]
          rw [ih e'' d' _ true hd' (fun t' hc => hp t' (.ptr hb hc)) fun h => he (.elem hb h)]
        | _ => simp [Obj.shape] at h2
    | njson => exact absurd hd (by simp [DecIs, hn.1])
    | json => exact absurd hd (by simp [DecIs, hn.2.1])
    | text => exact absurd hd (by simp [DecIs, hn.2.2])
    | _ => simp [DecIs, hb] at hd

/-- **C74**: with an endless chain of pointers `Unmarshal` of anything but null does not return. -/
theorem C74_endless {U : Univ} (hU : U.Ok) {t e : Ty} (x : GV) (hb : U.base t = .ptr e) (hn : NoUnmarshal U t) (hp : PlainTy U e) (hs : Supported U e)
    (he : ¬ PtrEnds U e) {d : Doc} (hd : d.Wf) (s : Bytes) {d' : Doc} {id : Nat} {j : JVal} {tail : Bytes} (hparse : Parses d s d' id j tail)
    (hj : j ≠ .null) (fuel : Nat) : unmarshal U fuel d s (some (t, .ptr x)) = none := by
  unfold unmarshal
  simp only
  cases hq : newTypeDecoder U [] fuel t with
  | diverge => rfl
  | err e => exact absurd hq (newTypeDecoder_accepts hU hb hs e)
  | ok c =>
    unfold newTypeDecoder at hq
    rw [hb] at hq
    simp only at hq
    rw [if_neg (by simp [hn.1]), if_neg (by simp [hn.2.1]), if_neg (by simp [hn.2.2]), if_pos trivial] at hq
    cases hn : newDecoder U { tag := defaultTag } fuel e Codecs.empty with
    | diverge => rw [hn] at hq; cases hq
    | err e => rw [hn] at hq; cases hq
    | ok p =>
      obtain ⟨dec, cs⟩ := p
      rw [hn] at hq
      cases hq
      obtain ⟨hst, hdi⟩ := newDecoder_store hn
      rcases heap_parse hd s with ⟨d2, id2, j2, tail2, h, n, q1, q2, q3⟩ | ⟨q1, _⟩
      · obtain ⟨rfl, rfl⟩ := parses_unique hd hparse q1
        rw [q2]
        simp only [TypeDecoder.decode, if_true, hb]
        rw [decode_endless hst q3 hj fuel e dec x true hdi hp he]
      · exact absurd ⟨_, _, _, _, hparse⟩ q1

/-- `type P *P` -/
def exP : Univ := { exU with
  under := fun _ => .ptr (.named 0)
  zeroNamed := fun _ => .nilPtr
  fields := fun _ => []
  zeroStruct := fun _ => .struct [] }

theorem exP_comp {t' : Ty} (h : Comp exP (.named 0) t') : t' = .named 0 := by
  have key : ∀ {t t'}, Comp exP t t' → t = .named 0 → t' = .named 0 := by
    intro t t' h
    induction h with
    | refl => exact id
    | ptr hb _ ih => rintro rfl; cases hb; exact ih rfl
    | slice hb _ ih => rintro rfl; cases hb
    | array hb _ ih => rintro rfl; cases hb
    | map hb _ ih => rintro rfl; cases hb
    | field hb hf _ _ ih => rintro rfl; cases hb
  exact key h rfl

theorem exP_endless : ¬ PtrEnds exP (.named 0) := by
  have key : ∀ {t}, PtrEnds exP t → t ≠ .named 0 := by
    intro t h
    induction h with
    | elem hb _ ih => rintro rfl; cases hb; exact ih rfl
    | leaf hb => rintro rfl; exact hb _ rfl
  exact fun h => key h rfl

/-- `var p P; Unmarshal([]byte("1"), &p)` dies of stack overflow; `Unmarshal([]byte("null"), &p)` returns. -/
example : (∀ fuel, unmarshal exP fuel Doc.empty b!"1" (some (.ptr (.named 0), .ptr .nilPtr)) = none) ∧
    unmarshal exP 10 Doc.empty b!"null" (some (.ptr (.named 0), .ptr .nilPtr)) = some (.done (some (.ptr (.named 0), .ptr .nilPtr)) none) := by
  refine ⟨fun fuel => ?_, eq_of_sameX (by decide +kernel)⟩
  have hU : exP.Ok := ⟨by simp [exP], by simp [exP], by simp [exP], by simp [exP, Univ.zero]⟩
  have hn : ∀ t, NoUnmarshal exP t := by intro t; refine ⟨?_, ?_, ?_⟩ <;> simp [exP, exU]
  obtain ⟨d', id, hp⟩ := (parses_iff empty_wf (s := b!"1") (t := .num b!"1") (r := [])).2 ⟨1, by rfl⟩
  refine C74_endless hU .nilPtr rfl (hn _) (fun t _ => hn t) ?_ exP_endless empty_wf _ hp (by simp) fuel
  intro t h
  rw [exP_comp h]
  simp [Univ.base, exP]

/-! ## C75: the round trip in full -/

/-- The types that `Unmarshal` stores in interfaces. -/
theorem anyTypes {D : Ty → Prop} (h : ∀ t, (t = .bool ∨ t = .float .b64 ∨ t = .string ∨ t = .slice .any ∨ t = .map .string .any) → D t) :
    D .bool ∧ D (.float .b64) ∧ D .string ∧ D (.slice .any) ∧ D (.map .string .any) :=
  ⟨h _ (by simp), h _ (by simp), h _ (by simp), h _ (by simp), h _ (by simp)⟩

theorem anyComp {U : Univ} {t t' : Ty} (h : Comp U t t') : (t = .any ∨ t = .bool ∨ t = .float .b64 ∨ t = .string ∨ t = .slice .any ∨ t = .map .string .any) →
    (t' = .any ∨ t' = .bool ∨ t' = .float .b64 ∨ t' = .string ∨ t' = .slice .any ∨ t' = .map .string .any) := by
  induction h with
  | refl => exact id
  | ptr hb _ ih => rintro (rfl | rfl | rfl | rfl | rfl | rfl) <;> cases hb
  | slice hb _ ih => rintro (rfl | rfl | rfl | rfl | rfl | rfl) <;> cases hb; exact ih (.inl rfl)
  | array hb _ ih => rintro (rfl | rfl | rfl | rfl | rfl | rfl) <;> cases hb
  | map hb _ ih => rintro (rfl | rfl | rfl | rfl | rfl | rfl) <;> cases hb; exact ih (.inl rfl)
  | field hb _ _ _ ih => rintro (rfl | rfl | rfl | rfl | rfl | rfl) <;> cases hb

theorem anySupported {U : Univ} {t : Ty} (h : t = .bool ∨ t = .float .b64 ∨ t = .string ∨ t = .slice .any ∨ t = .map .string .any) : Supported U t := by
  intro t' hc
  rcases anyComp hc (.inr h) with rfl | rfl | rfl | rfl | rfl | rfl <;> simp [Univ.base, Ty.any]

theorem anyFinite {U : Univ} {o : Options} {t : Ty} (h : t = .bool ∨ t = .float .b64 ∨ t = .string ∨ t = .slice .any ∨ t = .map .string .any) : Finite U o t where
  types := ⟨[.any, .bool, .float .b64, .string, .slice .any, .map .string .any], fun t' hc => by simpa using anyComp hc (.inr h)⟩
  arrays := fun t' hc => by rcases anyComp hc (.inr h) with rfl | rfl | rfl | rfl | rfl | rfl <;> exact .leaf (by simp [Univ.base, Ty.any])
  embeds := fun t' j hc hb => by rcases anyComp hc (.inr h) with rfl | rfl | rfl | rfl | rfl | rfl <;> cases hb

/-- **C75**: for the values that `Survives` describes, `Marshal` returns a text, and `Unmarshal` of it into a zero variable
returns and stores the value. Nothing is assumed about the calls returning. As for C48, other values do not come back. -/
theorem C75_round {U : Univ} (hU : U.Ok) (hE : U.EmbedsStructs) (hO : U.NoOmitMethod) (hG : U.GoFloats) (hT : U.PlainTags defaultOptions)
    {t e : Ty} {x : GV} (hb : U.base t = .ptr e) (hn : NoUnmarshal U t) (hp : PlainTy U e) (hsup : Supported U e)
    (hv : MarshalArg U e x) (hs : Survives U Hint.none e x) (hF : Finite U defaultOptions e) (hF' : Finite U decodeOptions e)
    (hP : ∀ t', Comp U e t' → PtrEnds U t') :
    ∃ text N, ∀ fuel, N ≤ fuel → marshal U fuel (some (e, x)) = some (.done text none) ∧ ∀ d : Doc, d.Wf → ∃ N', ∀ fuel', N' ≤ fuel' →
      unmarshal U fuel' d text (some (t, .ptr (U.zero e))) = some (.done (some (t, .ptr x.trim)) none) := by
  obtain ⟨N, j, _, hm⟩ := C73_success hU hE hO hG hv hF (survives_parts hU (fun _ _ _ _ => trivial) (anyTypes fun t h => anyFinite h) _ hs) hsup
    (survives_parts hU (fun _ _ _ _ => trivial) (anyTypes fun t h => anySupported h) _ hs) []
  refine ⟨_, N, fun fuel hf => ⟨hm fuel hf, fun d hd => ?_⟩⟩
  obtain ⟨N', r, hr⟩ := C74_returns hE (t := t) (.ptr (U.zero e)) (fun e' hb' => by rw [hb] at hb'; cases hb'; exact ⟨hF', hP⟩) hd ([] ++ j.ser)
  refine ⟨N', fun fuel' hf' => ?_⟩
  rw [hr fuel' hf']
  rw [C48_partial hU hE hO hG hT hb hn hp hsup hv hs fuel _ (hm fuel hf) fuel' hd r (hr fuel' hf')]

/-! ## Examples -/

theorem cands_congr {U : Univ} {o o' : Options} (h : ∀ f, o.parseField f = o'.parseField f) {fs : List Field} {i : Nat} {idx : List Int} {cs : List Cand}
    (hc : Cands U o fs i idx cs) : Cands U o' fs i idx cs := by
  induction hc with
  | nil => exact .nil
  | skip h1 _ ih => exact .skip (by rw [← h]; exact h1) ih
  | embed h1 h2 h3 _ _ ih1 ih2 => exact .embed h1 (by rw [← h]; exact h2) (by rw [← h]; exact h3) ih1 ih2
  | field h1 h2 h3 _ ih => rw [h] at *; exact .field h1 h2 h3 ih

theorem exU_finite (o : Options) (h : ∀ f, defaultOptions.parseField f = o.parseField f) : Finite exU o (.struct 0) where
  types := ⟨[.struct 0, .ptr (.struct 0), .int .std, .string], fun t' hc => by simpa using exU_comp hc⟩
  arrays := fun t' hc => by rcases exU_comp hc with rfl | rfl | rfl | rfl <;> exact .leaf (by simp [Univ.base])
  embeds := fun t' j hc hb => by
    rcases exU_comp hc with rfl | rfl | rfl | rfl <;> cases hb
    exact ⟨_, cands_congr h exU_cands0⟩

theorem exU_ptrs {t' : Ty} (h : Comp exU (.struct 0) t') : PtrEnds exU t' := by
  rcases exU_comp h with rfl | rfl | rfl | rfl
  · exact .leaf (by simp [Univ.base])
  · exact .elem (e := .struct 0) rfl (.leaf (by simp [Univ.base]))
  · exact .leaf (by simp [Univ.base])
  · exact .leaf (by simp [Univ.base])

/-- The hypotheses hold for the recursive struct type and a list of it. -/
example : Finite exU defaultOptions (.struct 0) ∧ Finite exU decodeOptions (.struct 0) ∧ (∀ t', Comp exU (.struct 0) t' → PtrEnds exU t') ∧
    Supported exU (.struct 0) ∧ FiniteDyn exU defaultOptions (.struct 0) exList ∧ Marshalable exU defaultOptions (.struct 0) exList := by
  have hs : Survives exU Hint.none (.struct 0) exList := by
    refine survives_list _ _ _ (by decide) (safe_ascii (by decide) (by decide)) (.inr ⟨_, rfl, by simp, by simp, by simp, ?_⟩) _
    exact survives_list _ _ _ (by decide) (safe_ascii (by decide) (by decide)) (.inl rfl) _
  exact ⟨exU_finite _ fun _ => rfl, exU_finite _ fun _ => rfl, fun _ => exU_ptrs, exU_supported,
    survives_parts exU_ok (fun _ _ _ _ => trivial) (anyTypes fun t h => anyFinite h) _ hs,
    survives_parts exU_ok (fun _ _ _ _ => trivial) (anyTypes fun t h => anySupported h) _ hs⟩

end Verif.Props
