import Verif.Proofs.UnTerm
import Verif.Proofs.UnDecode

/-! # Encoding ends -/

namespace Verif.Unjson
open Verif Verif.Float Verif.Spec Verif.Njson

theorem Finite.elem {U : Univ} {o : Options} {t t' : Ty} (h : Finite U o t) (hc : Comp U t t') : Finite U o t' where
  types := by obtain ⟨L, hL⟩ := h.types; exact ⟨L, fun t'' h' => hL _ (hc.trans h')⟩
  arrays := fun t'' h' => h.arrays _ (hc.trans h')
  embeds := fun t'' j h' => h.embeds _ j (hc.trans h')

/-- `NewTypeEncoder` returns. -/
theorem newTypeEncoder_ends {U : Univ} {o : Options} {t : Ty} (hF : Finite U o.normalize t) :
    ∃ N q, q ≠ Res.diverge ∧ ∀ fuel, N ≤ fuel → newTypeEncoder U o fuel t = q := by
  have hm : Finite U o.normalize (match U.base t with | .ptr e => e | _ => t) := by
    cases hb : U.base t <;> first | exact hF | exact hF.elem (.ptr hb .refl)
  obtain ⟨N, hN⟩ := term_encoder hm Hint.none
  have hst : ∀ fuel, N ≤ fuel → newEncoder U o.normalize fuel (match U.base t with | .ptr e => e | _ => t) Hint.none Codecs.empty =
      newEncoder U o.normalize N (match U.base t with | .ptr e => e | _ => t) Hint.none Codecs.empty := by
    intro fuel hf
    rcases (stable_newEncoder U o.normalize (match U.base t with | .ptr e => e | _ => t) Hint.none).le hf Codecs.empty with h | h
    · exact absurd h hN
    · exact h
  refine ⟨N, newTypeEncoder U o N t, ?_, fun fuel hf => ?_⟩
  · unfold newTypeEncoder
    cases hb : U.base t with
    | ptr e =>
      rw [hb] at hN
      simp only at hN ⊢
      cases encMeth U t with
      | some x => intro h; cases h
      | none =>
        simp only
        cases hq : newEncoder U o.normalize N e Hint.none Codecs.empty with
        | diverge => exact absurd hq hN
        | ok p => intro h; cases h
        | err e => intro h; cases h
    | _ =>
      rw [hb] at hN
      simp only at hN ⊢
      cases encMeth U (.ptr t) with
      | some x => intro h; cases h
      | none =>
        simp only
        cases hq : newEncoder U o.normalize N t Hint.none Codecs.empty with
        | diverge => exact absurd hq hN
        | ok p => intro h; cases h
        | err e => intro h; cases h
  · have := hst fuel hf
    unfold newTypeEncoder
    cases hb : U.base t <;> rw [hb] at this <;> simp only at this ⊢ <;> rw [this]

theorem newTypeEncoder_total {U : Univ} (hU : U.Ok) {o : Options} {t : Ty} (hF : Finite U o.normalize t) (hs : Supported U t) :
    ∃ N m, ∀ fuel, N ≤ fuel → newTypeEncoder U o fuel t = .ok m := by
  obtain ⟨N, q, hq, hN⟩ := newTypeEncoder_ends hF
  cases q with
  | diverge => exact absurd rfl hq
  | err e => exact absurd (hN N (Nat.le_refl _)) (newTypeEncoder_accepts hU hs e)
  | ok m => exact ⟨N, m, hN⟩

/-- `NewTypeDecoder` returns. -/
theorem newTypeDecoder_ends {U : Univ} {tag : Bytes} {t : Ty} (hF : ∀ e, U.base t = .ptr e → Finite U { tag := if tag = [] then defaultTag else tag } e) :
    ∃ N q, q ≠ Res.diverge ∧ ∀ fuel, N ≤ fuel → newTypeDecoder U tag fuel t = q := by
  cases hb : U.base t with
  | ptr e =>
    obtain ⟨N, hN⟩ := term_decoder (hF e hb)
    have hst : ∀ fuel, N ≤ fuel → newDecoder U { tag := if tag = [] then defaultTag else tag } fuel e Codecs.empty =
        newDecoder U { tag := if tag = [] then defaultTag else tag } N e Codecs.empty := by
      intro fuel hf
      rcases (stable_newDecoder U { tag := if tag = [] then defaultTag else tag } e).le hf Codecs.empty with h | h
      · exact absurd h hN
      · exact h
    refine ⟨N, newTypeDecoder U tag N t, ?_, fun fuel hf => ?_⟩
    · unfold newTypeDecoder
      rw [hb]
      simp only
      cases hq : newDecoder U { tag := if tag = [] then defaultTag else tag } N e Codecs.empty with
      | diverge => exact absurd hq hN
      | ok p => (repeat' split) <;> first | (intro h; cases h; done) | simp_all
      | err e => (repeat' split) <;> first | (intro h; cases h; done) | simp_all
    · unfold newTypeDecoder
      rw [hb]
      simp only [hst fuel hf]
  | iface m i =>
    refine ⟨0, newTypeDecoder U tag 0 t, ?_, fun fuel _ => ?_⟩
    · unfold newTypeDecoder; rw [hb]; simp only; split <;> (intro h; cases h)
    · unfold newTypeDecoder; rw [hb]
  | _ => exact ⟨0, .err .invalidType, (fun h => by cases h), fun fuel _ => by unfold newTypeDecoder; rw [hb]⟩

theorem newTypeDecoder_total {U : Univ} (hU : U.Ok) {tag : Bytes} {t e : Ty} (hb : U.base t = .ptr e)
    (hF : Finite U { tag := if tag = [] then defaultTag else tag } e) (hs : Supported U e) :
    ∃ N m, ∀ fuel, N ≤ fuel → newTypeDecoder U tag fuel t = .ok m := by
  obtain ⟨N, q, hq, hN⟩ := newTypeDecoder_ends (U := U) (tag := tag) (t := t) (fun e' h => by rw [hb] at h; cases h; exact hF)
  cases q with
  | diverge => exact absurd rfl hq
  | err e => exact absurd (hN N (Nat.le_refl _)) (newTypeDecoder_accepts hU hb hs e)
  | ok m => exact ⟨N, m, hN⟩

/-! ## Sizes -/

theorem sub_size : ∀ (idx : List Int) (v x : GV), idx ≠ [] → sub v idx = some x → sizeOf x < sizeOf v := by
  have key : ∀ (idx : List Int) (v x : GV), sub v idx = some x → sizeOf x ≤ sizeOf v ∧ (idx ≠ [] → sizeOf x < sizeOf v) := by
    intro idx
    induction idx with
    | nil => intro v x h; rw [sub] at h; cases h; exact ⟨Nat.le_refl _, fun h => absurd rfl h⟩
    | cons i idx ih =>
      intro v x h
      unfold sub at h
      have : sizeOf x < sizeOf v := by
        by_cases hi : i = -1
        · subst hi
          cases v with
          | ptr y =>
            simp only [if_true] at h
            have := (ih _ _ h).1
            simp; omega
          | _ => simp at h
        · simp only [if_neg hi] at h
          cases v with
          | struct fs =>
            simp only at h
            cases hf : fs[i.toNat]? with
            | none => rw [hf] at h; cases h
            | some y =>
              rw [hf] at h
              have h1 := (ih _ _ h).1
              have h2 := List.sizeOf_lt_of_mem (List.mem_of_getElem? hf)
              simp; omega
          | _ => simp at h
      exact ⟨by omega, fun _ => this⟩
  exact fun idx v x hi h => (key idx v x h).2 hi

theorem resolve_index {U : Univ} {o : Options} {j : Nat} {cs : List Cand} (h : Cands U o (U.fields j) 0 [] cs) : ∀ c ∈ resolve [] cs, c.index ≠ [] := by
  intro c hc
  rcases resolve_mem hc with h' | h'
  · cases h'
  · exact cands_index_ne h c h'

theorem exists_bound {α : Type} {Q : Nat → α → Prop} : ∀ (xs : List α), (∀ x ∈ xs, ∃ N, ∀ fuel, N ≤ fuel → Q fuel x) →
    ∃ N, ∀ fuel, N ≤ fuel → ∀ x ∈ xs, Q fuel x
  | [], _ => ⟨0, fun _ _ x hx => by cases hx⟩
  | y :: ys, h => by
    obtain ⟨N1, h1⟩ := h y (by simp)
    obtain ⟨N2, h2⟩ := exists_bound ys fun x hx => h x (by simp [hx])
    refine ⟨max N1 N2, fun fuel hf x hx => ?_⟩
    rcases List.mem_cons.1 hx with rfl | hx
    · exact h1 fuel (by omega)
    · exact h2 fuel (by omega) x hx

/-! ## Omission -/

theorem omitAll_ends {rec : RV → Option (Out Bool)} : ∀ (xs : List RV), (∀ x ∈ xs, rec x ≠ none) → omitAll rec xs ≠ none
  | [], _ => by intro h; cases h
  | x :: xs, hx => by
    rw [omitAll]
    have := hx x (by simp)
    cases hr : rec x with
    | none => exact absurd hr this
    | some q =>
      cases q with
      | panic => intro h; cases h
      | done b e =>
        cases e with
        | some e => intro h; cases h
        | none =>
          simp only [andThen]
          split
          · exact omitAll_ends xs fun y hy => hx y (by simp [hy])
          · intro h; cases h

theorem omitFields_ends {U : Univ} {rec : Omiter → RV → Option (Out Bool)} {rv : RV} : ∀ (cs : List Codec),
    (∀ c ∈ cs, ∀ f, fieldByIndex U c.index rv = some (some f) → rec c.om f ≠ none) → omitFields U rec rv cs ≠ none
  | [], _ => by intro h; cases h
  | c :: cs, hx => by
    rw [omitFields]
    have ih := omitFields_ends cs fun y hy => hx y (by simp [hy])
    cases hf : fieldByIndex U c.index rv with
    | none => intro h; cases h
    | some q =>
      cases q with
      | none => exact ih
      | some f =>
        simp only
        cases hr : rec c.om f with
        | none => exact absurd hr (hx c (by simp) f hf)
        | some q =>
          cases q with
          | panic => intro h; cases h
          | done b e =>
            cases e with
            | some e => intro h; cases h
            | none =>
              simp only [andThen]
              split
              · exact ih
              · intro h; cases h

theorem All2.mem_left {α β : Type} {R : α → β → Prop} {l : List α} {m : List β} (h : All2 R l m) : ∀ a ∈ l, ∃ b ∈ m, R a b := by
  induction h with
  | nil => intro a ha; cases ha
  | cons hr _ ih =>
    intro a ha
    rcases List.mem_cons.1 ha with rfl | ha
    · exact ⟨_, by simp, hr⟩
    · obtain ⟨b, hb, h⟩ := ih a ha
      exact ⟨b, by simp [hb], h⟩

theorem omFor_ends {U : Univ} (hO : U.NoOmitMethod) {name : Bytes} {objs : List Obj} {t : Ty} {om : Omiter} (ho : OmFor U name t om) :
    ∃ N, ∀ fuel, N ≤ fuel → ∀ v a, Plain U t v → omitRun U objs fuel om ⟨t, v, a⟩ ≠ none := by
  have one : ∀ {om : Omiter} {t : Ty}, (∀ fuel v a, Plain U t v → omitRun U objs (fuel + 1) om ⟨t, v, a⟩ ≠ none) →
      ∃ N, ∀ fuel, N ≤ fuel → ∀ v a, Plain U t v → omitRun U objs fuel om ⟨t, v, a⟩ ≠ none := by
    intro om t h
    refine ⟨1, fun fuel hf v a hp => ?_⟩
    obtain ⟨k, rfl⟩ : ∃ k, fuel = k + 1 := ⟨fuel - 1, by omega⟩
    exact h k v a hp
  induction ho with
  | custom hc => rw [noCustom hO] at hc; cases hc
  | @array t n e om _ hb ho' ih =>
    obtain ⟨N, hN⟩ := ih
    refine ⟨N + 1, fun fuel hf v a hp => ?_⟩
    obtain ⟨k, rfl⟩ : ∃ k, fuel = k + 1 := ⟨fuel - 1, by omega⟩
    obtain ⟨xs, rfl, hl, hx⟩ := hp.inv_array hb
    simp only [omitRun]
    rw [if_pos (by omega)]
    apply omitAll_ends
    intro x hx'
    obtain ⟨y, hy, rfl⟩ := List.mem_map.1 hx'
    rw [elem_of_base (.inr (.inr (.inl ⟨n, hb⟩)))]
    exact hN k (by omega) y a (hx y (List.mem_of_mem_take hy))
  | ptr _ hb => apply one; intro fuel v a hp h; rcases hp.inv_ptr hb with rfl | ⟨x, rfl, _⟩ <;> simp [omitRun] at h
  | struct _ hb => apply one; intro fuel v a hp h; simp [omitRun] at h
  | slice _ hb => apply one; intro fuel v a hp h; rcases hp.inv_slice hb with rfl | ⟨arr, len, rfl, _⟩ <;> simp [omitRun] at h
  | map _ hb => apply one; intro fuel v a hp h; rcases hp.inv_map hb with rfl | ⟨es, rfl, _⟩ <;> simp [omitRun] at h
  | string _ hb => apply one; intro fuel v a hp h; obtain ⟨s, rfl⟩ := hp.inv_str hb; simp [omitRun] at h
  | any _ hb =>
    apply one; intro fuel v a hp h
    rcases hp.inv_iface hb with rfl | ⟨t', x, rfl, _⟩ | ⟨t', e, x, rfl, _⟩ <;> simp [omitRun] at h
  | iface _ hb hm => apply one; intro fuel v a hp h; simp [omitRun] at h
  | int _ hb => apply one; intro fuel v a hp h; obtain ⟨s, rfl⟩ := hp.inv_int hb; simp [omitRun] at h
  | uint _ hb => apply one; intro fuel v a hp h; obtain ⟨s, rfl⟩ := hp.inv_uint hb; simp [omitRun] at h
  | float _ hb =>
    apply one; intro fuel v a hp h
    obtain ⟨f, rfl⟩ := hp.inv_float hb
    rcases f with _ | ⟨neg, _ | ⟨m, e⟩⟩ <;> simp [omitRun] at h
  | bool _ hb => apply one; intro fuel v a hp h; obtain ⟨s, rfl⟩ := hp.inv_bool hb; simp [omitRun] at h
  | other _ hb => apply one; intro fuel v a hp h; simp [omitRun] at h
  | named _ hb => apply one; intro fuel v a hp h; simp [omitRun] at h

theorem omit_ends {U : Univ} {o : Options} (hE : U.EmbedsStructs) (hO : U.NoOmitMethod) {objs : List Obj} (hs : StoreOk U o objs) :
    ∀ (n : Nat) (c : Codec) (k : Cand) (v : GV), sizeOf v < n → FieldOk U o objs c k → Plain U k.typ v →
      ∃ N, ∀ fuel, N ≤ fuel → ∀ a, omitRun U objs fuel c.om ⟨k.typ, v, a⟩ ≠ none := by
  intro n
  induction n with
  | zero => intro c k v h; omega
  | succ n ih =>
    intro c k v hv hf hp
    have hom := hf.om
    unfold OmIs at hom
    by_cases ho : k.hint.omitempty = true
    · rw [if_pos ho] at hom
      by_cases hst : ∃ r, c.enc = .struct r
      · obtain ⟨r0, hr0⟩ := hst
        have henc := hf.enc
        rw [hr0] at hom henc
        simp only [noCustom hO, Option.getD_none] at hom
        obtain ⟨j, hb, hsh⟩ := henc
        obtain ⟨fs, cs, hx, hc, ha⟩ := store_struct hs hb hsh
        have hpath := cands_path0 hE hb hc
        have hidx := resolve_index hc
        obtain ⟨N, hN⟩ := exists_bound (Q := fun fuel (c' : Codec) => ∀ a f, fieldByIndex U c'.index ⟨k.typ, v, a⟩ = some (some f) →
            omitRun U objs fuel c'.om f ≠ none) fs (by
          intro c' hc'
          obtain ⟨k', hk', hf'⟩ := ha.mem_left c' hc'
          -- the value at the path does not depend on whether it is addressable
          rcases fieldByIndex_sub (hpath k' hk') (a := true) hp with ⟨e1, e2⟩ | ⟨x, a', e1, e2, e3⟩
          · refine ⟨0, fun fuel _ a f hfi => ?_⟩
            rcases fieldByIndex_sub (hpath k' hk') (a := a) hp with ⟨d1, d2⟩ | ⟨y, a'', d1, d2, d3⟩
            · rw [hf'.index, d1] at hfi; cases hfi
            · rw [e2] at d2; cases d2
          · have hlt := sub_size _ _ _ (hidx k' hk') e2
            obtain ⟨N, hN⟩ := ih c' k' x (by omega) hf' e3
            refine ⟨N, fun fuel hfu a f hfi => ?_⟩
            rcases fieldByIndex_sub (hpath k' hk') (a := a) hp with ⟨d1, d2⟩ | ⟨y, a'', d1, d2, d3⟩
            · rw [e2] at d2; cases d2
            · rw [e2] at d2; cases d2
              rw [hf'.index, d1] at hfi; cases hfi
              exact hN fuel hfu a'')
        refine ⟨N + 1, fun fuel hfu a => ?_⟩
        obtain ⟨m, rfl⟩ : ∃ m, fuel = m + 1 := ⟨fuel - 1, by omega⟩
        rw [hom]
        simp only [omitRun, hx]
        exact omitFields_ends fs fun c' hc' f hfi => hN m (by omega) c' hc' a f hfi
      · have hom' : OmFor U o.omitMethod k.typ c.om := by
          cases hce : c.enc <;> rw [hce] at hom <;> first | exact hom | exact absurd ⟨_, hce⟩ hst
        obtain ⟨N, hN⟩ := omFor_ends hO (objs := objs) hom'
        exact ⟨N, fun fuel hfu a => hN fuel hfu v a hp⟩
    · rw [if_neg ho] at hom
      refine ⟨1, fun fuel hfu a => ?_⟩
      obtain ⟨m, rfl⟩ : ∃ m, fuel = m + 1 := ⟨fuel - 1, by omega⟩
      rw [hom]
      simp only [omitRun]
      intro h; cases h

/-! ## Encoding -/

/-- The call returned, and with success if `P`. -/
def Fine (P : Prop) (r : Option (Out Bytes)) : Prop := ∃ q, r = some q ∧ (P → ∃ b, q = .done b none)

theorem Fine.mono {P Q : Prop} {r : Option (Out Bytes)} (h : Fine P r) (hq : Q → P) : Fine Q r := by
  obtain ⟨q, h1, h2⟩ := h
  exact ⟨q, h1, fun x => h2 (hq x)⟩

theorem Fine.done {P : Prop} {b : Bytes} : Fine P (some (.done b none)) := ⟨_, rfl, fun _ => ⟨b, rfl⟩⟩

theorem Fine.bind {P : Prop} {x : Option (Out Bytes)} {f : Bytes → Option (Out Bytes)} (hx : Fine P x) (hf : ∀ b, Fine P (f b)) :
    Fine P (andThen x id f) := by
  obtain ⟨q, rfl, h2⟩ := hx
  cases q with
  | panic => exact ⟨_, rfl, fun h => by obtain ⟨b, hb⟩ := h2 h; cases hb⟩
  | done b e =>
    cases e with
    | none => exact hf b
    | some e => exact ⟨_, rfl, fun h => by obtain ⟨b, hb⟩ := h2 h; cases hb⟩

theorem encElems_fine {P : Prop} {t : Ty} {a : Bool} {rec : Bytes → RV → Option (Out Bytes)} : ∀ (xs : List GV) (first : Bool) (b : Bytes),
    (∀ x ∈ xs, ∀ b, Fine P (rec b ⟨t, x, a⟩)) → Fine P (encElems rec (xs.map fun x => ⟨t, x, a⟩) first b)
  | [], _, _, _ => .done
  | x :: xs, first, b, hx => by
    simp only [List.map_cons, encElems]
    exact (hx x (by simp) _).bind fun b => encElems_fine xs false b fun y hy => hx y (by simp [hy])

theorem encEntries_fine {P : Prop} {t kt : Ty} {key val : Bytes → RV → Option (Out Bytes)} : ∀ (es : List (GV × GV)) (first : Bool) (b : Bytes),
    (∀ p ∈ es, ∀ b, Fine P (key b ⟨kt, p.1, false⟩)) → (∀ p ∈ es, ∀ b, Fine P (val b ⟨t, p.2, false⟩)) →
    Fine P (encEntries key val (es.map fun p => (⟨kt, p.1, false⟩, ⟨t, p.2, false⟩)) first b)
  | [], _, _, _, _ => .done
  | p :: es, first, b, hk, hx => by
    simp only [List.map_cons, encEntries]
    exact (hk p (by simp) _).bind fun b => (hx p (by simp) _).bind fun b =>
      encEntries_fine es false b (fun y hy => hk y (by simp [hy])) (fun y hy => hx y (by simp [hy]))

theorem encFields_fine {U : Univ} {P : Prop} {rec : Enc → Bytes → RV → Option (Out Bytes)} {om : Omiter → RV → Option (Out Bool)} {rv : RV} :
    ∀ (fs : List Codec) (more : Bool) (b : Bytes),
    (∀ c ∈ fs, fieldByIndex U c.index rv = some none ∨ ∃ f, fieldByIndex U c.index rv = some (some f) ∧
      (∃ skip, om c.om f = some (.done skip none)) ∧ ∀ b, Fine P (rec c.enc b f)) →
    Fine P (encFields U rec om rv fs more b)
  | [], _, _, _ => .done
  | c :: fs, more, b, hc => by
    have ih := fun more b => encFields_fine (P := P) (rec := rec) (om := om) fs more b fun y hy => hc y (by simp [hy])
    rw [encFields]
    rcases hc c (by simp) with h | ⟨f, h, ⟨skip, hs⟩, hr⟩
    · rw [h]; exact ih _ _
    · rw [h]
      simp only [hs, andThen_done]
      cases skip with
      | true => exact ih _ _
      | false => exact (hr _).bind fun b => ih _ _

section
variable {U : Univ} {F : Options → Flt → Prop} {D : Ty → Prop} {o : Options} {t : Ty}

theorem Parts.inv_ptr {e : Ty} {v : GV} (hb : U.base t = .ptr e) (h : Parts U F D o t (.ptr v)) : Parts U F D o e v := by
  cases h with
  | leaf h1 => exact absurd hb (h1 _)
  | ptr h1 h2 => rw [hb] at h1; cases h1; exact h2
theorem Parts.inv_float {k : FKind} {f : Flt} (hb : U.base t = .float k) (h : Parts U F D o t (.float f)) : F o f := by
  cases h with
  | leaf _ _ _ _ _ _ h1 => exact absurd hb (h1 _)
  | float _ h2 => exact h2
theorem Parts.inv_slice {e : Ty} {arr : List GV} {len : Nat} (hb : U.base t = .slice e) (h : Parts U F D o t (.slice arr len)) :
    ∀ x ∈ arr.take len, Parts U F D o e x := by
  cases h with
  | leaf _ h1 => exact absurd hb (h1 _)
  | slice h1 h2 => rw [hb] at h1; cases h1; exact h2
theorem Parts.inv_array {n : Nat} {e : Ty} {xs : List GV} (hb : U.base t = .array n e) (h : Parts U F D o t (.array xs)) :
    ∀ x ∈ xs, Parts U F D o e x := by
  cases h with
  | leaf _ _ h1 => exact absurd hb (h1 _ _)
  | array h1 h2 => rw [hb] at h1; cases h1; exact h2
theorem Parts.inv_map {k e : Ty} {es : List (GV × GV)} (hb : U.base t = .map k e) (h : Parts U F D o t (.map es)) :
    ∀ p ∈ es, Parts U F D o e p.2 := by
  cases h with
  | leaf _ _ _ h1 => exact absurd hb (h1 _ _)
  | map h1 h2 => rw [hb] at h1; cases h1; exact h2
theorem Parts.inv_iface {m i : Nat} {t' : Ty} {v : GV} (hb : U.base t = .iface m i) (h : Parts U F D o t (.iface t' v)) :
    D t' ∧ Parts U F D defaultOptions t' v := by
  cases h with
  | leaf _ _ _ _ h1 => exact absurd hb (h1 _ _)
  | iface h1 h2 => exact ⟨h1, h2⟩
theorem Parts.inv_struct {j : Nat} {fs : List GV} (hb : U.base t = .struct j) (h : Parts U F D o t (.struct fs)) :
    ∀ (i : Nat) f v, (U.fields j)[i]? = some f → fs[i]? = some v → f.exported = true → Parts U F D o f.typ v := by
  cases h with
  | leaf _ _ _ _ _ h1 => exact absurd hb (h1 _)
  | struct h1 h2 => rw [hb] at h1; cases h1; exact h2

theorem Parts.sub {idx : List Int} {t' : Ty} (hp : PathTy U t idx t') : ∀ {v x : GV}, Parts U F D o t v → sub v idx = some x →
    Parts U F D o t' x := by
  induction hp with
  | nil => intro v x h hx; unfold Unjson.sub at hx; cases hx; exact h
  | @field t j i f is t' hb hf he _ ih =>
    intro v x h hx
    have hne : ¬ ((i : Int) = -1) := by omega
    unfold Unjson.sub at hx
    simp only [if_neg hne] at hx
    cases v with
    | struct fs =>
      simp only at hx
      cases hq : fs[(i : Int).toNat]? with
      | none => rw [hq] at hx; cases hx
      | some y =>
        rw [hq] at hx
        exact ih (h.inv_struct hb i f y hf (by simpa using hq) he) hx
    | _ => simp at hx
  | @deref t e is t' hb _ ih =>
    intro v x h hx
    unfold Unjson.sub at hx
    cases v with
    | ptr y => exact ih (h.inv_ptr hb) (by simpa using hx)
    | _ => simp at hx
end

/-- Encoding a value ends; with success if the value is `Marshalable`. -/
theorem encode_ends {U : Univ} (hU : U.Ok) (hE : U.EmbedsStructs) (hO : U.NoOmitMethod) :
    ∀ (n : Nat) (o : Options) (objs : List Obj) (e : Enc) (h : Hint) (t : Ty) (v : GV), sizeOf v < n →
      StoreOk U o objs → EncIs U o objs e t h → Plain U t v → FiniteDyn U o t v →
      ∃ N, ∀ fuel, N ≤ fuel → ∀ a b, Fine (Marshalable U o t v) (encode U objs fuel e b ⟨t, v, a⟩) := by
  intro n
  induction n with
  | zero => intro o objs e h t v hv; omega
  | succ n ih =>
    intro o objs e h t v hv hs he hp hd
    have hnm := hp.noMarshal
    have one : (∀ fuel a b, Fine (Marshalable U o t v) (encode U objs (fuel + 1) e b ⟨t, v, a⟩)) →
        ∃ N, ∀ fuel, N ≤ fuel → ∀ a b, Fine (Marshalable U o t v) (encode U objs fuel e b ⟨t, v, a⟩) := by
      intro h
      refine ⟨1, fun fuel hf => ?_⟩
      obtain ⟨k, rfl⟩ : ∃ k, fuel = k + 1 := ⟨fuel - 1, by omega⟩
      exact h k
    have more : ∀ {N : Nat}, (∀ fuel, N ≤ fuel → ∀ a b, Fine (Marshalable U o t v) (encode U objs (fuel + 1) e b ⟨t, v, a⟩)) →
        ∃ N, ∀ fuel, N ≤ fuel → ∀ a b, Fine (Marshalable U o t v) (encode U objs fuel e b ⟨t, v, a⟩) := by
      intro N h
      refine ⟨N + 1, fun fuel hf => ?_⟩
      obtain ⟨k, rfl⟩ : ∃ k, fuel = k + 1 := ⟨fuel - 1, by omega⟩
      exact h k (by omega)
    cases e with
    | njson => simp only [EncIs] at he; rw [hnm.1] at he; cases he
    | json => simp only [EncIs] at he; rw [hnm.2.1] at he; cases he
    | text => simp only [EncIs] at he; rw [hnm.2.2] at he; cases he
    | bool => obtain ⟨x, rfl⟩ := hp.inv_bool he; exact one fun fuel a b => by simp only [encode]; exact .done
    | int => obtain ⟨k, hb⟩ := he; obtain ⟨x, rfl⟩ := hp.inv_int hb; exact one fun fuel a b => by simp only [encode]; exact .done
    | uint => obtain ⟨k, hb⟩ := he; obtain ⟨x, rfl⟩ := hp.inv_uint hb; exact one fun fuel a b => by simp only [encode]; exact .done
    | str html => obtain ⟨hb, _⟩ := he; obtain ⟨s, rfl⟩ := hp.inv_str hb; exact one fun fuel a b => by simp only [encode]; exact .done
    | rawStr => obtain ⟨hb, _⟩ := he; obtain ⟨s, rfl⟩ := hp.inv_str hb; exact one fun fuel a b => by simp only [encode]; exact .done
    | float bits inf nan =>
      obtain ⟨⟨k, hb⟩, rfl, rfl, rfl⟩ := he
      obtain ⟨f, rfl⟩ := hp.inv_float hb
      refine one fun fuel a b => ⟨_, by simp only [encode]; rfl, fun hm => ?_⟩
      have hf : FloatAllowed o f := hm.inv_float hb
      rcases f with _ | ⟨neg, ⟨m, e⟩ | _⟩
      · simp only [FloatAllowed] at hf; simp only [encFloat, hf, if_true]; exact ⟨_, rfl⟩
      · exact ⟨_, rfl⟩
      · simp only [FloatAllowed] at hf; simp only [encFloat, hf, if_true]; exact ⟨_, rfl⟩
    | ptr r0 =>
      obtain ⟨el, hb, hx⟩ := he
      obtain ⟨e', hobj, he'⟩ := store_ptr hs hb hx
      rcases hp.inv_ptr hb with rfl | ⟨x, rfl, hpx⟩
      · exact one fun fuel a b => by simp only [encode]; exact .done
      · obtain ⟨N, hN⟩ := ih o objs e' h el x (by simp at hv; omega) hs he' hpx (hd.inv_ptr hb)
        refine more (N := N) fun fuel hf a b => ?_
        simp only [encode, hobj]
        rw [elem_of_base (.inl hb)]
        exact (hN fuel hf true b).mono fun hm => hm.inv_ptr hb
    | slice r0 =>
      obtain ⟨el, hb, hx⟩ := he
      obtain ⟨e', hobj, he'⟩ := store_slice hs hb hx
      rcases hp.inv_slice hb with rfl | ⟨arr, len, rfl, hpx⟩
      · exact one fun fuel a b => by simp only [encode]; exact .done
      · obtain ⟨N, hN⟩ := exists_bound (Q := fun fuel x => ∀ a b, Fine (Marshalable U o el x) (encode U objs fuel e' b ⟨el, x, a⟩))
          (arr.take len) (fun x hx => by
            have := List.sizeOf_lt_of_mem (List.mem_of_mem_take hx)
            exact ih o objs e' h el x (by simp at hv; omega) hs he' (hpx x hx) (hd.inv_slice hb x hx))
        refine more (N := N) fun fuel hf a b => ?_
        simp only [encode, hobj]
        rw [elem_of_base (.inr (.inl hb))]
        exact (encElems_fine _ _ _ fun x hx b => (hN fuel hf x hx true b).mono fun hm => hm.inv_slice hb x hx).bind fun b => .done
    | array r0 =>
      obtain ⟨m, el, hb, hx⟩ := he
      obtain ⟨e', hobj, he'⟩ := store_array hs hb hx
      obtain ⟨xs, rfl, hl, hpx⟩ := hp.inv_array hb
      obtain ⟨N, hN⟩ := exists_bound (Q := fun fuel x => ∀ a b, Fine (Marshalable U o el x) (encode U objs fuel e' b ⟨el, x, a⟩))
        xs (fun x hx => by
          have := List.sizeOf_lt_of_mem hx
          exact ih o objs e' h el x (by simp at hv; omega) hs he' (hpx x hx) (hd.inv_array hb x hx))
      refine more (N := N) fun fuel hf a b => ?_
      simp only [encode, hobj]
      rw [elem_of_base (.inr (.inr (.inl ⟨m, hb⟩))), if_pos (by omega), List.take_of_length_le (by omega)]
      exact (encElems_fine _ _ _ fun x hx b => (hN fuel hf x hx a b).mono fun hm => hm.inv_array hb x hx).bind fun b => .done
    | map r0 =>
      obtain ⟨k, el, ke, hb, hke, hx⟩ := he
      obtain ⟨e', hobj, he'⟩ := store_map hs hb hx
      rcases hp.inv_map hb with rfl | ⟨es, rfl, hbk, hik, hks, hpx⟩
      · exact one fun fuel a b => by simp only [encode]; exact .done
      · have hke' : ke = .str false := by
          unfold keyEnc at hke
          rw [if_neg (by simp [hik]), if_pos hbk] at hke
          cases hke; rfl
        subst hke'
        obtain ⟨N, hN⟩ := exists_bound (Q := fun fuel (p : GV × GV) => ∀ a b, Fine (Marshalable U o el p.2) (encode U objs fuel e' b ⟨el, p.2, a⟩))
          es (fun p hp => by
            have := List.sizeOf_lt_of_mem hp
            obtain ⟨p1, p2⟩ := p
            exact ih o objs e' Hint.none el p2 (by simp at hv this; omega) hs he' (hpx _ hp) (hd.inv_map hb _ hp))
        refine more (N := N + 1) fun fuel hf a b => ?_
        obtain ⟨fuel, rfl⟩ : ∃ k, fuel = k + 1 := ⟨fuel - 1, by omega⟩
        rw [encode]
        simp only [hobj]
        rw [elem_of_base (.inr (.inr (.inr ⟨k, hb⟩)))]
        simp only [hb]
        refine (encEntries_fine es true _ (fun p hp b => ?_) fun p hp b => ?_).bind fun b => .done
        · obtain ⟨s, hs'⟩ := hks p hp
          rw [hs']
          simp only [encode]
          exact .done
        · exact (hN (fuel + 1) (by omega) p hp false b).mono fun hm => hm.inv_map hb p hp
    | struct r0 =>
      obtain ⟨j, hb, hx⟩ := he
      obtain ⟨fs, cs, hobj, hc, hall⟩ := store_struct hs hb hx
      have hpath := cands_path0 hE hb hc
      have hidx := resolve_index hc
      obtain ⟨N, hN⟩ := exists_bound (Q := fun fuel (c : Codec) => ∀ a, fieldByIndex U c.index ⟨t, v, a⟩ = some none ∨
          ∃ f, fieldByIndex U c.index ⟨t, v, a⟩ = some (some f) ∧ (∃ skip, omitRun U objs fuel c.om f = some (.done skip none)) ∧
            ∀ b, Fine (Marshalable U o t v) (encode U objs fuel c.enc b f)) fs (by
        intro c hc'
        obtain ⟨k, hk, hf⟩ := hall.mem_left c hc'
        rcases fieldByIndex_sub (hpath k hk) (a := true) hp with ⟨_, e2⟩ | ⟨x, a', _, e2, e3⟩
        · refine ⟨0, fun fuel _ a => ?_⟩
          rcases fieldByIndex_sub (hpath k hk) (a := a) hp with ⟨d1, d2⟩ | ⟨y, a'', d1, d2, d3⟩
          · left; rw [hf.index, d1]
          · rw [e2] at d2; cases d2
        · have hlt := sub_size _ _ _ (hidx k hk) e2
          obtain ⟨N1, h1⟩ := omit_ends hE hO hs _ c k x (Nat.lt_succ_self _) hf e3
          obtain ⟨N2, h2⟩ := ih o objs c.enc k.hint k.typ x (by omega) hs hf.enc e3 (Parts.sub (hpath k hk) hd e2)
          refine ⟨max N1 N2, fun fuel hfu a => ?_⟩
          rcases fieldByIndex_sub (hpath k hk) (a := a) hp with ⟨d1, d2⟩ | ⟨y, a'', d1, d2, d3⟩
          · rw [e2] at d2; cases d2
          · rw [e2] at d2; cases d2
            right
            refine ⟨_, by rw [hf.index, d1], ?_, fun b => ?_⟩
            · have := h1 fuel (by omega) a''
              cases hq : omitRun U objs fuel c.om ⟨k.typ, x, a''⟩ with
              | none => exact absurd hq this
              | some q =>
                obtain ⟨sk, rfl, _⟩ := (omit_spec hE hO hs fuel).1 hf e3 hq
                exact ⟨sk, rfl⟩
            · exact (h2 fuel (by omega) a'' b).mono fun hm => Parts.sub (hpath k hk) hm e2)
      refine more (N := N) fun fuel hf a b => ?_
      simp only [encode, hobj]
      exact encFields_fine fs false b fun c hc => hN fuel hf c hc a
    | iface =>
      obtain ⟨i, hb⟩ := he
      rcases hp.inv_iface hb with rfl | ⟨t', x, rfl, hnp, hn, hpx⟩ | ⟨t', e, x, rfl, hbp, hn, hpx⟩
      · exact one fun fuel a b => by simp only [encode]; exact .done
      · obtain ⟨hd1, hd2⟩ := hd.inv_iface hb
        obtain ⟨N1, q, hq, hN1⟩ := newTypeEncoder_ends (o := {}) hd1
        cases q with
        | diverge => exact absurd rfl hq
        | err er =>
          refine more (N := N1) fun fuel hf a b => ?_
          simp only [encode, hN1 fuel hf]
          exact ⟨_, rfl, fun hm => absurd (hN1 fuel hf) (newTypeEncoder_accepts hU (hm.inv_iface hb).1 er)⟩
        | ok m =>
          obtain ⟨m1, m2, m3⟩ := newTypeEncoder_ok (.inl ⟨hnp, rfl, hn⟩) (hN1 N1 (Nat.le_refl _))
          obtain ⟨N2, hN2⟩ := ih _ m.objs m.enc Hint.none t' x (by simp at hv; omega) m2 m3 hpx hd2
          refine more (N := max N1 N2) fun fuel hf a b => ?_
          simp only [encode, hN1 fuel (by omega)]
          have : Fine (Marshalable U o t (.iface t' x)) (encode U m.objs fuel m.enc b ⟨t', x, false⟩) :=
            (hN2 fuel (by omega) false b).mono fun hm => (hm.inv_iface hb).2
          cases hbt : U.base t' <;> first | exact absurd hbt (hnp _) | (simp only; rw [if_pos m1.symm]; exact this)
      · obtain ⟨hd1, hd2⟩ := hd.inv_iface hb
        obtain ⟨N1, q, hq, hN1⟩ := newTypeEncoder_ends (o := {}) hd1
        cases q with
        | diverge => exact absurd rfl hq
        | err er =>
          refine more (N := N1) fun fuel hf a b => ?_
          simp only [encode, hN1 fuel hf]
          exact ⟨_, rfl, fun hm => absurd (hN1 fuel hf) (newTypeEncoder_accepts hU (hm.inv_iface hb).1 er)⟩
        | ok m =>
          obtain ⟨m1, m2, m3⟩ := newTypeEncoder_ok (.inr ⟨hbp, hn⟩) (hN1 N1 (Nat.le_refl _))
          obtain ⟨N2, hN2⟩ := ih _ m.objs m.enc Hint.none e x (by simp at hv; omega) m2 m3 hpx (hd2.inv_ptr hbp)
          refine more (N := max N1 N2) fun fuel hf a b => ?_
          simp only [encode, hN1 fuel (by omega), hbp]
          rw [if_pos m1.symm]
          exact (hN2 fuel (by omega) true b).mono fun hm => (hm.inv_iface hb).2.inv_ptr hbp

end Verif.Unjson
