import Verif.Proofs.UnEncTotal
import Verif.Spec.UnEnds

/-! # Encoding ends for values of any type, with or without methods -/

namespace Verif.Unjson
open Verif Verif.Float Verif.Spec Verif.Njson

/-! ## The paths in struct codecs are not empty -/

/-- All fields of struct codecs have a path. -/
def Paths (objs : List Obj) : Prop := ∀ t fs, Obj.struct t fs ∈ objs → ∀ c ∈ fs, c.index ≠ []

/-- Construction that keeps `Paths`. -/
def KeepsPaths {α : Type} (m : Bld α) : Prop := ∀ c a c', Paths c.objs → m c = .ok (a, c') → Paths c'.objs

theorem KeepsPaths.pure {α : Type} {a : α} : KeepsPaths (Bld.pure a) := by
  intro c x c' h e; cases e; exact h
theorem KeepsPaths.get : KeepsPaths Bld.get := by
  intro c x c' h e; cases e; exact h
theorem KeepsPaths.fail {α : Type} {e : UErr} : KeepsPaths (Bld.fail (α := α) e) := by
  intro c x c' h e; cases e
theorem KeepsPaths.diverge {α : Type} : KeepsPaths (Bld.diverge (α := α)) := by
  intro c x c' h e; cases e
theorem KeepsPaths.put {t : Ty} {h : Hint} {x : CV} : KeepsPaths (Bld.put t h x) := by
  intro c a c' hp e; cases e; exact hp
theorem KeepsPaths.bind {α β : Type} {m : Bld α} {f : α → Bld β} (hm : KeepsPaths m) (hf : ∀ a, KeepsPaths (f a)) : KeepsPaths (m.bind f) := by
  intro c a c' hp e
  unfold Bld.bind at e
  cases hq : m c with
  | ok p => obtain ⟨x, c1⟩ := p; rw [hq] at e; exact hf x c1 a c' (hm c x c1 hp hq) e
  | err er => rw [hq] at e; cases e
  | diverge => rw [hq] at e; cases e
theorem KeepsPaths.alloc {o : Obj} (ho : ∀ t fs, o = .struct t fs → fs = []) : KeepsPaths (Bld.alloc o) := by
  intro c a c' hp e
  cases e
  intro t fs hm k hk
  simp only [List.mem_append, List.mem_singleton] at hm
  rcases hm with hm | hm
  · exact hp t fs hm k hk
  · rw [ho t fs hm.symm] at hk; cases hk
theorem KeepsPaths.upd {r : Nat} {f : Obj → Obj} (hf : ∀ o t fs, f o = .struct t fs → ∃ fs', o = .struct t fs' ∧ ∀ k ∈ fs, k ∈ fs' ∨ k.index ≠ []) :
    KeepsPaths (Bld.upd r f) := by
  intro c a c' hp e
  cases e
  intro t fs hm k hk
  obtain ⟨i, hi⟩ := List.mem_iff_getElem?.1 hm
  unfold Codecs.upd at hi
  simp only [List.getElem?_modify] at hi
  cases ho : c.objs[i]? with
  | none => rw [ho] at hi; cases hi
  | some o =>
    rw [ho] at hi
    have hmem := List.mem_of_getElem? ho
    by_cases hr : r = i
    · simp [hr] at hi
      obtain ⟨fs', rfl, h'⟩ := hf o t fs hi
      rcases h' k hk with h' | h'
      · exact hp t fs' hmem k h'
      · exact h'
    · simp [hr] at hi
      subst hi
      exact hp t fs hmem k hk
theorem KeepsPaths.updDec {r : Nat} {d : Dec} : KeepsPaths (Bld.upd r (Obj.setDec d)) := by
  apply KeepsPaths.upd
  intro o t fs h
  cases o <;> simp [Obj.setDec] at h
  obtain ⟨rfl, rfl⟩ := h
  exact ⟨_, rfl, fun k hk => .inl hk⟩
theorem KeepsPaths.updEnc {r : Nat} {d : Enc} : KeepsPaths (Bld.upd r (Obj.setEnc d)) := by
  apply KeepsPaths.upd
  intro o t fs h
  cases o <;> simp [Obj.setEnc] at h
  obtain ⟨rfl, rfl⟩ := h
  exact ⟨_, rfl, fun k hk => .inl hk⟩
theorem KeepsPaths.updAdd {r : Nat} {k : Codec} (hk : k.index ≠ []) : KeepsPaths (Bld.upd r (Obj.add k)) := by
  apply KeepsPaths.upd
  intro o t fs h
  cases o <;> simp [Obj.add] at h
  obtain ⟨rfl, rfl⟩ := h
  refine ⟨_, rfl, fun k' hk' => ?_⟩
  rcases List.mem_append.1 hk' with h | h
  · exact .inl h
  · rw [List.mem_singleton.1 h]; exact .inr hk

theorem keeps_newOmiter {U : Univ} {name : Bytes} : ∀ (fuel : Nat) (t : Ty), KeepsPaths (newOmiter U name fuel t)
  | 0, _ => .diverge
  | fuel + 1, t => by
    rw [newOmiter]
    split
    · exact .pure
    · split <;> first | exact .pure | exact (keeps_newOmiter fuel _).bind fun _ => .pure

theorem keeps_fieldOmiter {U : Univ} {o : Options} {fuel : Nat} {t : Ty} {h : Hint} {e : Enc} : KeepsPaths (fieldOmiter U o fuel t h e) := by
  intro c a c' hp hq
  unfold fieldOmiter at hq
  split at hq
  · split at hq
    · split at hq <;> (cases hq; exact hp)
    · exact keeps_newOmiter _ _ c a c' hp hq
  · cases hq; exact hp

theorem keeps_build (U : Univ) (o : Options) : ∀ (fuel : Nat),
    (∀ t, KeepsPaths (cacheDecoder U o fuel t)) ∧ (∀ t, KeepsPaths (newDecoder U o fuel t)) ∧ (∀ t h, KeepsPaths (cacheEncoder U o fuel t h)) ∧
    (∀ t h, KeepsPaths (newEncoder U o fuel t h)) ∧ (∀ t j, KeepsPaths (newStructCodec U o fuel t j)) ∧
    (∀ r fs i idx, KeepsPaths (mergeFields U o fuel r fs i idx)) ∧
    (∀ r t k h idx, idx ≠ [] → KeepsPaths (addField U o fuel r t k h idx)) ∧
    (∀ r t k h idx, idx ≠ [] → KeepsPaths (buildField U o fuel r t k h idx)) := by
  intro fuel
  induction fuel with
  | zero =>
    refine ⟨?_, ?_, ?_, ?_, ?_, ?_, ?_, ?_⟩
    · intro t; rw [cacheDecoder]; exact .diverge
    · intro t; rw [newDecoder]; exact .diverge
    · intro t h; rw [cacheEncoder]; exact .diverge
    · intro t h; rw [newEncoder]; exact .diverge
    · intro t j; rw [newStructCodec]; exact .diverge
    · intro r fs i idx; rw [mergeFields]; exact .diverge
    · intro r t k h idx _; rw [addField]; exact .diverge
    · intro r t k h idx _; rw [buildField]; exact .diverge
  | succ fuel ih =>
    obtain ⟨i1, i2, i3, i4, i5, i6, i7, i8⟩ := ih
    refine ⟨?_, ?_, ?_, ?_, ?_, ?_, ?_, ?_⟩
    · intro t; rw [cacheDecoder]
      refine KeepsPaths.get.bind fun c => ?_
      split
      · exact .pure
      · exact (i2 _).bind fun _ => KeepsPaths.put.bind fun _ => .pure
    · intro t; rw [newDecoder]
      split
      · exact .pure
      · split <;> first
          | exact .pure
          | exact .fail
          | exact (i5 _ _).bind fun _ => .pure
          | exact (KeepsPaths.alloc (by intro t fs h; cases h)).bind fun _ => KeepsPaths.put.bind fun _ => (i1 _).bind fun _ => KeepsPaths.updDec.bind fun _ => .pure
          | (split <;> first
              | exact .pure
              | exact .fail
              | exact (KeepsPaths.alloc (by intro t fs h; cases h)).bind fun _ => KeepsPaths.put.bind fun _ => (i1 _).bind fun _ => KeepsPaths.updDec.bind fun _ => .pure)
    · intro t h; rw [cacheEncoder]
      refine KeepsPaths.get.bind fun c => ?_
      split
      · exact .pure
      · exact (i4 _ _).bind fun _ => KeepsPaths.put.bind fun _ => .pure
    · intro t h; rw [newEncoder]
      split
      · exact .pure
      · split <;> first
          | exact .pure
          | exact .fail
          | exact (i5 _ _).bind fun _ => .pure
          | exact (KeepsPaths.alloc (by intro t fs h; cases h)).bind fun _ => KeepsPaths.put.bind fun _ => (i3 _ _).bind fun _ => KeepsPaths.updEnc.bind fun _ => .pure
          | (split <;> first
              | exact .pure
              | exact .fail
              | exact (KeepsPaths.alloc (by intro t fs h; cases h)).bind fun _ => KeepsPaths.put.bind fun _ => (i3 _ _).bind fun _ => KeepsPaths.updEnc.bind fun _ => .pure)
    · intro t j; rw [newStructCodec]
      refine KeepsPaths.get.bind fun c => ?_
      split
      · exact .pure
      · exact (KeepsPaths.alloc (by intro t fs h; cases h; rfl)).bind fun _ => KeepsPaths.put.bind fun _ => (i6 _ _ _ _).bind fun _ => .pure
    · intro r fs i idx
      cases fs with
      | nil => rw [mergeFields]; exact .pure
      | cons f fs =>
        rw [mergeFields]
        split
        · exact i6 _ _ _ _
        · dsimp only
          split
          · exact i6 _ _ _ _
          · refine KeepsPaths.bind ?_ fun _ => i6 _ _ _ _
            split
            · exact i6 _ _ _ _
            · apply i7
              unfold embedding
              (repeat' split) <;> simp
    · intro r t k h idx hi; rw [addField]
      refine KeepsPaths.get.bind fun c => ?_
      split
      · split
        · exact .pure
        · exact i8 _ _ _ _ _ hi
      · exact i8 _ _ _ _ _ hi
    · intro r t k h idx hi; rw [buildField]
      exact (i1 _).bind fun _ => (i3 _ _).bind fun _ => keeps_fieldOmiter.bind fun _ => KeepsPaths.updAdd hi

theorem newTypeEncoder_paths {U : Univ} {o : Options} {fuel : Nat} {t : Ty} {m : TypeEncoder} (h : newTypeEncoder U o fuel t = .ok m) : Paths m.objs := by
  unfold newTypeEncoder at h
  dsimp only at h
  split at h
  · cases h; intro t fs hm; cases hm
  · split at h
    · rename_i hq
      cases h
      exact (keeps_build U _ fuel).2.2.2.1 _ _ _ _ _ (by intro t fs hm; cases hm) hq
    · cases h
    · cases h

/-! ## Running -/

theorem fieldByIndex_value {U : Univ} : ∀ (idx : List Int) (rv f : RV), fieldByIndex U idx rv = some (some f) → sub rv.v idx = some f.v
  | [], rv, f, h => by rw [fieldByIndex] at h; cases h; rw [sub]
  | i :: idx, rv, f, h => by
    rw [fieldByIndex] at h
    rw [sub.eq_def]
    dsimp only
    by_cases hi : i = -1
    · rw [if_pos hi] at h ⊢
      split at h
      · cases h
      · rename_i hv; rw [hv]; exact fieldByIndex_value idx _ f h
      · cases h
    · rw [if_neg hi] at h ⊢
      cases hf : rv.field U i.toNat with
      | none => rw [hf] at h; cases h
      | some y =>
        rw [hf] at h
        have := fieldByIndex_value idx y f h
        unfold RV.field at hf
        split at hf
        · rename_i hv
          rw [hv]
          split at hf
          · rename_i hg; cases hf; simp only [hg]; exact this
          · cases hf
        · cases hf

theorem omitRun_ends {U : Univ} {objs : List Obj} (hp : Paths objs) : ∀ (n : Nat) (v : GV), sizeOf v < n → ∀ (om : Omiter),
    ∃ N, ∀ fuel, N ≤ fuel → ∀ t a, omitRun U objs fuel om ⟨t, v, a⟩ ≠ none := by
  intro n
  induction n with
  | zero => intro v h; omega
  | succ n ih =>
    intro v hv om
    have one : (∀ fuel t a, omitRun U objs (fuel + 1) om ⟨t, v, a⟩ ≠ none) → ∃ N, ∀ fuel, N ≤ fuel → ∀ t a, omitRun U objs fuel om ⟨t, v, a⟩ ≠ none := by
      intro h
      refine ⟨1, fun fuel hf => ?_⟩
      obtain ⟨k, rfl⟩ : ∃ k, fuel = k + 1 := ⟨fuel - 1, by omega⟩
      exact h k
    cases om with
    | array m o =>
      cases v with
      | array xs =>
        obtain ⟨N, hN⟩ := exists_bound (Q := fun fuel x => ∀ t a, omitRun U objs fuel o ⟨t, x, a⟩ ≠ none) xs (fun x hx => by
          have := List.sizeOf_lt_of_mem hx
          exact ih x (by simp at hv; omega) o)
        refine ⟨N + 1, fun fuel hf t a => ?_⟩
        obtain ⟨k, rfl⟩ : ∃ k, fuel = k + 1 := ⟨fuel - 1, by omega⟩
        rw [omitRun]
        dsimp only
        split
        · apply omitAll_ends
          intro x hx
          obtain ⟨y, hy, rfl⟩ := List.mem_map.1 hx
          exact hN k (by omega) y (List.mem_of_mem_take hy) _ _
        · intro h; cases h
      | _ => exact one fun fuel t a h => by simp [omitRun] at h
    | struct r =>
      cases ho : objs[r]? with
      | none => exact one fun fuel t a h => by simp [omitRun, ho] at h
      | some ob =>
        cases ob with
        | struct t0 fs =>
          obtain ⟨N, hN⟩ := exists_bound (Q := fun fuel (c : Codec) => ∀ t a f, fieldByIndex U c.index ⟨t, v, a⟩ = some (some f) →
              omitRun U objs fuel c.om f ≠ none) fs (by
            intro c hc
            cases hs : sub v c.index with
            | none =>
              refine ⟨0, fun fuel _ t a f hf => ?_⟩
              have := fieldByIndex_value _ _ _ hf
              rw [hs] at this; cases this
            | some x =>
              have hlt := sub_size _ _ _ (hp _ _ (List.mem_of_getElem? ho) c hc) hs
              obtain ⟨N, hN⟩ := ih x (by omega) c.om
              refine ⟨N, fun fuel hfu t a f hf => ?_⟩
              have := fieldByIndex_value _ _ _ hf
              rw [hs] at this; cases this
              exact hN fuel hfu f.t f.addr)
          refine ⟨N + 1, fun fuel hf t a => ?_⟩
          obtain ⟨k, rfl⟩ : ∃ k, fuel = k + 1 := ⟨fuel - 1, by omega⟩
          rw [omitRun]
          simp only [ho]
          exact omitFields_ends _ fun c hc f hfi => hN k (by omega) c hc t a f hfi
        | _ => exact one fun fuel t a h => by simp [omitRun, ho] at h
    | _ =>
      apply one
      intro fuel t a h
      simp only [omitRun] at h
      (repeat' split at h) <;> cases h

theorem andThen_ends {α β : Type} {x : Option (Out α)} {g : α → β} {f : α → Option (Out β)} (hx : x ≠ none) (hf : ∀ a, f a ≠ none) : andThen x g f ≠ none := by
  unfold andThen
  split
  · exact absurd rfl hx
  · intro h; cases h
  · intro h; cases h
  · exact hf _

theorem encElems_ends {rec : Bytes → RV → Option (Out Bytes)} : ∀ (xs : List RV) (first : Bool) (b : Bytes), (∀ x ∈ xs, ∀ b, rec b x ≠ none) →
    encElems rec xs first b ≠ none
  | [], _, _, _ => by intro h; cases h
  | x :: xs, first, b, hx => by
    rw [encElems]
    exact andThen_ends (hx x (by simp) _) fun b => encElems_ends xs false b fun y hy => hx y (by simp [hy])

theorem encEntries_ends {key val : Bytes → RV → Option (Out Bytes)} : ∀ (es : List (RV × RV)) (first : Bool) (b : Bytes),
    (∀ p ∈ es, ∀ b, key b p.1 ≠ none ∧ val b p.2 ≠ none) → encEntries key val es first b ≠ none
  | [], _, _, _ => by intro h; cases h
  | p :: es, first, b, hx => by
    rw [encEntries]
    exact andThen_ends (hx p (by simp) _).1 fun b => andThen_ends (hx p (by simp) _).2 fun b => encEntries_ends es false b fun y hy => hx y (by simp [hy])

theorem encFields_ends {U : Univ} {rec : Enc → Bytes → RV → Option (Out Bytes)} {om : Omiter → RV → Option (Out Bool)} {rv : RV} :
    ∀ (fs : List Codec) (more : Bool) (b : Bytes),
    (∀ c ∈ fs, ∀ f, fieldByIndex U c.index rv = some (some f) → om c.om f ≠ none ∧ ∀ b, rec c.enc b f ≠ none) →
    encFields U rec om rv fs more b ≠ none
  | [], _, _, _ => by intro h; cases h
  | c :: fs, more, b, hc => by
    have ih := fun more b => encFields_ends (rec := rec) (om := om) fs more b fun y hy => hc y (by simp [hy])
    rw [encFields]
    cases hf : fieldByIndex U c.index rv with
    | none => intro h; cases h
    | some q =>
      cases q with
      | none => exact ih _ _
      | some f =>
        obtain ⟨h1, h2⟩ := hc c (by simp) f hf
        refine andThen_ends h1 fun skip => ?_
        cases skip with
        | true => exact ih _ _
        | false => exact andThen_ends (h2 _) fun b => ih _ _

theorem sub_holds {t : Ty} : ∀ (idx : List Int) (v x : GV), sub v idx = some x → Holds x t → Holds v t
  | [], v, x, h, hx => by rw [sub] at h; cases h; exact hx
  | i :: idx, v, x, h, hx => by
    rw [sub.eq_def] at h
    dsimp only at h
    split at h
    · split at h
      · exact .ptr (sub_holds idx _ x h hx)
      · cases h
    · split at h
      · split at h
        · rename_i hg
          exact .struct (List.mem_of_getElem? hg) (sub_holds idx _ x h hx)
        · cases h
      · cases h

/-- Encoding ends, whatever the codecs and the value are, if codecs for the dynamic types in the value can be made. -/
theorem encode_returns {U : Univ} : ∀ (n : Nat) (v : GV), sizeOf v < n → (∀ t, Holds v t → Finite U defaultOptions t) →
    ∀ (objs : List Obj), Paths objs → ∀ (e : Enc), ∃ N, ∀ fuel, N ≤ fuel → ∀ t a b, encode U objs fuel e b ⟨t, v, a⟩ ≠ none := by
  intro n
  induction n with
  | zero => intro v h; omega
  | succ n ih =>
    intro v hv hF objs hp e
    have one : (∀ fuel t a b, encode U objs (fuel + 1) e b ⟨t, v, a⟩ ≠ none) → ∃ N, ∀ fuel, N ≤ fuel → ∀ t a b, encode U objs fuel e b ⟨t, v, a⟩ ≠ none := by
      intro h
      refine ⟨1, fun fuel hf => ?_⟩
      obtain ⟨k, rfl⟩ : ∃ k, fuel = k + 1 := ⟨fuel - 1, by omega⟩
      exact h k
    have more : ∀ {N : Nat}, (∀ fuel, N ≤ fuel → ∀ t a b, encode U objs (fuel + 1) e b ⟨t, v, a⟩ ≠ none) →
        ∃ N, ∀ fuel, N ≤ fuel → ∀ t a b, encode U objs fuel e b ⟨t, v, a⟩ ≠ none := by
      intro N h
      refine ⟨N + 1, fun fuel hf => ?_⟩
      obtain ⟨k, rfl⟩ : ∃ k, fuel = k + 1 := ⟨fuel - 1, by omega⟩
      exact h k (by omega)
    cases e with
    | ptr r =>
      cases v with
      | ptr x =>
        cases ho : objs[r]? with
        | none => exact one fun fuel t a b h => by simp [encode, ho] at h
        | some ob =>
          cases ob with
          | ptrE t0 h0 e' =>
            cases e' with
            | none => exact one fun fuel t a b h => by simp [encode, ho] at h
            | some e' =>
              obtain ⟨N, hN⟩ := ih x (by simp at hv; omega) (fun t h => hF t (.ptr h)) objs hp e'
              refine more (N := N) fun fuel hf t a b => ?_
              simp only [encode, ho]
              exact hN fuel hf _ _ _
          | _ => exact one fun fuel t a b h => by simp [encode, ho] at h
      | _ => exact one fun fuel t a b h => by simp [encode] at h
    | slice r =>
      cases v with
      | slice arr len =>
        cases ho : objs[r]? with
        | none => exact one fun fuel t a b h => by simp [encode, ho] at h
        | some ob =>
          cases ob with
          | sliceE t0 h0 e' =>
            cases e' with
            | none => exact one fun fuel t a b h => by simp [encode, ho] at h
            | some e' =>
              obtain ⟨N, hN⟩ := exists_bound (Q := fun fuel x => ∀ t a b, encode U objs fuel e' b ⟨t, x, a⟩ ≠ none) (arr.take len) (fun x hx => by
                have := List.sizeOf_lt_of_mem (List.mem_of_mem_take hx)
                exact ih x (by simp at hv; omega) (fun t h => hF t (.slice hx h)) objs hp e')
              refine more (N := N) fun fuel hf t a b => ?_
              simp only [encode, ho]
              refine andThen_ends (encElems_ends _ _ _ fun x hx b => ?_) fun b h => by cases h
              obtain ⟨y, hy, rfl⟩ := List.mem_map.1 hx
              exact hN fuel hf y hy _ _ _
          | _ => exact one fun fuel t a b h => by simp [encode, ho] at h
      | _ => exact one fun fuel t a b h => by simp [encode] at h
    | array r =>
      cases v with
      | array xs =>
        cases ho : objs[r]? with
        | none => exact one fun fuel t a b h => by simp [encode, ho] at h
        | some ob =>
          cases ob with
          | arrayE t0 h0 m e' =>
            cases e' with
            | none => exact one fun fuel t a b h => by simp [encode, ho] at h
            | some e' =>
              obtain ⟨N, hN⟩ := exists_bound (Q := fun fuel x => ∀ t a b, encode U objs fuel e' b ⟨t, x, a⟩ ≠ none) xs (fun x hx => by
                have := List.sizeOf_lt_of_mem hx
                exact ih x (by simp at hv; omega) (fun t h => hF t (.array hx h)) objs hp e')
              refine more (N := N) fun fuel hf t a b => ?_
              simp only [encode, ho]
              split
              · refine andThen_ends (encElems_ends _ _ _ fun x hx b => ?_) fun b h => by cases h
                obtain ⟨y, hy, rfl⟩ := List.mem_map.1 hx
                exact hN fuel hf y (List.mem_of_mem_take hy) _ _ _
              · intro h; cases h
          | _ => exact one fun fuel t a b h => by simp [encode, ho] at h
      | _ => exact one fun fuel t a b h => by simp [encode] at h
    | map r =>
      cases v with
      | map es =>
        cases ho : objs[r]? with
        | none => exact one fun fuel t a b h => by simp [encode, ho] at h
        | some ob =>
          cases ob with
          | mapE t0 k0 e' =>
            cases e' with
            | none => exact one fun fuel t a b h => by simp [encode, ho] at h
            | some e' =>
              obtain ⟨N, hN⟩ := exists_bound (Q := fun fuel (p : GV × GV) => (∀ t a b, encode U objs fuel k0 b ⟨t, p.1, a⟩ ≠ none) ∧
                  ∀ t a b, encode U objs fuel e' b ⟨t, p.2, a⟩ ≠ none) es (fun p hx => by
                have := List.sizeOf_lt_of_mem hx
                obtain ⟨p1, p2⟩ := p
                obtain ⟨N1, h1⟩ := ih p1 (by simp at hv this; omega) (fun t h => hF t (.key hx h)) objs hp k0
                obtain ⟨N2, h2⟩ := ih p2 (by simp at hv this; omega) (fun t h => hF t (.value hx h)) objs hp e'
                exact ⟨max N1 N2, fun fuel hf => ⟨h1 fuel (by omega), h2 fuel (by omega)⟩⟩)
              refine more (N := N) fun fuel hf t a b => ?_
              simp only [encode, ho]
              refine andThen_ends (encEntries_ends _ _ _ fun x hx b => ?_) fun b h => by cases h
              obtain ⟨y, hy, rfl⟩ := List.mem_map.1 hx
              exact ⟨(hN fuel hf y hy).1 _ _ _, (hN fuel hf y hy).2 _ _ _⟩
          | _ => exact one fun fuel t a b h => by simp [encode, ho] at h
      | _ => exact one fun fuel t a b h => by simp [encode] at h
    | struct r =>
      cases ho : objs[r]? with
      | none => exact one fun fuel t a b h => by simp [encode, ho] at h
      | some ob =>
        cases ob with
        | struct t0 fs =>
          obtain ⟨N, hN⟩ := exists_bound (Q := fun fuel (c : Codec) => ∀ t a f, fieldByIndex U c.index ⟨t, v, a⟩ = some (some f) →
              omitRun U objs fuel c.om f ≠ none ∧ ∀ b, encode U objs fuel c.enc b f ≠ none) fs (by
            intro c hc
            cases hs : sub v c.index with
            | none =>
              refine ⟨0, fun fuel _ t a f hf => ?_⟩
              have := fieldByIndex_value _ _ _ hf
              rw [hs] at this; cases this
            | some x =>
              have hlt := sub_size _ _ _ (hp _ _ (List.mem_of_getElem? ho) c hc) hs
              obtain ⟨N1, h1⟩ := omitRun_ends hp _ x (Nat.lt_succ_self _) c.om (U := U)
              obtain ⟨N2, h2⟩ := ih x (by omega) (fun t h => hF t (sub_holds _ _ _ hs h)) objs hp c.enc
              refine ⟨max N1 N2, fun fuel hfu t a f hf => ?_⟩
              have := fieldByIndex_value _ _ _ hf
              rw [hs] at this; cases this
              exact ⟨h1 fuel (by omega) f.t f.addr, fun b => h2 fuel (by omega) f.t f.addr b⟩)
          refine more (N := N) fun fuel hf t a b => ?_
          simp only [encode, ho]
          exact encFields_ends _ _ _ fun c hc f hfi => hN fuel hf c hc t a f hfi
        | _ => exact one fun fuel t a b h => by simp [encode, ho] at h
    | iface =>
      cases v with
      | iface t' x =>
        obtain ⟨N1, q, hq, hN1⟩ := newTypeEncoder_ends (o := {}) (hF t' .here)
        cases q with
        | diverge => exact absurd rfl hq
        | err er =>
          refine more (N := N1) fun fuel hf t a b h => ?_
          simp only [encode, hN1 fuel hf] at h
          cases h
        | ok m =>
          have hpm := newTypeEncoder_paths (hN1 N1 (Nat.le_refl _))
          obtain ⟨N2, hN2⟩ := ih x (by simp at hv; omega) (fun t h => hF t (.iface h)) m.objs hpm m.enc
          have h3 : ∃ N3, ∀ y, x = .ptr y → ∀ fuel, N3 ≤ fuel → ∀ t a b, encode U m.objs fuel m.enc b ⟨t, y, a⟩ ≠ none := by
            cases x with
            | ptr y =>
              obtain ⟨N3, h3⟩ := ih y (by simp at hv; omega) (fun t h => hF t (.iface (.ptr h))) m.objs hpm m.enc
              exact ⟨N3, fun y' hy => by cases hy; exact h3⟩
            | _ => exact ⟨0, fun y hy => by cases hy⟩
          obtain ⟨N3, hN3⟩ := h3
          refine more (N := max N1 (max N2 N3)) fun fuel hf t a b => ?_
          simp only [encode, hN1 fuel (by omega)]
          split
          · split
            · exact hN3 _ rfl fuel (by omega) _ _ _
            · intro h; cases h
          · intro h; cases h
          · split
            · exact hN2 fuel (by omega) _ _ _
            · intro h; cases h
      | _ => exact one fun fuel t a b h => by simp [encode] at h
    | _ =>
      apply one
      intro fuel t a b h
      simp only [encode] at h
      (repeat' split at h) <;> cases h

theorem typeEncoder_returns {U : Univ} {m : TypeEncoder} (hp : Paths m.objs) {t : Ty} {v : GV} (hF : ∀ t, Holds v t → Finite U defaultOptions t) :
    ∃ N, ∀ fuel, N ≤ fuel → ∀ b, m.encode U fuel b t v ≠ none := by
  obtain ⟨N2, hN2⟩ := encode_returns (U := U) _ v (Nat.lt_succ_self _) hF m.objs hp m.enc
  have h3 : ∃ N3, ∀ y, v = .ptr y → ∀ fuel, N3 ≤ fuel → ∀ t a b, encode U m.objs fuel m.enc b ⟨t, y, a⟩ ≠ none := by
    cases v with
    | ptr y =>
      obtain ⟨N3, h3⟩ := encode_returns (U := U) _ y (Nat.lt_succ_self _) (fun t h => hF t (.ptr h)) m.objs hp m.enc
      exact ⟨N3, fun y' hy => by cases hy; exact h3⟩
    | _ => exact ⟨0, fun y hy => by cases hy⟩
  obtain ⟨N3, hN3⟩ := h3
  refine ⟨max N2 N3, fun fuel hf b => ?_⟩
  unfold TypeEncoder.encode
  split
  · split
    · exact hN3 _ rfl fuel (by omega) _ _ _
    · intro h; cases h
  · intro h; cases h
  · split
    · exact hN2 fuel (by omega) _ _ _
    · intro h; cases h

end Verif.Unjson
