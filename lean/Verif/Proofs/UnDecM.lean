import Verif.Proofs.UnUnique
import Verif.Proofs.UnEncodeM
import Verif.Proofs.UnRunLe
import Verif.Spec.UnDecM
import Verif.Props.Access

/-! # What decoding does, with the methods of types: as UnTyped, UnDecode and UnUnique -/

namespace Verif.Unjson
open Verif Verif.Float Verif.Spec Verif.Njson

/-! ## Methods -/

theorem methOut_hasTy {U : Univ} {nm : NodeMeth} (hM : U.Unmarshals nm) {m : Meth} {t : Ty} {v : GV} {j : JVal} (hv : HasTy U t v) :
    OutTy U t (methOut U nm m t v j) := by
  intro y e he
  have call : ∀ m s y e, called (U.panics m t v s) (U.unmarshal m t v s) = .done y e → HasTy U t y := by
    intro m s y e h
    unfold called at h
    split at h
    · cases h
    · cases h; exact hM.typed _ _ _ _ hv
  unfold methOut at he
  cases m with
  | unmarshaler =>
    dsimp only at he
    split at he
    · rename_i hq; cases he; exact hM.typed_node _ _ _ _ hv hq
    · cases he
  | _ => exact call _ _ y e he

theorem callUnmarshal_hasTy {U : Univ} {nm : NodeMeth} (hM : U.Unmarshals nm) {m : Meth} {t : Ty} {v : GV} {j : JVal} (hv : HasTy U t v) :
    OutTy U t (callUnmarshal U nm m t v j) := by
  intro y e he
  unfold callUnmarshal at he
  split at he
  · cases he; exact hv
  · split at he
    · rename_i t' v' hb
      split at he
      · cases hv with
        | iface h1 h2 =>
          cases hq : methOut U nm m t' v' j with
          | panic => rw [hq] at he; cases he
          | done y' e' =>
            rw [hq] at he
            cases he
            exact .iface h1 (methOut_hasTy hM h2 _ _ hq)
      · cases he
    · cases he
    · exact methOut_hasTy hM hv _ _ he

theorem reads_hasTy {U : Univ} {nm : NodeMeth} (hM : U.Unmarshals nm) {o : Options} (hU : U.Ok) (hE : U.EmbedsStructs) {t : Ty} {v : GV} {j : JVal} {r : Out GV}
    (h : Reads U nm o t v j r) : HasTy U t v → OutTy U t r := by
  refine Reads.rec
    (motive_1 := fun t v j r _ => HasTy U t v → OutTy U t r)
    (motive_2 := fun t v j r _ => HasTy U t v → OutTy U t r)
    (motive_3 := fun t js arr r _ => (∀ x ∈ arr, HasTy U t x) → ∀ p, r = some p → (∀ x ∈ p.1, HasTy U t x) ∧ p.1.length = arr.length ∧ p.2 ≤ js.length)
    (motive_4 := fun t js xs r _ => (∀ x ∈ xs, HasTy U t x) → ∀ ys, r = some ys → (∀ x ∈ ys, HasTy U t x) ∧ ys.length = xs.length)
    (motive_5 := fun k t ms m r _ => ∀ t0, U.base t0 = .map k t → HasTy U t0 m → OutTy U t0 r)
    (motive_6 := fun cs ms v r _ => ∀ t0, HasTy U t0 v → (∀ c ∈ cs, PathTy U t0 c.index c.typ) → OutTy U t0 r)
    ?meth ?plain ?null ?mismatch ?bool ?int ?intErr ?uint ?uintErr ?float ?floatErr ?str ?ptr ?ptrNew ?sliceNull ?nilSliceNull ?slice ?sliceGrow
    ?nilSlice ?array ?mapNull ?map ?struct ?any ?anyErr ?anyPanic ?enil ?estop ?epanic ?econs ?afull ?arest ?apanic ?acons
    ?mnil ?mfail ?mpanic ?mnilMap ?mbadKey ?mcons ?snil ?sunknown ?sfail ?spanic ?scons ?slostFail ?slostPanic ?slost h
  case meth => intro t v j m _ hv; exact callUnmarshal_hasTy hM hv
  case plain => intro t v j r _ _ ih hv; exact ih hv
  case null => intro t v _ hv y e he; cases he; exact hasTy_zero hU t
  case mismatch => intro t v j w _ _ _ hv y e he; cases he; exact hv
  case bool => intro t x b hb hv y e he; cases he; exact .bool hb
  case int =>
    intro t k x raw i hb _ hv y e he; cases he
    exact .int hb (wrapInt_range k i).1 (wrapInt_range k i).2
  case intErr => intro t k x raw _ _ hv y e he; cases he; exact hv
  case uint => intro t k x raw n hb _ hv y e he; cases he; exact .uint hb (wrapUint_range k n)
  case uintErr => intro t k x raw _ _ hv y e he; cases he; exact hv
  case float => intro t k x raw f hb _ hv y e he; cases he; exact .float hb
  case floatErr => intro t k x raw _ _ hv y e he; cases he; exact hv
  case str => intro t x raw hb hv y e he; cases he; exact .str hb
  case ptr =>
    intro t e v j r hb _ _ ih hv y er he
    rcases hv.inv_ptr hb with h | ⟨x, h, hx⟩
    · cases h
    · cases h
      cases r with
      | panic => cases he
      | done a e' => cases he; exact .ptr hb (ih hx a _ rfl)
  case ptrNew =>
    intro t e j r hb _ _ ih hv y er he
    cases r with
    | panic => cases he
    | done a e' => cases he; exact .ptr hb (ih (hasTy_zero hU e) a _ rfl)
  case sliceNull =>
    intro t e arr len hb hv y er he
    cases he
    rcases hv.inv_slice hb with h | ⟨arr', len', h, _, h2⟩
    · cases h
    · cases h; exact .slice hb (Nat.zero_le _) h2
  case nilSliceNull => intro t e hb hv y er he; cases he; exact .nilSlice hb
  case slice =>
    intro t e arr len js r hb hl _ ih hv y er he
    rcases hv.inv_slice hb with h | ⟨arr', len', h, _, h2⟩
    · cases h
    · cases h
      cases r with
      | none => cases he
      | some p =>
        cases he
        obtain ⟨q1, q2, q3⟩ := ih h2 p rfl
        exact .slice hb (by omega) q1
  case sliceGrow =>
    intro t e arr len js r hb hl _ ih hv y er he
    cases r with
    | none => cases he
    | some p =>
      cases he
      obtain ⟨q1, q2, q3⟩ := ih (fun x hx => by rw [(List.mem_replicate.1 hx).2]; exact hasTy_zero hU e) p rfl
      rw [List.length_replicate] at q2
      exact .slice hb (by omega) q1
  case nilSlice =>
    intro t e js r hb _ ih hv y er he
    cases r with
    | none => cases he
    | some p =>
      cases he
      obtain ⟨q1, q2, q3⟩ := ih (fun x hx => by rw [(List.mem_replicate.1 hx).2]; exact hasTy_zero hU e) p rfl
      rw [List.length_replicate] at q2
      exact .slice hb (by omega) q1
  case array =>
    intro t n e xs js r hb _ ih hv y er he
    obtain ⟨xs', h, h1, h2⟩ := hv.inv_array hb
    cases h
    cases r with
    | none => cases he
    | some ys =>
      cases he
      obtain ⟨q1, q2⟩ := ih h2 ys rfl
      exact .array hb (q2.trans h1) q1
  case mapNull => intro t k e v _ hv y er he; cases he; exact hv
  case map => intro t k e v ms r hb _ ih hv; exact ih t hb hv
  case struct => intro t j cs v ms r hb hc _ ih hv; exact ih t hv (cands_path0 hE hb hc)
  case any => intro v j x hx hv y er he; cases he; exact (any_hasTy U).1 j _ hx
  case anyErr => intro t i v j _ _ hv y er he; cases he; exact hv
  case anyPanic => intro t i v j x _ _ _ hv y er he; cases he
  case enil => intro t arr ha p hp; cases hp; exact ⟨ha, rfl, Nat.le_refl _⟩
  case estop =>
    intro t j js x arr y e _ ih ha p hp
    cases hp
    refine ⟨fun z hz => ?_, rfl, Nat.zero_le _⟩
    rcases List.mem_cons.1 hz with rfl | hz
    · exact ih (ha x List.mem_cons_self) _ _ rfl
    · exact ha z (List.mem_cons_of_mem _ hz)
  case epanic => intro t j js x arr _ _ ha p hp; cases hp
  case econs =>
    intro t j js x arr y r _ _ ih1 ih2 ha p hp
    cases r with
    | none => cases hp
    | some q =>
      cases hp
      obtain ⟨q1, q2, q3⟩ := ih2 (fun z hz => ha z (List.mem_cons_of_mem _ hz)) q rfl
      refine ⟨fun z hz => ?_, by simp [q2], by simp; omega⟩
      rcases List.mem_cons.1 hz with rfl | hz
      · exact ih1 (ha x List.mem_cons_self) _ _ rfl
      · exact q1 z hz
  case afull => intro t js ha ys hp; cases hp; exact ⟨ha, rfl⟩
  case arest =>
    intro t x xs ha ys hp
    cases hp
    exact ⟨fun z hz => by rw [(List.mem_replicate.1 hz).2]; exact hasTy_zero hU t, by simp⟩
  case apanic => intro t j js x xs _ _ ha ys hp; cases hp
  case acons =>
    intro t j js x xs y e r _ _ ih1 ih2 ha ys hp
    cases r with
    | none => cases hp
    | some q =>
      cases hp
      obtain ⟨q1, q2⟩ := ih2 (fun z hz => ha z (List.mem_cons_of_mem _ hz)) q rfl
      refine ⟨fun z hz => ?_, by simp [q2]⟩
      rcases List.mem_cons.1 hz with rfl | hz
      · exact ih1 (ha x List.mem_cons_self) _ _ rfl
      · exact q1 z hz
  case mnil => intro k t m t0 _ hm y e he; cases he; exact hm
  case mfail => intro k t key j ms m y e _ _ t0 _ hm y' e' he; cases he; exact hm
  case mpanic => intro k t key j ms m _ _ t0 _ hm y' e' he; cases he
  case mnilMap => intro k t key j ms y _ _ t0 _ hm y' e' he; cases he
  case mbadKey => intro k t key j ms m y _ _ _ t0 _ hm y' e' he; cases he
  case mcons =>
    intro t key j ms es y r _ _ ih1 ih2 t0 hb hm
    refine ih2 t0 hb ?_
    rcases hm.inv_map hb with h | ⟨es', h, h1, h2⟩
    · cases h
    · cases h
      refine .map hb ?_ ?_
      · intro p hp
        rcases setKey_mem hp with ⟨_, hk⟩ | hp
        · rw [hk]; exact .str rfl
        · exact h1 p hp
      · intro p hp
        rcases setKey_mem hp with ⟨hk, _⟩ | hp
        · rw [hk]; exact ih1 (hasTy_zero hU t) _ _ rfl
        · exact h2 p hp
  case snil => intro cs v t0 hv _ y e he; cases he; exact hv
  case sunknown => intro cs key j ms v r _ _ ih t0 hv hp; exact ih t0 hv hp
  case sfail =>
    intro cs key j ms v c x y e hf hs _ ih t0 hv hp y' e' he
    cases he
    have hc := hp c (List.mem_of_find?_eq_some hf)
    exact put_hasTy hc hv (ih (sub_hasTy hc hv hs) _ _ rfl)
  case spanic => intro cs key j ms v c x hf hs _ ih t0 hv hp y' e' he; cases he
  case scons =>
    intro cs key j ms v c x y r hf hs _ _ ih1 ih2 t0 hv hp
    have hc := hp c (List.mem_of_find?_eq_some hf)
    exact ih2 t0 (put_hasTy hc hv (ih1 (sub_hasTy hc hv hs) _ _ rfl)) hp
  case slostFail => intro cs key j ms v c y e hf hs _ ih t0 hv hp y' e' he; cases he; exact hv
  case slostPanic => intro cs key j ms v c hf hs _ ih t0 hv hp y' e' he; cases he
  case slost => intro cs key j ms v c y r hf hs _ _ ih1 ih2 t0 hv hp; exact ih2 t0 hv hp


section
variable {U : Univ} {nm : NodeMeth} {o : Options}

theorem getCodec_findM {objs : List Obj} {fs : List Codec} {ks : List Cand} (key : Bytes)
    (h : All2 (FieldOkM U o objs) fs ks) : (getCodec fs key = none ∧ ks.find? (fun c => c.key = key) = none) ∨
    ∃ f c, getCodec fs key = some f ∧ ks.find? (fun c => c.key = key) = some c ∧ FieldOkM U o objs f c := by
  unfold getCodec
  induction h with
  | nil => left; exact ⟨rfl, rfl⟩
  | @cons f k l m h1 _ ih =>
    by_cases hk : k.key = key
    · right; exact ⟨f, k, by simp [h1.key, hk], by simp [hk], h1⟩
    · have hk' : ¬ f.key = key := by rw [h1.key]; exact hk
      simp only [List.find?_cons, hk, hk', decide_false]
      exact ih

theorem decSlice_reads {t : Ty} {rec : Node → GV → Option (Out GV)} {h : Heap} {ns : List Node} {js : List JVal} (ht : All2 (Tree h) ns js)
    (hrec : ∀ n j, Tree h n j → ∀ x r, HasTy U t x → rec n x = some r → Reads U nm o t x j r) :
    ∀ {pre arr : List GV} {len : Nat} {r : Option (List GV × Nat)}, js.length ≤ arr.length → len = pre.length + js.length → (∀ x ∈ arr, HasTy U t x) →
      decSlice rec ns pre.length (pre ++ arr) len = some r →
      ∃ r', ReadElems U nm o t js arr r' ∧ r = r'.map fun p => (pre ++ p.1, pre.length + p.2) := by
  induction ht with
  | nil =>
    intro pre arr len r _ hl _ hr
    rw [decSlice] at hr; cases hr
    exact ⟨_, .nil, by simp [hl]⟩
  | @cons n j ns js hn _ ih =>
    intro pre arr len r hle hl ha hr
    cases arr with
    | nil => simp at hle
    | cons x arr =>
      rw [decSlice] at hr
      have e1 : (pre ++ x :: arr)[pre.length]? = some x := by simp
      rw [e1] at hr
      simp only at hr
      cases hd : rec n x with
      | none => rw [hd] at hr; cases hr
      | some r1 =>
        have hD := hrec n j hn x r1 (ha x List.mem_cons_self) hd
        rw [hd] at hr
        rcases r1 with ⟨y, _ | e⟩ | _
        · simp only at hr
          have e2 : (pre ++ x :: arr).set pre.length y = (pre ++ [y]) ++ arr := by simp
          have e3 : pre.length + 1 = (pre ++ [y]).length := by simp
          rw [e2, e3] at hr
          obtain ⟨r', g1, g2⟩ := ih (pre := pre ++ [y]) (arr := arr) (len := len) (r := r) (by simpa using hle)
            (by simp at hl ⊢; omega) (fun z hz => ha z (List.mem_cons_of_mem _ hz)) hr
          refine ⟨_, .cons hD g1, ?_⟩
          rw [g2]
          cases r' with
          | none => rfl
          | some p => simp; omega
        · cases hr
          exact ⟨_, .stop hD, by simp⟩
        · cases hr
          exact ⟨_, .panic hD, rfl⟩

theorem decArray_reads {t : Ty} {rec : Node → GV → Option (Out GV)} {h : Heap} {ns : List Node} {js : List JVal} (ht : All2 (Tree h) ns js)
    (hrec : ∀ n j, Tree h n j → ∀ x r, HasTy U t x → rec n x = some r → Reads U nm o t x j r) :
    ∀ {xs : List GV} {r : Option (List GV)}, (∀ x ∈ xs, HasTy U t x) → decArray rec (U.zero t) xs ns = some r → ReadArr U nm o t js xs r := by
  induction ht with
  | nil =>
    intro xs r ha hr
    cases xs with
    | nil => rw [decArray] at hr; cases hr; exact .full
    | cons x xs =>
      rw [decArray] at hr; cases hr
      have : U.zero t :: xs.map (fun _ => U.zero t) = List.replicate (xs.length + 1) (U.zero t) := by
        rw [List.replicate_succ, List.map_const']
      rw [this]; exact .rest
  | @cons n j ns js hn _ ih =>
    intro xs r ha hr
    cases xs with
    | nil => rw [decArray] at hr; cases hr; exact .full
    | cons x xs =>
      rw [decArray] at hr
      cases hd : rec n x with
      | none => rw [hd] at hr; cases hr
      | some r1 =>
        have hD := hrec n j hn x r1 (ha x List.mem_cons_self) hd
        rw [hd] at hr
        cases r1 with
        | panic => cases hr; exact .panic hD
        | done y e =>
          simp only at hr
          cases hq : decArray rec (U.zero t) xs ns with
          | none => rw [hq] at hr; cases hr
          | some r2 =>
            have hA := ih (fun z hz => ha z (List.mem_cons_of_mem _ hz)) hq
            rw [hq] at hr
            cases r2 with
            | none => cases hr; exact .cons hD hA
            | some ys => cases hr; exact .cons hD hA

theorem decMap_reads (hU : U.Ok) {k t : Ty} {rec : Node → GV → Option (Out GV)} {h : Heap} {ns : List (Bytes × Node)} {ms : List (Bytes × JVal)}
    (ht : All2 (fun (p : Bytes × Node) (m : Bytes × JVal) => p.1 = m.1 ∧ Tree h p.2 m.2) ns ms)
    (hrec : ∀ n j, Tree h n j → ∀ x r, HasTy U t x → rec n x = some r → Reads U nm o t x j r) :
    ∀ {m : GV} {r : Out GV}, (m = .nilMap ∨ ∃ es, m = .map es) → decMap rec (U.zero t) (decide (k = .string)) ns m = some r →
      ReadEntries U nm o k t ms m r := by
  induction ht with
  | nil => intro m r _ hr; rw [decMap] at hr; cases hr; exact .nil
  | @cons p q ns ms hp _ ih =>
    intro m r hm hr
    obtain ⟨key, n⟩ := p
    obtain ⟨key', j⟩ := q
    obtain ⟨h1, h2⟩ := hp
    simp only at h1 h2
    subst h1
    rw [decMap] at hr
    rcases andThen_out hr with ⟨y, hx, hr⟩ | ⟨y, e, hx, rfl⟩ | ⟨hx, rfl⟩
    · have hD := hrec n j h2 _ _ (hasTy_zero hU t) hx
      by_cases hk : k = .string
      · rw [if_pos (by simp [hk])] at hr
        rcases hm with rfl | ⟨es, rfl⟩
        · cases hr; exact .nilMap hD
        · simp only at hr
          rw [setEntry_eq] at hr
          have := ih (.inr ⟨_, rfl⟩) hr
          subst hk
          exact .cons hD this
      · rw [if_neg (by simp [hk])] at hr
        cases hr; exact .badKey hk hD
    · exact .fail (hrec n j h2 _ _ (hasTy_zero hU t) hx)
    · exact .panic (hrec n j h2 _ _ (hasTy_zero hU t) hx)

theorem decFields_reads (hM : U.Unmarshals nm) (hU : U.Ok) (hE : U.EmbedsStructs) {objs : List Obj} {t : Ty} {rec : Dec → Node → RV → Option (Out GV)} {h : Heap}
    {ns : List (Bytes × Node)} {ms : List (Bytes × JVal)} {fs : List Codec} {cs : List Cand}
    (ht : All2 (fun (p : Bytes × Node) (m : Bytes × JVal) => p.1 = m.1 ∧ Tree h p.2 m.2) ns ms)
    (hf : All2 (FieldOkM U o objs) fs cs) (hp : ∀ c ∈ cs, PathTy U t c.index c.typ) (hne : ∀ c ∈ cs, c.index ≠ [])
    (hrec : ∀ d c, c ∈ cs → DecIsM U objs d c.typ → ∀ n j, Tree h n j → ∀ x a r, HasTy U c.typ x → rec d n ⟨c.typ, x, a⟩ = some r → Reads U nm o c.typ x j r) :
    ∀ {v : GV} {r : Out GV}, HasTy U t v → decFields U rec fs t ns v = some r → ReadMembers U nm o cs ms v r := by
  induction ht with
  | nil => intro v r _ hr; rw [decFields] at hr; cases hr; exact .nil
  | @cons p q ns ms hpq _ ih =>
    intro v r hv hr
    obtain ⟨key, n⟩ := p
    obtain ⟨key', j⟩ := q
    obtain ⟨h1, h2⟩ := hpq
    simp only at h1 h2
    subst h1
    rw [decFields] at hr
    rcases getCodec_findM key hf with ⟨g1, g2⟩ | ⟨f, c, g1, g2, g3⟩
    · rw [g1] at hr; exact .unknown g2 (ih hv hr)
    · rw [g1] at hr
      simp only at hr
      have hc := List.mem_of_find?_eq_some g2
      rw [g3.index, if_neg (hne c hc)] at hr
      rcases andThen_out hr with ⟨y, hx, hr⟩ | ⟨y, e, hx, rfl⟩ | ⟨hx, rfl⟩
      · rcases decodeAt_spec hU (hp c hc) hv hx with ⟨x, a', r', q1, q2, q3⟩ | ⟨a', r', q1, q2, q3⟩
        · have hs := sub_hasTy (hp c hc) hv q1
          have hD := hrec f.dec c hc g3.dec n j h2 _ _ _ hs q2
          cases r' with
          | panic => cases q3
          | done z e =>
            cases q3
            exact .cons g2 q1 hD (ih (put_hasTy (hp c hc) hv (reads_hasTy hM hU hE hD hs _ _ rfl)) hr)
        · have hD := hrec f.dec c hc g3.dec n j h2 _ _ _ (hasTy_zero hU _) q2
          cases r' with
          | panic => cases q3
          | done z e => cases q3; exact .lost g2 q1 hD (ih hv hr)
      · rcases decodeAt_spec hU (hp c hc) hv hx with ⟨x, a', r', q1, q2, q3⟩ | ⟨a', r', q1, q2, q3⟩
        · have hD := hrec f.dec c hc g3.dec n j h2 _ _ _ (sub_hasTy (hp c hc) hv q1) q2
          cases r' with
          | panic => cases q3
          | done z e => cases q3; exact .fail g2 q1 hD
        · have hD := hrec f.dec c hc g3.dec n j h2 _ _ _ (hasTy_zero hU _) q2
          cases r' with
          | panic => cases q3
          | done z e => cases q3; exact .lostFail g2 q1 hD
      · rcases decodeAt_spec hU (hp c hc) hv hx with ⟨x, a', r', q1, q2, q3⟩ | ⟨a', r', q1, q2, q3⟩
        · have hD := hrec f.dec c hc g3.dec n j h2 _ _ _ (sub_hasTy (hp c hc) hv q1) q2
          cases r' with
          | done z e => cases q3
          | panic => exact .panic g2 q1 hD
        · have hD := hrec f.dec c hc g3.dec n j h2 _ _ _ (hasTy_zero hU _) q2
          cases r' with
          | done z e => cases q3
          | panic => exact .lostPanic g2 q1 hD


end

/-! ## The store -/

section
variable {U : Univ} {o : Options} {objs : List Obj}

theorem storeM_ptrD (hs : StoreM U o true objs) {r : Nat} {e : Ty} (hx : sh objs r = some (.ptrD e none)) :
    ∃ d, objs[r]? = some (.ptrD e (some d)) ∧ DecIsM U objs d e := by
  obtain ⟨x, h1, h2⟩ := sh_some hx
  cases x <;> simp [Obj.shape] at h2
  subst h2
  obtain ⟨d, rfl, q⟩ := hs r _ h1
  exact ⟨d, h1, q⟩

theorem storeM_sliceD (hs : StoreM U o true objs) {r : Nat} {t e : Ty} (hb : U.base t = .slice e) (hx : sh objs r = some (.sliceD t none)) :
    ∃ d, objs[r]? = some (.sliceD t (some d)) ∧ DecIsM U objs d e := by
  obtain ⟨x, h1, h2⟩ := sh_some hx
  cases x <;> simp [Obj.shape] at h2
  subst h2
  obtain ⟨e', d, q1, rfl, q⟩ := hs r _ h1
  rw [hb] at q1; cases q1
  exact ⟨d, h1, q⟩

theorem storeM_arrayD (hs : StoreM U o true objs) {r n : Nat} {e : Ty} (hx : sh objs r = some (.arrayD n e none)) :
    ∃ d, objs[r]? = some (.arrayD n e (some d)) ∧ DecIsM U objs d e := by
  obtain ⟨x, h1, h2⟩ := sh_some hx
  cases x <;> simp [Obj.shape] at h2
  obtain ⟨rfl, rfl⟩ := h2
  obtain ⟨d, rfl, q⟩ := hs r _ h1
  exact ⟨d, h1, q⟩

theorem storeM_mapD (hs : StoreM U o true objs) {r : Nat} {t k e : Ty} (hb : U.base t = .map k e) (hx : sh objs r = some (.mapD t none)) :
    ∃ d, objs[r]? = some (.mapD t (some d)) ∧ DecIsM U objs d e := by
  obtain ⟨x, h1, h2⟩ := sh_some hx
  cases x <;> simp [Obj.shape] at h2
  subst h2
  obtain ⟨k', e', d, q1, rfl, q⟩ := hs r _ h1
  rw [hb] at q1; cases q1
  exact ⟨d, h1, q⟩
theorem storeM_struct' (hs : StoreM U o true objs) {r : Nat} {t : Ty} {j : Nat} (hb : U.base t = .struct j) (h : sh objs r = some (.struct t [])) :
    ∃ fs cs, objs[r]? = some (.struct t fs) ∧ Cands U o (U.fields j) 0 [] cs ∧ All2 (FieldOkM U o objs) fs (resolve [] cs) := by
  obtain ⟨fs, hx⟩ := sh_struct h
  obtain ⟨_, j', cs, h1, h2, h3⟩ := hs r _ hx
  rw [hb] at h1; cases h1
  exact ⟨fs, cs, hx, h2, h3⟩

theorem decIsM_name (hP : U.StructsPaired) {d : Dec} {t : Ty} (h : DecIsM U objs d t) : unmarshalMeth U t = decName d := by
  rcases h.1 with h1 | ⟨⟨r, rfl⟩, h1⟩
  · exact h1
  · obtain ⟨j, hb, _⟩ := h.2
    cases hm : unmarshalMeth U t with
    | none => rfl
    | some m => exact absurd h1 (hP t (structTy_iff.2 ⟨j, hb⟩) (by rw [hm]; simp))

theorem wrapUnmarshalJSON_le (h : Heap) (fuel : Nat) (n : Node) : OLe (n.wrapUnmarshalJSON h fuel) (n.wrapUnmarshalJSON h (fuel + 1)) := by
  have happ : OLe (n.appendJSON h fuel []) (n.appendJSON h (fuel + 1) []) := by
    unfold Node.appendJSON
    split
    · exact docAppend_le ..
    · exact .refl _
  unfold Node.wrapUnmarshalJSON
  rcases happ with h' | h'
  · simp only [h']
    repeat' split
    all_goals first | exact .refl _ | exact .none _
  · rw [h']; exact .refl _

/-- `WrapUnmarshalJSON` on a tree, whatever the fuel. -/
theorem wrap_json {h : Heap} {n : Node} {j : JVal} (ht : Tree h n j) {fuel : Nat} {x : Hook} (hx : n.wrapUnmarshalJSON h fuel = some x) :
    x = .called j.ser := by
  have : ∀ k, n.wrapUnmarshalJSON h (fuel + k) = some x := by
    intro k
    induction k with
    | zero => exact hx
    | succ k ih =>
      rcases wrapUnmarshalJSON_le h (fuel + k) n with h' | h'
      · rw [ih] at h'; cases h'
      · rw [ih] at h'; rw [← Nat.add_assoc]; exact h'
  have := this j.size
  rw [Props.C37_tree h n j ht _ (Nat.le_add_left _ _)] at this
  cases this; rfl

theorem wrap_text {h : Heap} {n : Node} {j : JVal} (ht : Tree h n j) :
    n.wrapUnmarshalText h = if jtyp j = tString then .called (jraw j) else .typeError (jtyp j) tString := by
  obtain ⟨vs, d, h1, h2, h3, h4⟩ := tree_shows ht
  unfold Node.wrapUnmarshalText; dsimp only at h2 h3; rw [h1, ← h3, ← h2]

/-- A method call on a node with a tree. -/
theorem decMethod_out {nm : NodeMeth} (hM : U.Unmarshals nm) {m : Meth} {fuel : Nat} {h : Heap} {n : Node} {j : JVal} (ht : Tree h n j)
    {t : Ty} {v : GV} {r : Out GV} (hm : m = .textUnmarshaler → jtyp j = tString) (hr : decMethod U m fuel h n t v = some r) :
    r = methOut U nm m t v j := by
  unfold decMethod at hr
  unfold methOut
  split at hr
  · dsimp only
    rw [← hM.tree t v h n j ht]
    split at hr <;> cases hr <;> simp_all [called]
  · rw [wrap_text ht, if_pos (hm rfl)] at hr
    dsimp only at hr ⊢
    split at hr <;> cases hr <;> simp_all [called]
  · rename_i h1 h2
    cases hq : n.wrapUnmarshalJSON h fuel with
    | none => rw [hq] at hr; cases hr
    | some x =>
      rw [hq, wrap_json ht hq] at hr
      dsimp only at hr
      cases m <;> first | exact absurd rfl h1 | exact absurd rfl h2 | (dsimp only; split at hr <;> cases hr <;> simp_all [called])

theorem decMethodRV_out {nm : NodeMeth} (hM : U.Unmarshals nm) {m : Meth} {fuel : Nat} {h : Heap} {n : Node} {j : JVal} (ht : Tree h n j)
    {t : Ty} {v : GV} {a : Bool} {r : Out GV} (hi : U.impl t m = true) (hm : m = .textUnmarshaler → jtyp j = tString)
    (hr : decMethodRV U m fuel h n ⟨t, v, a⟩ = some r) : r = callUnmarshal U nm m t v j := by
  unfold callUnmarshal
  rw [if_neg (by rintro ⟨h1, h2⟩; exact h2 (hm h1))]
  unfold decMethodRV RV.dyn at hr
  dsimp only at hr
  by_cases hb : ∃ k i, U.base t = .iface k i
  · obtain ⟨k, i, hb⟩ := hb
    rw [hb] at hr ⊢
    cases v with
    | iface t' v' =>
      dsimp only at hr ⊢
      by_cases hi' : U.impl t' m = true
      · rw [if_pos hi'] at hr ⊢
        cases hq : decMethod U m fuel h n t' v' with
        | none => rw [hq] at hr; cases hr
        | some r1 =>
          rw [hq] at hr
          rw [← decMethod_out hM ht hm hq]
          cases r1 <;> cases hr <;> rfl
      · rw [if_neg hi'] at hr ⊢
        cases hr; rfl
    | _ => cases hr; rfl
  · have hne : ∀ k i, U.base t ≠ .iface k i := fun k i h => hb ⟨k, i, h⟩
    have hr' : decMethod U m fuel h n t v = some r := by
      split at hr
      · rename_i hx
        split at hx
        · exact absurd (by assumption) (hne _ _)
        · exact absurd (by assumption) (hne _ _)
        · cases hx
      · rename_i t' v' hx
        split at hx
        · exact absurd (by assumption) (hne _ _)
        · cases hx
        · cases hx
          rw [if_pos hi] at hr
          split at hr
          · exact absurd (by assumption) (hne _ _)
          · exact hr
    rw [decMethod_out hM ht hm hr']
    split
    · exact absurd (by assumption) (hne _ _)
    · exact absurd (by assumption) (hne _ _)
    · rfl

end

theorem decode_reads {U : Univ} (hU : U.Ok) (hE : U.EmbedsStructs) {o : Options} {objs : List Obj} {nm : NodeMeth} (hM : U.Unmarshals nm) (hP : U.StructsPaired) (hs : StoreM U o true objs) {h : Heap} :
    ∀ (fuel : Nat) (d : Dec) (t : Ty) (n : Node) (j : JVal) (v : GV) (a : Bool) (r : Out GV), DecIsM U objs d t → HasTy U t v →
      Tree h n j → decode U objs h fuel d n ⟨t, v, a⟩ = some r → Reads U nm o t v j r := by
  intro fuel
  induction fuel with
  | zero => intro d t n j v a r _ _ _ hr; rw [decode] at hr; cases hr
  | succ fuel ih =>
    intro d t n j v a r hd hv ht hr
    have hname := decIsM_name hP hd
    obtain ⟨_, hd⟩ := hd
    have htyp := tree_typ ht
    have hraw := tree_raw ht
    -- the outcome of a type error
    have mism : ∀ {w}, wants (U.base t) = some w → j ≠ .null → jtyp j &&& w = 0 → typeErr h n w ⟨t, v, a⟩ = some r → ReadsPlain U nm o t v j r := by
      intro w h1 h2 h3 h4
      unfold typeErr at h4
      rw [htyp] at h4
      cases h4
      exact .mismatch h1 h2 h3
    cases d with
    | njson =>
      rw [decode] at hr
      rw [decMethodRV_out hM ht hd (by intro h; cases h) hr]
      exact .meth hname
    | json =>
      rw [decode] at hr
      rw [decMethodRV_out hM ht hd (by intro h; cases h) hr]
      exact .meth hname
    | text =>
      rw [decode] at hr
      rw [htyp] at hr
      by_cases hj : jtyp j = tString
      · rw [if_pos hj] at hr
        rw [decMethodRV_out hM ht hd (fun _ => hj) hr]
        exact .meth hname
      · rw [if_neg hj] at hr
        unfold typeErr at hr
        rw [htyp] at hr
        cases hr
        have : callUnmarshal U nm .textUnmarshaler t v j = .done v (some (.typeError (jtyp j) tString)) := by
          unfold callUnmarshal; rw [if_pos ⟨rfl, hj⟩]
        rw [← this]; exact .meth hname
    | bool =>
      refine .plain hname ?_
      simp only [DecIs] at hd
      obtain ⟨x, rfl⟩ := hv.inv_bool hd
      rw [decode] at hr
      unfold decBool at hr
      simp only at hr
      have hz : U.zero t = .bool false := by rw [zero_base hU, hd]; rfl
      cases j with
      | bool b =>
        rw [tree_bool ht, if_pos (by rfl)] at hr
        cases hr; exact .bool hd
      | null =>
        rw [tree_not_bool ht (by decide), if_neg (by decide), if_pos (by rw [htyp]; rfl)] at hr
        cases hr
        rw [← hz]; exact .null (by rw [hd]; trivial)
      | _ =>
        rw [tree_not_bool ht (by simp only [jtyp]; decide), if_neg (by decide), if_neg (by rw [htyp]; simp only [jtyp]; decide)] at hr
        exact mism (by rw [hd]; rfl) (by simp) (by simp only [jtyp]; decide) hr
    | int =>
      refine .plain hname ?_
      obtain ⟨k, hd⟩ := hd
      obtain ⟨x, rfl⟩ := hv.inv_int hd
      rw [decode] at hr
      unfold decInt at hr
      simp only [hd] at hr
      have hz : U.zero t = .int 0 := by rw [zero_base hU, hd]; rfl
      rw [htyp, hraw] at hr
      cases j with
      | num raw =>
        rw [if_pos (by rfl)] at hr
        rw [show jraw (.num raw) = raw from rfl] at hr
        by_cases hp : (NumJson.parseInt raw).2 = true
        · rw [if_pos hp] at hr
          cases hr
          exact .int hd (by unfold readInt; rw [if_pos hp])
        · rw [if_neg hp] at hr
          have hri : readInt raw = parseInt64 raw := by unfold readInt; rw [if_neg hp]
          cases hq : parseInt64 raw with
          | some i => rw [hq] at hr; cases hr; exact .int hd (hri.trans hq)
          | none => rw [hq] at hr; cases hr; exact .intErr hd (hri.trans hq)
      | null =>
        rw [if_neg (by simp only [jtyp]; decide), if_pos (by rfl)] at hr
        cases hr
        rw [← hz]; exact .null (by rw [hd]; trivial)
      | _ =>
        rw [if_neg (by simp only [jtyp]; decide), if_neg (by simp only [jtyp]; decide)] at hr
        exact mism (by rw [hd]; rfl) (by simp) (by simp only [jtyp]; decide) hr
    | uint =>
      refine .plain hname ?_
      obtain ⟨k, hd⟩ := hd
      obtain ⟨x, rfl⟩ := hv.inv_uint hd
      rw [decode] at hr
      unfold decUint at hr
      simp only [hd] at hr
      have hz : U.zero t = .uint 0 := by rw [zero_base hU, hd]; rfl
      rw [htyp, hraw] at hr
      cases j with
      | num raw =>
        rw [if_pos (by rfl)] at hr
        rw [show jraw (.num raw) = raw from rfl] at hr
        by_cases hp : (NumJson.parseUint raw).2 = true
        · rw [if_pos hp] at hr
          cases hr
          exact .uint hd (by unfold readUint; rw [if_pos hp])
        · rw [if_neg hp] at hr
          have hri : readUint raw = parseUint64 raw := by unfold readUint; rw [if_neg hp]
          cases hq : parseUint64 raw with
          | some i => rw [hq] at hr; cases hr; exact .uint hd (hri.trans hq)
          | none => rw [hq] at hr; cases hr; exact .uintErr hd (hri.trans hq)
      | null =>
        rw [if_neg (by simp only [jtyp]; decide), if_pos (by rfl)] at hr
        cases hr
        rw [← hz]; exact .null (by rw [hd]; trivial)
      | _ =>
        rw [if_neg (by simp only [jtyp]; decide), if_neg (by simp only [jtyp]; decide)] at hr
        exact mism (by rw [hd]; rfl) (by simp) (by simp only [jtyp]; decide) hr
    | float =>
      refine .plain hname ?_
      obtain ⟨k, hd⟩ := hd
      obtain ⟨x, rfl⟩ := hv.inv_float hd
      rw [decode] at hr
      unfold decFloat at hr
      simp only [hd] at hr
      have hz : U.zero t = U.zero (.float k) := by rw [zero_base hU, hd]
      rw [htyp, hraw] at hr
      cases j with
      | num raw =>
        rw [if_pos (by rfl)] at hr
        simp only [jraw] at hr
        cases hp : NumJson.parseFloat raw with
        | nan =>
          have hri : readFloat U raw = U.atof raw := by unfold readFloat; rw [hp]
          rw [hp] at hr
          simp only at hr
          cases hq : U.atof raw with
          | some f => rw [hq] at hr; cases hr; exact .float hd (hri.trans hq)
          | none => rw [hq] at hr; cases hr; exact .floatErr hd (hri.trans hq)
        | num neg m =>
          rw [hp] at hr
          cases hr
          exact .float hd (by unfold readFloat; rw [hp])
      | null =>
        rw [if_neg (by simp only [jtyp]; decide), if_pos (by rfl)] at hr
        cases hr
        rw [← hz]; exact .null (by rw [hd]; trivial)
      | _ =>
        rw [if_neg (by simp only [jtyp]; decide), if_neg (by simp only [jtyp]; decide)] at hr
        exact mism (by rw [hd]; rfl) (by simp) (by simp only [jtyp]; decide) hr
    | string =>
      refine .plain hname ?_
      simp only [DecIs] at hd
      obtain ⟨x, rfl⟩ := hv.inv_str hd
      rw [decode] at hr
      unfold decString at hr
      simp only at hr
      have hz : U.zero t = .str [] := by rw [zero_base hU, hd]; rfl
      rw [htyp, hraw] at hr
      cases j with
      | str raw => rw [if_pos (by rfl)] at hr; cases hr; exact .str hd
      | null =>
        rw [if_neg (by simp only [jtyp]; decide), if_pos (by rfl)] at hr
        cases hr
        rw [← hz]; exact .null (by rw [hd]; trivial)
      | _ =>
        rw [if_neg (by simp only [jtyp]; decide), if_neg (by simp only [jtyp]; decide)] at hr
        exact mism (by rw [hd]; rfl) (by simp) (by simp only [jtyp]; decide) hr
    | iface =>
      refine .plain hname ?_
      obtain ⟨i, hd⟩ := hd
      rw [decode] at hr
      unfold decIface at hr
      cases hq : toAny (getOf h (n.document h)) fuel n.id with
      | none => rw [hq] at hr; cases hr
      | some x =>
        have hx : x = anyOf j := by
          obtain ⟨rf, hd', hr'⟩ := ht
          rw [doc_cont] at hr'
          rw [hd'] at hq
          exact (toAny_spec _).1 j n.id hr' fuel x hq
        rw [hq] at hr
        cases x with
        | some x =>
          simp only at hr
          by_cases hta : t = .any
          · rw [if_pos hta] at hr; cases hr; subst hta; exact .any hx.symm
          · rw [if_neg hta] at hr; cases hr; exact .anyPanic hd hta hx.symm
        | none =>
          simp only at hr
          unfold typeErr at hr
          rw [htyp] at hr
          cases hr
          exact .anyErr hd hx.symm
    | ptr r0 =>
      refine .plain hname ?_
      obtain ⟨e, hb, hx⟩ := hd
      obtain ⟨d', hobj, hd'⟩ := storeM_ptrD hs hx
      rw [decode] at hr
      simp only [hobj, hb] at hr
      rw [if_pos trivial, htyp] at hr
      by_cases hn : jtyp j = tNull
      · rw [if_pos hn] at hr
        cases hr
        have : j = .null := by cases j <;> first | rfl | exact absurd hn (by simp only [jtyp]; decide)
        subst this
        have hz : U.zero t = .nilPtr := by rw [zero_base hU, hb]; rfl
        rw [← hz]; exact .null (by rw [hb]; trivial)
      · rw [if_neg hn] at hr
        rcases hv.inv_ptr hb with rfl | ⟨x, rfl, hvx⟩
        · simp only at hr
          cases hq : decode U objs h fuel d' n ⟨e, U.zero e, true⟩ with
          | none => rw [hq] at hr; cases hr
          | some r1 =>
            have hD := ih d' e n j _ true r1 hd' (hasTy_zero hU e) ht hq
            rw [hq] at hr
            have : r = r1.map .ptr := by cases r1 <;> (cases hr; rfl)
            rw [this]; exact .ptrNew hb (ne_null_of_typ hn) hD
        · simp only at hr
          cases hq : decode U objs h fuel d' n ⟨e, x, true⟩ with
          | none => rw [hq] at hr; cases hr
          | some r1 =>
            have hD := ih d' e n j _ true r1 hd' hvx ht hq
            rw [hq] at hr
            have : r = r1.map .ptr := by cases r1 <;> (cases hr; rfl)
            rw [this]; exact .ptr hb (ne_null_of_typ hn) hD
    | slice r0 =>
      refine .plain hname ?_
      obtain ⟨e, hb, hx⟩ := hd
      obtain ⟨d', hobj, hd'⟩ := storeM_sliceD hs hb hx
      rw [decode] at hr
      simp only [hobj] at hr
      rw [htyp, elem_of_base (.inr (.inl hb))] at hr
      cases j with
      | null =>
        rw [if_pos (by rfl)] at hr
        rcases hv.inv_slice hb with rfl | ⟨arr, len, rfl, _, _⟩
        · cases hr; exact .nilSliceNull hb
        · cases hr; exact .sliceNull hb
      | arr js =>
        rw [if_neg (by simp only [jtyp]; decide), if_pos (by rfl)] at hr
        have hel := tree_elems ht
        have hlen := hel.length
        have hfin : ∀ {arr0 : List GV}, (∀ x ∈ arr0, HasTy U e x) → js.length ≤ arr0.length →
            (match decSlice (fun n v => decode U objs h fuel d' n ⟨e, v, true⟩) ((kids h n).map (·.2)) 0 arr0 ((kids h n).map (·.2)).length with
              | none => none
              | some none => some .panic
              | some (some (arr, len)) => some (.done (.slice arr len) none)) = some r →
            ∃ r', ReadElems U nm o e js arr0 r' ∧ r = sliceOut r' := by
          intro arr0 ha hle hm
          cases hq : decSlice (fun n v => decode U objs h fuel d' n ⟨e, v, true⟩) ((kids h n).map (·.2)) 0 arr0 ((kids h n).map (·.2)).length with
          | none => rw [hq] at hm; cases hm
          | some r1 =>
            obtain ⟨r', g1, g2⟩ := decSlice_reads (U := U) (nm := nm) (o := o) (t := e) hel (fun n j ht x r hx hr => ih d' e n j x true r hd' hx ht hr)
              (pre := []) hle (by rw [hlen]; simp) ha hq
            rw [hq] at hm
            refine ⟨r', g1, ?_⟩
            subst g2
            cases r' <;> (cases hm; simp [sliceOut])
        have hrep : ∀ x ∈ List.replicate ((kids h n).map (·.2)).length (U.zero e), HasTy U e x := fun x hx => by
          rw [(List.mem_replicate.1 hx).2]; exact hasTy_zero hU e
        rcases hv.inv_slice hb with rfl | ⟨arr, len, rfl, h1, h2⟩
        · obtain ⟨r', g1, rfl⟩ := hfin hrep (by simp [← hlen]) hr
          rw [hlen] at g1
          exact .nilSlice hb g1
        · by_cases hc : arr.length < js.length
          · simp only at hr
            rw [if_pos (by omega)] at hr
            obtain ⟨r', g1, rfl⟩ := hfin hrep (by simp [← hlen]) hr
            rw [hlen] at g1
            exact .sliceGrow hb hc g1
          · simp only at hr
            rw [if_neg (by omega)] at hr
            obtain ⟨r', g1, rfl⟩ := hfin h2 (by omega) hr
            exact .slice hb (by omega) g1
      | _ =>
        rw [if_neg (by simp only [jtyp]; decide), if_neg (by simp only [jtyp]; decide)] at hr
        exact mism (by rw [hb]; rfl) (by simp) (by simp only [jtyp]; decide) hr
    | array r0 =>
      refine .plain hname ?_
      obtain ⟨m, e, hb, hx⟩ := hd
      obtain ⟨d', hobj, hd'⟩ := storeM_arrayD hs hx
      obtain ⟨xs, rfl, h1, h2⟩ := hv.inv_array hb
      rw [decode] at hr
      simp only [hobj] at hr
      rw [if_pos h1, htyp] at hr
      cases j with
      | null =>
        rw [if_neg (by simp only [jtyp]; decide), if_pos (by rfl)] at hr
        cases hr
        have hz : U.zero t = .array (List.replicate m (U.zero e)) := by rw [zero_base hU, hb]; rfl
        rw [← hz]; exact .null (by rw [hb]; trivial)
      | arr js =>
        rw [if_pos (by rfl)] at hr
        cases hq : decArray (fun n v => decode U objs h fuel d' n ⟨e, v, true⟩) (U.zero e) xs ((kids h n).map (·.2)) with
        | none => rw [hq] at hr; cases hr
        | some r1 =>
          have hA := decArray_reads (U := U) (nm := nm) (o := o) (t := e) (tree_elems ht) (fun n j ht x r hx hr => ih d' e n j x true r hd' hx ht hr) h2 hq
          rw [hq] at hr
          have : r = arrayOut r1 := by cases r1 <;> (cases hr; rfl)
          rw [this]; exact .array hb hA
      | _ =>
        rw [if_neg (by simp only [jtyp]; decide), if_neg (by simp only [jtyp]; decide)] at hr
        exact mism (by rw [hb]; rfl) (by simp) (by simp only [jtyp]; decide) hr
    | map r0 =>
      refine .plain hname ?_
      obtain ⟨k, e, hb, hk, hx⟩ := hd
      obtain ⟨d', hobj, hd'⟩ := storeM_mapD hs hb hx
      rw [decode] at hr
      simp only [hobj, hb] at hr
      rw [htyp, elem_of_base (.inr (.inr (.inr ⟨k, hb⟩)))] at hr
      cases j with
      | null => rw [if_pos (by rfl)] at hr; cases hr; exact .mapNull hb
      | obj ms =>
        rw [if_neg (by simp only [jtyp]; decide), if_pos (by rfl)] at hr
        refine .map hb (decMap_reads hU (tree_members ht) (fun n j ht x r hx hr => ih d' e n j x true r hd' hx ht hr) ?_ hr)
        rcases hv.inv_map hb with h | ⟨es, h, _⟩
        · exact .inl h
        · exact .inr ⟨es, h⟩
      | _ =>
        rw [if_neg (by simp only [jtyp]; decide), if_neg (by simp only [jtyp]; decide)] at hr
        exact mism (by rw [hb]; rfl) (by simp) (by simp only [jtyp]; decide) hr
    | struct r0 =>
      refine .plain hname ?_
      obtain ⟨i, hb, hx⟩ := hd
      obtain ⟨fs, cs, hobj, hc, hall⟩ := storeM_struct' hs hb hx
      rw [decode] at hr
      simp only [hobj] at hr
      rw [htyp] at hr
      cases j with
      | null => rw [if_pos (by rfl)] at hr; cases hr; exact .null (by rw [hb]; trivial)
      | obj ms =>
        rw [if_neg (by simp only [jtyp]; decide), if_pos (by rfl)] at hr
        have hpath := cands_path0 hE hb hc
        refine .struct hb hc (decFields_reads hM hU hE (tree_members ht) hall hpath ?_ ?_ hv hr)
        · intro c hcm
          rcases resolve_mem hcm with h | h
          · exact absurd h (by simp)
          · exact cands_index_ne hc c h
        · intro d c hcm hd n j ht x a r hx hr
          exact ih d c.typ n j x a r hd hx ht hr
      | _ =>
        rw [if_neg (by simp only [jtyp]; decide), if_neg (by simp only [jtyp]; decide)] at hr
        exact mism (by rw [hb]; rfl) (by simp) (by simp only [jtyp]; decide) hr

theorem reads_unique {U : Univ} {nm : NodeMeth} {o : Options} {t : Ty} {v : GV} {j : JVal} {r : Out GV} (h : Reads U nm o t v j r) :
    ∀ r', Reads U nm o t v j r' → r = r' := by
  refine Reads.rec
    (motive_1 := fun t v j r _ => ∀ r', Reads U nm o t v j r' → r = r')
    (motive_2 := fun t v j r _ => ∀ r', ReadsPlain U nm o t v j r' → r = r')
    (motive_3 := fun t js arr r _ => ∀ r', ReadElems U nm o t js arr r' → r = r')
    (motive_4 := fun t js xs r _ => ∀ r', ReadArr U nm o t js xs r' → r = r')
    (motive_5 := fun k t ms m r _ => ∀ r', ReadEntries U nm o k t ms m r' → r = r')
    (motive_6 := fun cs ms v r _ => ∀ r', ReadMembers U nm o cs ms v r' → r = r')
    ?meth ?plain ?null ?mismatch ?bool ?int ?intErr ?uint ?uintErr ?float ?floatErr ?str ?ptr ?ptrNew ?sliceNull ?nilSliceNull ?slice ?sliceGrow
    ?nilSlice ?array ?mapNull ?map ?struct ?any ?anyErr ?anyPanic ?enil ?estop ?epanic ?econs ?afull ?arest ?apanic ?acons
    ?mnil ?mfail ?mpanic ?mnilMap ?mbadKey ?mcons ?snil ?sunknown ?sfail ?spanic ?scons ?slostFail ?slostPanic ?slost h
  case meth =>
    intro t v j m hm r' h'
    cases h' with
    | meth h => rw [hm] at h; cases h; rfl
    | plain h => rw [hm] at h; cases h
  case plain =>
    intro t v j r hm _ ih r' h'
    cases h' with
    | meth h => rw [hm] at h; cases h
    | plain _ h => exact ih _ h
  case null =>
    intro t v hz r' h'
    cases h' with
    | null => rfl
    | mismatch h1 h2 => exact absurd rfl h2
    | ptr h1 h2 => exact absurd rfl h2
    | ptrNew h1 h2 => exact absurd rfl h2
    | any h => simp [NullZero, base_any] at hz
    | anyErr h | anyPanic h => simp [NullZero, h] at hz
    | sliceNull h | nilSliceNull h | mapNull h => simp [NullZero, h] at hz
  case mismatch =>
    intro t v j w h1 h2 h3 r' h'
    have hm := no_mismatch h1 h3
    cases h' with
    | mismatch g1 g2 g3 => rw [h1] at g1; cases g1; rfl
    | null => exact absurd rfl h2
    | any => exact absurd (base_any U) (hm.2.2.2.2.2.2.2.2.2.2 _ _)
    | _ => clash
  case bool => intro t x b hb r' h'; cases h' <;> first | rfl | (rename_i h1 h2 h3; clashM h1) | clash
  case int => intro t k x raw i hb hi r' h'; cases h' <;> first | (simp_all; done) | (rename_i h1 h2 h3; clashM h1) | clash
  case intErr => intro t k x raw hb hi r' h'; cases h' <;> first | (simp_all; done) | (rename_i h1 h2 h3; clashM h1) | clash
  case uint => intro t k x raw i hb hi r' h'; cases h' <;> first | (simp_all; done) | (rename_i h1 h2 h3; clashM h1) | clash
  case uintErr => intro t k x raw hb hi r' h'; cases h' <;> first | (simp_all; done) | (rename_i h1 h2 h3; clashM h1) | clash
  case float => intro t k x raw i hb hi r' h'; cases h' <;> first | (simp_all; done) | (rename_i h1 h2 h3; clashM h1) | clash
  case floatErr => intro t k x raw hb hi r' h'; cases h' <;> first | (simp_all; done) | (rename_i h1 h2 h3; clashM h1) | clash
  case str => intro t x raw hb r' h'; cases h' <;> first | rfl | (rename_i h1 h2 h3; clashM h1) | clash
  case ptr =>
    intro t e v j r hb hn _ ih r' h'
    cases h' with
    | ptr h1 h2 h3 => rw [hb] at h1; cases h1; rw [ih _ h3]
    | mismatch h1 h2 h3 => clashM h1
    | map h | struct h | mapNull h | anyPanic h | anyErr h => rw [hb] at h; cases h
    | null => exact absurd rfl hn
    | any => rw [base_any] at hb; cases hb
  case ptrNew =>
    intro t e j r hb hn _ ih r' h'
    cases h' with
    | ptrNew h1 h2 h3 => rw [hb] at h1; cases h1; rw [ih _ h3]
    | mismatch h1 h2 h3 => clashM h1
    | map h | struct h | mapNull h | anyPanic h | anyErr h => rw [hb] at h; cases h
    | null => exact absurd rfl hn
    | any => rw [base_any] at hb; cases hb
  case sliceNull => intro t e arr len hb r' h'; cases h' <;> first | rfl | (rename_i h1 h2 h3; clashM h1) | clash
  case nilSliceNull => intro t e hb r' h'; cases h' <;> first | rfl | (rename_i h1 h2 h3; clashM h1) | clash
  case slice =>
    intro t e arr len js r hb hl _ ih r' h'
    cases h' with
    | slice h1 h2 h3 => rw [hb] at h1; cases h1; rw [ih _ h3]
    | sliceGrow h1 h2 h3 => omega
    | mismatch h1 h2 h3 => clashM h1
    | any => rw [base_any] at hb; cases hb
    | anyPanic h | anyErr h => rw [hb] at h; cases h
  case sliceGrow =>
    intro t e arr len js r hb hl _ ih r' h'
    cases h' with
    | sliceGrow h1 h2 h3 => rw [hb] at h1; cases h1; rw [ih _ h3]
    | slice h1 h2 h3 => omega
    | mismatch h1 h2 h3 => clashM h1
    | any => rw [base_any] at hb; cases hb
    | anyPanic h | anyErr h => rw [hb] at h; cases h
  case nilSlice =>
    intro t e js r hb _ ih r' h'
    cases h' with
    | nilSlice h1 h3 => rw [hb] at h1; cases h1; rw [ih _ h3]
    | mismatch h1 h2 h3 => clashM h1
    | any => rw [base_any] at hb; cases hb
    | anyPanic h | anyErr h => rw [hb] at h; cases h
  case array =>
    intro t n e xs js r hb _ ih r' h'
    cases h' with
    | array h1 h3 => rw [hb] at h1; cases h1; rw [ih _ h3]
    | mismatch h1 h2 h3 => clashM h1
    | any => rw [base_any] at hb; cases hb
    | anyPanic h | anyErr h => rw [hb] at h; cases h
  case mapNull =>
    intro t k e v hb r' h'
    cases h' with
    | mapNull => rfl
    | mismatch h1 h2 h3 => exact absurd rfl h2
    | any => rw [base_any] at hb; cases hb
    | anyPanic h | anyErr h | sliceNull h | nilSliceNull h => first | rfl | (rw [hb] at h; cases h)
    | null h => simp [hb, NullZero] at h
    | ptr h | ptrNew h => rw [hb] at h; cases h
  case map =>
    intro t k e v ms r hb _ ih r' h'
    cases h' with
    | map h1 h3 => rw [hb] at h1; cases h1; exact ih _ h3
    | mismatch h1 h2 h3 => clashM h1
    | any => rw [base_any] at hb; cases hb
    | anyPanic h | anyErr h | struct h => rw [hb] at h; cases h
    | ptr h | ptrNew h => rw [hb] at h; cases h
  case struct =>
    intro t i cs v ms r hb hc _ ih r' h'
    cases h' with
    | struct h1 h2 h3 => rw [hb] at h1; cases h1; rw [cands_unique h2 hc] at h3; exact ih _ h3
    | mismatch h1 h2 h3 => clashM h1
    | any => rw [base_any] at hb; cases hb
    | anyPanic h | anyErr h | map h => rw [hb] at h; cases h
    | ptr h | ptrNew h => rw [hb] at h; cases h
  case any =>
    intro v j x hx r' h'
    cases h' with
    | any h => rw [hx] at h; cases h; rfl
    | anyErr _ h => rw [hx] at h; cases h
    | anyPanic _ h => exact absurd rfl h
    | mismatch h => cases h
    | null h => cases h
    | _ => simp_all [base_any]
  case anyErr =>
    intro t i v j hb hx r' h'
    cases h' with
    | any h => rw [hx] at h; cases h
    | anyErr _ h => rfl
    | anyPanic _ _ h => rw [hx] at h; cases h
    | mismatch h1 h2 h3 => clashM h1
    | null h => simp [hb, NullZero] at h
    | _ => simp_all
  case anyPanic =>
    intro t i v j x hb hn hx r' h'
    cases h' with
    | any h => exact absurd rfl hn
    | anyErr _ h => rw [hx] at h; cases h
    | anyPanic => rfl
    | mismatch h1 h2 h3 => clashM h1
    | null h => simp [hb, NullZero] at h
    | _ => simp_all
  case enil => intro t arr r' h'; cases h'; rfl
  case estop =>
    intro t j js x arr y e _ ih r' h'
    cases h' with
    | stop h => have := ih _ h; cases this; rfl
    | panic h => have := ih _ h; cases this
    | cons h => have := ih _ h; cases this
  case epanic =>
    intro t j js x arr _ ih r' h'
    cases h' with
    | stop h => have := ih _ h; cases this
    | panic h => rfl
    | cons h => have := ih _ h; cases this
  case econs =>
    intro t j js x arr y r _ _ ih ih2 r' h'
    cases h' with
    | stop h => have := ih _ h; cases this
    | panic h => have := ih _ h; cases this
    | cons h h2 => have := ih _ h; cases this; rw [ih2 _ h2]
  case afull => intro t js r' h'; cases h'; rfl
  case arest => intro t x xs r' h'; cases h'; rfl
  case apanic =>
    intro t j js x arr _ ih r' h'
    cases h' with
    | panic h => rfl
    | cons h => have := ih _ h; cases this
  case acons =>
    intro t j js x arr y e r _ _ ih ih2 r' h'
    cases h' with
    | panic h => have := ih _ h; cases this
    | cons h h2 => have := ih _ h; cases this; rw [ih2 _ h2]
  case mnil => intro k t m r' h'; cases h'; rfl
  case mfail =>
    intro k t key j ms m y e _ ih r' h'
    cases h' with
    | fail h => have := ih _ h; cases this; rfl
    | panic h | nilMap h | badKey _ h | cons h => have := ih _ h; cases this
  case mpanic =>
    intro k t key j ms m _ ih r' h'
    cases h' with
    | fail h => have := ih _ h; cases this
    | panic h | nilMap h | badKey _ h => rfl
    | cons h => have := ih _ h; cases this
  case mnilMap =>
    intro k t key j ms y _ ih r' h'
    cases h' with
    | fail h => have := ih _ h; cases this
    | panic h | nilMap h | badKey _ h => rfl
  case mbadKey =>
    intro k t key j ms m y hk _ ih r' h'
    cases h' with
    | fail h => have := ih _ h; cases this
    | panic h | nilMap h | badKey _ h => rfl
    | cons h => exact absurd rfl hk
  case mcons =>
    intro t key j ms es y r _ _ ih ih2 r' h'
    cases h' with
    | fail h => have := ih _ h; cases this
    | panic h => have := ih _ h; cases this
    | badKey hk h => exact absurd rfl hk
    | cons h h2 => have := ih _ h; cases this; exact ih2 _ h2
  case snil => intro cs v r' h'; cases h'; rfl
  case sunknown =>
    intro cs key j ms v r hf _ ih r' h'
    cases h' with
    | unknown _ h => exact ih _ h
    | fail h | panic h | cons h | lostFail h | lostPanic h | lost h => rw [hf] at h; cases h
  case sfail =>
    intro cs key j ms v c x y e hf hx _ ih r' h'
    cases h' with
    | unknown h => rw [hf] at h; cases h
    | fail h g d | panic h g d | cons h g d =>
      rw [hf] at h; cases h; rw [hx] at g; cases g
      have := ih _ d; cases this <;> rfl
    | lostFail h g | lostPanic h g | lost h g => rw [hf] at h; cases h; rw [hx] at g; cases g
  case spanic =>
    intro cs key j ms v c x hf hx _ ih r' h'
    cases h' with
    | unknown h => rw [hf] at h; cases h
    | fail h g d | panic h g d | cons h g d =>
      first | rfl | (rw [hf] at h; cases h; rw [hx] at g; cases g; have := ih _ d; cases this)
    | lostFail h g | lostPanic h g | lost h g => first | rfl | (rw [hf] at h; cases h; rw [hx] at g; cases g)
  case scons =>
    intro cs key j ms v c x y r hf hx _ _ ih ih2 r' h'
    cases h' with
    | unknown h => rw [hf] at h; cases h
    | fail h g d | panic h g d =>
      rw [hf] at h; cases h; rw [hx] at g; cases g
      have := ih _ d; cases this
    | cons h g d d2 =>
      rw [hf] at h; cases h; rw [hx] at g; cases g
      have := ih _ d; cases this
      exact ih2 _ d2
    | lostFail h g | lostPanic h g | lost h g => rw [hf] at h; cases h; rw [hx] at g; cases g
  case slostFail =>
    intro cs key j ms v c y e hf hx _ ih r' h'
    cases h' with
    | unknown h => rw [hf] at h; cases h
    | lostFail h g d | lostPanic h g d | lost h g d =>
      rw [hf] at h; cases h
      have := ih _ d; cases this <;> rfl
    | fail h g | panic h g | cons h g => rw [hf] at h; cases h; rw [hx] at g; cases g
  case slostPanic =>
    intro cs key j ms v c hf hx _ ih r' h'
    cases h' with
    | unknown h => rw [hf] at h; cases h
    | lostFail h g d | lostPanic h g d | lost h g d =>
      first | rfl | (rw [hf] at h; cases h; have := ih _ d; cases this)
    | fail h g | panic h g | cons h g => first | rfl | (rw [hf] at h; cases h; rw [hx] at g; cases g)
  case slost =>
    intro cs key j ms v c y r hf hx _ _ ih ih2 r' h'
    cases h' with
    | unknown h => rw [hf] at h; cases h
    | lostFail h g d | lostPanic h g d =>
      rw [hf] at h; cases h
      have := ih _ d; cases this
    | lost h g d d2 =>
      rw [hf] at h; cases h
      have := ih _ d; cases this
      exact ih2 _ d2
    | fail h g | panic h g | cons h g => rw [hf] at h; cases h; rw [hx] at g; cases g

end Verif.Unjson
