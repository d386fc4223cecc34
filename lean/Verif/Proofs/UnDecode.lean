import Verif.Proofs.UnTyped
import Verif.Props.Parse

/-! # Decoding follows the specification -/

namespace Verif.Unjson
open Verif Verif.Float Verif.Spec Verif.Njson

theorem setEntry_eq (key : Bytes) (val : GV) : ∀ es, setEntry key val es = setKey key val es
  | [] => rfl
  | (k, x) :: es => by
    cases k <;> simp only [setEntry, setKey] <;> rw [setEntry_eq key val es]

/-! ## Trees -/

theorem toAny_spec (get : Nat → Option NodeD) :
    (∀ j : JVal, ∀ id, Reps (contOf get) j id → ∀ fuel r, toAny get fuel id = some r → r = anyOf j) ∧
    (∀ js, ∀ vs, RepsElems (contOf get) js vs → ∀ fuel acc r, toAnySlice (toAny get fuel) vs acc = some r →
      r = (anyElems js).map fun gs => .iface (.slice .any) (.slice (acc ++ gs) (acc ++ gs).length)) ∧
    (∀ ms, ∀ vs, RepsMembers (contOf get) ms vs → ∀ fuel es r, toAnyMap (toAny get fuel) vs es = some r →
      r = (anyMembers ms es).map fun es => .iface (.map .string .any) (.map es)) := by
  have step : ∀ {id : Nat} {c : Cont}, contOf get id = some c → ∀ {fuel r}, toAny get fuel id = some r → ∃ f, fuel = f + 1 ∧ ∃ n, get id = some n ∧
      n.typ = c.typ ∧ n.raw = c.raw ∧ n.values.vis = c.vals := by
    intro id c h fuel r hf
    cases fuel with
    | zero => rw [toAny] at hf; cases hf
    | succ f =>
      obtain ⟨n, h1, h2⟩ := contOf_some h
      exact ⟨f, rfl, n, h1, h2⟩
  apply jval_ind
  · intro id h fuel r hf
    obtain ⟨f, rfl, n, hn, e1, e2, e3⟩ := step h hf
    rw [toAny, hn] at hf
    simp only at hf
    rw [e1, if_neg (by decide), if_neg (by decide), if_neg (by decide), if_neg (by decide), if_pos rfl] at hf
    cases hf; rfl
  · intro b id h fuel r hf
    cases b
    · obtain ⟨f, rfl, n, hn, e1, e2, e3⟩ := step h hf
      rw [toAny, hn] at hf
      simp only at hf
      rw [e1, e2, if_neg (by decide), if_neg (by decide), if_neg (by decide), if_pos rfl, if_neg (by decide), if_pos (by decide)] at hf
      cases hf; rfl
    · obtain ⟨f, rfl, n, hn, e1, e2, e3⟩ := step h hf
      rw [toAny, hn] at hf
      simp only at hf
      rw [e1, e2, if_neg (by decide), if_neg (by decide), if_neg (by decide), if_pos rfl, if_pos (by decide)] at hf
      cases hf; rfl
  · intro raw id h fuel r hf
    obtain ⟨f, rfl, n, hn, e1, e2, e3⟩ := step h hf
    simp only at e1 e2 e3
    rw [toAny, hn] at hf
    simp only at hf
    rw [e1, e2, if_neg (by decide), if_neg (by decide), if_neg (by decide), if_neg (by decide), if_neg (by decide), if_pos rfl] at hf
    simp only [anyOf]
    cases hp : NumJson.parseFloat raw with
    | nan => rw [hp] at hf; cases hf; rfl
    | num a b => rw [hp] at hf; cases hf; rfl
  · intro raw id h fuel r hf
    obtain ⟨f, rfl, n, hn, e1, e2, e3⟩ := step h hf
    simp only at e1 e2 e3
    rw [toAny, hn] at hf
    simp only at hf
    rw [e1, e2, if_neg (by decide), if_neg (by decide), if_pos rfl] at hf
    cases hf; rfl
  · intro xs ih id h fuel r hf
    obtain ⟨vs, h, hr⟩ := h
    obtain ⟨f, rfl, n, hn, e1, e2, e3⟩ := step h hf
    simp only at e1 e2 e3
    rw [toAny, hn] at hf
    simp only at hf
    rw [e1, e3, if_neg (by decide), if_pos rfl] at hf
    rw [ih vs hr f [] r hf, anyOf]; simp
  · intro ms ih id h fuel r hf
    obtain ⟨vs, h, hr⟩ := h
    obtain ⟨f, rfl, n, hn, e1, e2, e3⟩ := step h hf
    simp only at e1 e2 e3
    rw [toAny, hn] at hf
    simp only at hf
    rw [e1, e3, if_pos rfl] at hf
    rw [ih vs hr f [] r hf, anyOf]
  · intro vs h fuel acc r hf
    simp only [RepsElems] at h; subst h
    simp only [toAnySlice, Option.some.injEq] at hf
    subst hf
    simp [anyElems]
  · intro x xs ih1 ih2 vs h fuel acc r hf
    obtain ⟨id, vs', rfl, h1, h2⟩ := h
    rw [toAnySlice] at hf
    simp only at hf
    cases hg : toAny get fuel id with
    | none => rw [hg] at hf; cases hf
    | some g =>
      have := ih1 id h1 fuel g hg
      rw [hg] at hf
      cases g with
      | none => cases hf; simp [anyElems, ← this]
      | some g =>
        simp only at hf
        have h3 := ih2 vs' h2 fuel _ r hf
        rw [h3, anyElems, ← this]
        cases anyElems xs <;> simp
  · intro vs h fuel es r hf
    simp only [RepsMembers] at h; subst h
    simp only [toAnyMap, Option.some.injEq] at hf
    subst hf
    simp [anyMembers]
  · intro k x ms ih1 ih2 vs h fuel es r hf
    obtain ⟨id, vs', rfl, h1, h2⟩ := h
    rw [toAnyMap] at hf
    simp only at hf
    cases hg : toAny get fuel id with
    | none => rw [hg] at hf; cases hf
    | some g =>
      have := ih1 id h1 fuel g hg
      rw [hg] at hf
      cases g with
      | none => cases hf; simp [anyMembers, ← this]
      | some g =>
        simp only at hf
        rw [ih2 vs' h2 fuel _ r hf, anyMembers, ← this, setEntry_eq]

/-- What a node with a tree shows. -/
def Shows (h : Heap) (n : Node) (c : Cont) : Prop := ∃ d, n.get h = some d ∧ d.typ = c.typ ∧ d.raw = c.raw ∧ d.values.vis = c.vals

theorem shows_of {h : Heap} {n : Node} {r : Ref} {c : Cont} (hd : n.document h = some r) (hc : (h r).cont n.id = some c) : Shows h n c := by
  rw [doc_cont] at hc
  obtain ⟨d, h1, h2⟩ := contOf_some hc
  refine ⟨d, ?_, h2⟩
  unfold Node.get; rw [hd]; exact h1

theorem Shows.typ {h : Heap} {n : Node} {c : Cont} (hs : Shows h n c) : n.typ h = c.typ := by
  obtain ⟨d, h1, h2, _⟩ := hs
  unfold Node.typ; rw [h1]; exact h2
theorem Shows.data {h : Heap} {n : Node} {c : Cont} (hs : Shows h n c) : n.data h = (c.raw, c.typ) := by
  obtain ⟨d, h1, h2, h3, _⟩ := hs
  unfold Node.data; rw [h1, ← h2, ← h3]
theorem Shows.toBool {h : Heap} {n : Node} {c : Cont} (hs : Shows h n c) :
    n.toBool h = if c.typ = tBoolean then (if c.raw = strTrue then (true, true) else if c.raw = strFalse then (false, true) else (false, false)) else (false, false) := by
  obtain ⟨d, h1, h2, h3, _⟩ := hs
  unfold Node.toBool; rw [h1, ← h2, ← h3]
theorem Shows.kids {h : Heap} {n : Node} {c : Cont} (hs : Shows h n c) : kids h n = c.vals.map fun v => (v.key, n.with_ v.id) := by
  obtain ⟨d, h1, h2, h3, h4⟩ := hs
  unfold Unjson.kids Node.iter; rw [h1, ← h4]

theorem tree_shows {h : Heap} {n : Node} {j : JVal} (ht : Tree h n j) : ∃ vs, Shows h n ⟨jtyp j, jraw j, vs⟩ := by
  obtain ⟨r, hd, hr⟩ := ht
  cases j with
  | null => exact ⟨_, shows_of hd hr⟩
  | bool b => cases b <;> exact ⟨_, shows_of hd hr⟩
  | num raw => exact ⟨_, shows_of hd hr⟩
  | str raw => exact ⟨_, shows_of hd hr⟩
  | arr xs => obtain ⟨vs, hr, _⟩ := hr; exact ⟨_, shows_of hd hr⟩
  | obj xs => obtain ⟨vs, hr, _⟩ := hr; exact ⟨_, shows_of hd hr⟩

theorem tree_typ {h : Heap} {n : Node} {j : JVal} (ht : Tree h n j) : n.typ h = jtyp j := by
  obtain ⟨vs, hs⟩ := tree_shows ht; exact hs.typ
theorem tree_raw {h : Heap} {n : Node} {j : JVal} (ht : Tree h n j) : (n.data h).1 = jraw j := by
  obtain ⟨vs, hs⟩ := tree_shows ht; rw [hs.data]
theorem tree_bool {h : Heap} {n : Node} {b : Bool} (ht : Tree h n (.bool b)) : n.toBool h = (b, true) := by
  obtain ⟨vs, hs⟩ := tree_shows ht
  rw [hs.toBool]
  cases b
  · rw [if_pos (by rfl), if_neg (by simp only [jraw]; decide), if_pos (by rfl)]
  · rw [if_pos (by rfl), if_pos (by rfl)]
theorem tree_not_bool {h : Heap} {n : Node} {j : JVal} (ht : Tree h n j) (hj : jtyp j ≠ tBoolean) : (n.toBool h).2 = false := by
  obtain ⟨vs, hs⟩ := tree_shows ht
  rw [hs.toBool, if_neg hj]

theorem tree_with {h : Heap} {n : Node} {r : Ref} (hd : n.document h = some r) {j : JVal} {id : Nat} (hr : Reps (h r).cont j id) :
    Tree h (n.with_ id) j := ⟨r, hd, hr⟩

theorem tree_elems {h : Heap} {n : Node} {js : List JVal} (ht : Tree h n (.arr js)) : All2 (Tree h) ((kids h n).map (·.2)) js := by
  obtain ⟨r, hd, vs, hr, he⟩ := ht
  rw [(shows_of hd hr).kids]
  simp only [List.map_map]
  clear hr
  induction js generalizing vs with
  | nil => simp only [RepsElems] at he; subst he; exact .nil
  | cons j js ih =>
    obtain ⟨id, vs', rfl, h1, h2⟩ := he
    exact .cons (tree_with hd h1) (ih vs' h2)

theorem tree_members {h : Heap} {n : Node} {ms : List (Bytes × JVal)} (ht : Tree h n (.obj ms)) :
    All2 (fun (p : Bytes × Node) (m : Bytes × JVal) => p.1 = m.1 ∧ Tree h p.2 m.2) (kids h n) ms := by
  obtain ⟨r, hd, vs, hr, he⟩ := ht
  rw [(shows_of hd hr).kids]
  clear hr
  simp only
  induction ms generalizing vs with
  | nil => simp only [RepsMembers] at he; subst he; exact .nil
  | cons m ms ih =>
    obtain ⟨id, vs', rfl, h1, h2⟩ := he
    exact .cons ⟨rfl, tree_with hd h1⟩ (ih vs' h2)

theorem All2.length {α β : Type} {R : α → β → Prop} {l : List α} {m : List β} (h : All2 R l m) : l.length = m.length := by
  induction h with
  | nil => rfl
  | cons _ _ ih => simp [ih]

/-! ## Fields -/

theorem decodeAt_spec {U : Univ} (hU : U.Ok) {t t' : Ty} {is : List Int} (hp : PathTy U t is t') {f : RV → Option (Out GV)} :
    ∀ {v : GV} {a : Bool} {r : Out GV}, HasTy U t v → decodeAt U f is ⟨t, v, a⟩ = some r →
    (∃ x a' r', sub v is = some x ∧ f ⟨t', x, a'⟩ = some r' ∧ r = r'.map fun y => put y v is) ∨
    (∃ a' r', sub v is = none ∧ f ⟨t', U.zero t', a'⟩ = some r' ∧ r = r'.map fun _ => v) := by
  induction hp with
  | nil =>
    intro v a r hv hr
    rw [decodeAt] at hr
    refine .inl ⟨v, a, r, by rw [sub], hr, ?_⟩
    cases r <;> simp [Out.map, put]
  | @field t j i fl is t' h1 h2 h3 hp ih =>
    intro v a r hv hr
    obtain ⟨fs, rfl, q1, q2⟩ := hv.inv_struct h1
    have hi : i < fs.length := by rw [q1]; exact (List.getElem?_eq_some_iff.1 h2).1
    obtain ⟨x, hx⟩ : ∃ x, fs[i]? = some x := ⟨fs[i], List.getElem?_eq_getElem hi⟩
    rw [decodeAt, if_neg (by omega)] at hr
    have e1 : RV.field U ⟨t, .struct fs, a⟩ (i : Int).toNat = some ⟨fl.typ, x, a⟩ := by
      unfold RV.field; simp [h1, h2, hx]
    rw [e1] at hr
    simp only at hr
    cases hd : decodeAt U f is ⟨fl.typ, x, a⟩ with
    | none => rw [hd] at hr; cases hr
    | some r1 =>
      rw [hd] at hr
      rcases ih (q2 i fl x h2 hx) hd with ⟨y, a', r', g1, g2, g3⟩ | ⟨a', r', g1, g2, g3⟩
      · refine .inl ⟨y, a', r', by rw [sub_field hx, g1], g2, ?_⟩
        subst g3
        cases r' with
        | panic => cases hr; rfl
        | done z e => cases hr; simp only [Out.map, put_field hx, Int.toNat_natCast]
      · refine .inr ⟨a', r', by rw [sub_field hx, g1], g2, ?_⟩
        subst g3
        cases r' with
        | panic => cases hr; rfl
        | done z e =>
          cases hr
          simp only [Out.map, Int.toNat_natCast]
          congr 2
          apply List.ext_getElem?
          intro m
          rw [List.getElem?_set]
          split
          · rename_i he; subst he; simp [hi, ← hx]
          · rfl
  | @deref t e is t' h1 hp ih =>
    intro v a r hv hr
    rcases hv.inv_ptr h1 with rfl | ⟨x, rfl, hx⟩
    · rw [decodeAt, if_pos rfl] at hr
      simp only [h1] at hr
      cases hd : decodeAt U f is ⟨e, U.zero e, true⟩ with
      | none => rw [hd] at hr; cases hr
      | some r1 =>
        rw [hd] at hr
        refine .inr ?_
        rcases ih (hasTy_zero hU e) hd with ⟨y, a', r', g1, g2, g3⟩ | ⟨a', r', g1, g2, g3⟩
        · rw [sub_zero hU hp g1] at g2
          refine ⟨a', r', by simp [sub], g2, ?_⟩
          subst g3
          cases r' <;> (cases hr; rfl)
        · refine ⟨a', r', by simp [sub], g2, ?_⟩
          subst g3
          cases r' <;> (cases hr; rfl)
    · rw [decodeAt, if_pos rfl] at hr
      simp only [h1] at hr
      cases hd : decodeAt U f is ⟨e, x, true⟩ with
      | none => rw [hd] at hr; cases hr
      | some r1 =>
        rw [hd] at hr
        rcases ih hx hd with ⟨y, a', r', g1, g2, g3⟩ | ⟨a', r', g1, g2, g3⟩
        · refine .inl ⟨y, a', r', by rw [sub, if_pos rfl, g1], g2, ?_⟩
          subst g3
          cases r' <;> (cases hr; simp [Out.map, put])
        · refine .inr ⟨a', r', by rw [sub, if_pos rfl, g1], g2, ?_⟩
          subst g3
          cases r' <;> (cases hr; rfl)

/-! ## Elements -/

section
variable {U : Univ} {o : Options}

theorem decSlice_spec {t : Ty} {rec : Node → GV → Option (Out GV)} {h : Heap} {ns : List Node} {js : List JVal} (ht : All2 (Tree h) ns js)
    (hrec : ∀ n j, Tree h n j → ∀ x r, HasTy U t x → rec n x = some r → Decodes U o t x j r) :
    ∀ {pre arr : List GV} {len : Nat} {r : Option (List GV × Nat)}, js.length ≤ arr.length → len = pre.length + js.length → (∀ x ∈ arr, HasTy U t x) →
      decSlice rec ns pre.length (pre ++ arr) len = some r →
      ∃ r', DecElems U o t js arr r' ∧ r = r'.map fun p => (pre ++ p.1, pre.length + p.2) := by
  induction ht with
  | nil =>
    intro pre arr len r _ hl _ hr
    rw [decSlice] at hr; cases hr
    exact ⟨_, .nil, by simp [hl]⟩
  | @cons n j ns js hn _ ih =>
    intro pre arr len r hle hl ha hr
    cases arr with
    | nil => simp at hle
    | cons x arr =>
      rw [decSlice] at hr
      have e1 : (pre ++ x :: arr)[pre.length]? = some x := by simp
      rw [e1] at hr
      simp only at hr
      cases hd : rec n x with
      | none => rw [hd] at hr; cases hr
      | some r1 =>
        have hD := hrec n j hn x r1 (ha x List.mem_cons_self) hd
        rw [hd] at hr
        rcases r1 with ⟨y, _ | e⟩ | _
        · simp only at hr
          have e2 : (pre ++ x :: arr).set pre.length y = (pre ++ [y]) ++ arr := by simp
          have e3 : pre.length + 1 = (pre ++ [y]).length := by simp
          rw [e2, e3] at hr
          obtain ⟨r', g1, g2⟩ := ih (pre := pre ++ [y]) (arr := arr) (len := len) (r := r) (by simpa using hle)
            (by simp at hl ⊢; omega) (fun z hz => ha z (List.mem_cons_of_mem _ hz)) hr
          refine ⟨_, .cons hD g1, ?_⟩
          rw [g2]
          cases r' with
          | none => rfl
          | some p => simp; omega
        · cases hr
          exact ⟨_, .stop hD, by simp⟩
        · cases hr
          exact ⟨_, .panic hD, rfl⟩

theorem decArray_spec {t : Ty} {rec : Node → GV → Option (Out GV)} {h : Heap} {ns : List Node} {js : List JVal} (ht : All2 (Tree h) ns js)
    (hrec : ∀ n j, Tree h n j → ∀ x r, HasTy U t x → rec n x = some r → Decodes U o t x j r) :
    ∀ {xs : List GV} {r : Option (List GV)}, (∀ x ∈ xs, HasTy U t x) → decArray rec (U.zero t) xs ns = some r → DecArr U o t js xs r := by
  induction ht with
  | nil =>
    intro xs r ha hr
    cases xs with
    | nil => rw [decArray] at hr; cases hr; exact .full
    | cons x xs =>
      rw [decArray] at hr; cases hr
      have : U.zero t :: xs.map (fun _ => U.zero t) = List.replicate (xs.length + 1) (U.zero t) := by
        rw [List.replicate_succ, List.map_const']
      rw [this]; exact .rest
  | @cons n j ns js hn _ ih =>
    intro xs r ha hr
    cases xs with
    | nil => rw [decArray] at hr; cases hr; exact .full
    | cons x xs =>
      rw [decArray] at hr
      cases hd : rec n x with
      | none => rw [hd] at hr; cases hr
      | some r1 =>
        have hD := hrec n j hn x r1 (ha x List.mem_cons_self) hd
        rw [hd] at hr
        cases r1 with
        | panic => cases hr; exact .panic hD
        | done y e =>
          simp only at hr
          cases hq : decArray rec (U.zero t) xs ns with
          | none => rw [hq] at hr; cases hr
          | some r2 =>
            have hA := ih (fun z hz => ha z (List.mem_cons_of_mem _ hz)) hq
            rw [hq] at hr
            cases r2 with
            | none => cases hr; exact .cons hD hA
            | some ys => cases hr; exact .cons hD hA

theorem andThen_out {α β : Type} {x : Option (Out α)} {fail : α → β} {f : α → Option (Out β)} {r : Out β} (h : andThen x fail f = some r) :
    (∃ a, x = some (.done a none) ∧ f a = some r) ∨ (∃ a e, x = some (.done a (some e)) ∧ r = .done (fail a) (some e)) ∨
    (x = some .panic ∧ r = .panic) := by
  unfold andThen at h
  rcases x with _ | ⟨⟨a, _ | e⟩ | _⟩
  · cases h
  · exact .inl ⟨a, rfl, h⟩
  · cases h; exact .inr (.inl ⟨a, e, rfl, rfl⟩)
  · cases h; exact .inr (.inr ⟨rfl, rfl⟩)

theorem decMap_spec (hU : U.Ok) {k t : Ty} {rec : Node → GV → Option (Out GV)} {h : Heap} {ns : List (Bytes × Node)} {ms : List (Bytes × JVal)}
    (ht : All2 (fun (p : Bytes × Node) (m : Bytes × JVal) => p.1 = m.1 ∧ Tree h p.2 m.2) ns ms)
    (hrec : ∀ n j, Tree h n j → ∀ x r, HasTy U t x → rec n x = some r → Decodes U o t x j r) :
    ∀ {m : GV} {r : Out GV}, (m = .nilMap ∨ ∃ es, m = .map es) → decMap rec (U.zero t) (decide (k = .string)) ns m = some r →
      DecEntries U o k t ms m r := by
  induction ht with
  | nil => intro m r _ hr; rw [decMap] at hr; cases hr; exact .nil
  | @cons p q ns ms hp _ ih =>
    intro m r hm hr
    obtain ⟨key, n⟩ := p
    obtain ⟨key', j⟩ := q
    obtain ⟨h1, h2⟩ := hp
    simp only at h1 h2
    subst h1
    rw [decMap] at hr
    rcases andThen_out hr with ⟨y, hx, hr⟩ | ⟨y, e, hx, rfl⟩ | ⟨hx, rfl⟩
    · have hD := hrec n j h2 _ _ (hasTy_zero hU t) hx
      by_cases hk : k = .string
      · rw [if_pos (by simp [hk])] at hr
        rcases hm with rfl | ⟨es, rfl⟩
        · cases hr; exact .nilMap hD
        · simp only at hr
          rw [setEntry_eq] at hr
          have := ih (.inr ⟨_, rfl⟩) hr
          subst hk
          exact .cons hD this
      · rw [if_neg (by simp [hk])] at hr
        cases hr; exact .badKey hk hD
    · exact .fail (hrec n j h2 _ _ (hasTy_zero hU t) hx)
    · exact .panic (hrec n j h2 _ _ (hasTy_zero hU t) hx)

theorem decFields_spec (hU : U.Ok) (hE : U.EmbedsStructs) {objs : List Obj} {t : Ty} {rec : Dec → Node → RV → Option (Out GV)} {h : Heap}
    {ns : List (Bytes × Node)} {ms : List (Bytes × JVal)} {fs : List Codec} {cs : List Cand}
    (ht : All2 (fun (p : Bytes × Node) (m : Bytes × JVal) => p.1 = m.1 ∧ Tree h p.2 m.2) ns ms)
    (hf : All2 (FieldOk U o objs) fs cs) (hp : ∀ c ∈ cs, PathTy U t c.index c.typ) (hne : ∀ c ∈ cs, c.index ≠ [])
    (hrec : ∀ d c, c ∈ cs → DecIs U objs d c.typ → ∀ n j, Tree h n j → ∀ x a r, HasTy U c.typ x → rec d n ⟨c.typ, x, a⟩ = some r → Decodes U o c.typ x j r) :
    ∀ {v : GV} {r : Out GV}, HasTy U t v → decFields U rec fs t ns v = some r → DecMembers U o cs ms v r := by
  induction ht with
  | nil => intro v r _ hr; rw [decFields] at hr; cases hr; exact .nil
  | @cons p q ns ms hpq _ ih =>
    intro v r hv hr
    obtain ⟨key, n⟩ := p
    obtain ⟨key', j⟩ := q
    obtain ⟨h1, h2⟩ := hpq
    simp only at h1 h2
    subst h1
    rw [decFields] at hr
    rcases getCodec_find key hf with ⟨g1, g2⟩ | ⟨f, c, g1, g2, g3⟩
    · rw [g1] at hr; exact .unknown g2 (ih hv hr)
    · rw [g1] at hr
      simp only at hr
      have hc := List.mem_of_find?_eq_some g2
      rw [g3.index, if_neg (hne c hc)] at hr
      rcases andThen_out hr with ⟨y, hx, hr⟩ | ⟨y, e, hx, rfl⟩ | ⟨hx, rfl⟩
      · rcases decodeAt_spec hU (hp c hc) hv hx with ⟨x, a', r', q1, q2, q3⟩ | ⟨a', r', q1, q2, q3⟩
        · have hs := sub_hasTy (hp c hc) hv q1
          have hD := hrec f.dec c hc g3.dec n j h2 _ _ _ hs q2
          cases r' with
          | panic => cases q3
          | done z e =>
            cases q3
            exact .cons g2 q1 hD (ih (put_hasTy (hp c hc) hv (decodes_hasTy hU hE hD hs _ _ rfl)) hr)
        · have hD := hrec f.dec c hc g3.dec n j h2 _ _ _ (hasTy_zero hU _) q2
          cases r' with
          | panic => cases q3
          | done z e => cases q3; exact .lost g2 q1 hD (ih hv hr)
      · rcases decodeAt_spec hU (hp c hc) hv hx with ⟨x, a', r', q1, q2, q3⟩ | ⟨a', r', q1, q2, q3⟩
        · have hD := hrec f.dec c hc g3.dec n j h2 _ _ _ (sub_hasTy (hp c hc) hv q1) q2
          cases r' with
          | panic => cases q3
          | done z e => cases q3; exact .fail g2 q1 hD
        · have hD := hrec f.dec c hc g3.dec n j h2 _ _ _ (hasTy_zero hU _) q2
          cases r' with
          | panic => cases q3
          | done z e => cases q3; exact .lostFail g2 q1 hD
      · rcases decodeAt_spec hU (hp c hc) hv hx with ⟨x, a', r', q1, q2, q3⟩ | ⟨a', r', q1, q2, q3⟩
        · have hD := hrec f.dec c hc g3.dec n j h2 _ _ _ (sub_hasTy (hp c hc) hv q1) q2
          cases r' with
          | done z e => cases q3
          | panic => exact .panic g2 q1 hD
        · have hD := hrec f.dec c hc g3.dec n j h2 _ _ _ (hasTy_zero hU _) q2
          cases r' with
          | done z e => cases q3
          | panic => exact .lostPanic g2 q1 hD

end

/-! ## The store -/

section
variable {U : Univ} {o : Options} {objs : List Obj}

theorem store_ptrD (hs : StoreOk U o objs) {r : Nat} {e : Ty} (hx : sh objs r = some (.ptrD e none)) :
    ∃ d, objs[r]? = some (.ptrD e (some d)) ∧ DecIs U objs d e := by
  obtain ⟨x, h1, h2⟩ := sh_some hx
  cases x <;> simp [Obj.shape] at h2
  subst h2
  obtain ⟨d, rfl, q⟩ := hs r _ h1
  exact ⟨d, h1, q⟩

theorem store_sliceD (hs : StoreOk U o objs) {r : Nat} {t e : Ty} (hb : U.base t = .slice e) (hx : sh objs r = some (.sliceD t none)) :
    ∃ d, objs[r]? = some (.sliceD t (some d)) ∧ DecIs U objs d e := by
  obtain ⟨x, h1, h2⟩ := sh_some hx
  cases x <;> simp [Obj.shape] at h2
  subst h2
  obtain ⟨e', d, q1, rfl, q⟩ := hs r _ h1
  rw [hb] at q1; cases q1
  exact ⟨d, h1, q⟩

theorem store_arrayD (hs : StoreOk U o objs) {r n : Nat} {e : Ty} (hx : sh objs r = some (.arrayD n e none)) :
    ∃ d, objs[r]? = some (.arrayD n e (some d)) ∧ DecIs U objs d e := by
  obtain ⟨x, h1, h2⟩ := sh_some hx
  cases x <;> simp [Obj.shape] at h2
  obtain ⟨rfl, rfl⟩ := h2
  obtain ⟨d, rfl, q⟩ := hs r _ h1
  exact ⟨d, h1, q⟩

theorem store_mapD (hs : StoreOk U o objs) {r : Nat} {t k e : Ty} (hb : U.base t = .map k e) (hx : sh objs r = some (.mapD t none)) :
    ∃ d, objs[r]? = some (.mapD t (some d)) ∧ DecIs U objs d e := by
  obtain ⟨x, h1, h2⟩ := sh_some hx
  cases x <;> simp [Obj.shape] at h2
  subst h2
  obtain ⟨k', e', d, q1, rfl, q⟩ := hs r _ h1
  rw [hb] at q1; cases q1
  exact ⟨d, h1, q⟩
end

theorem cands_index_ne {U : Univ} {o : Options} {fs : List Field} {i : Nat} {idx : List Int} {cs : List Cand} (h : Cands U o fs i idx cs) :
    ∀ c ∈ cs, c.index ≠ [] := by
  induction h with
  | nil => simp
  | skip _ _ ih => exact ih
  | embed _ _ _ _ _ ih1 ih2 =>
    intro c hc
    rcases List.mem_append.1 hc with hc | hc
    · exact ih1 c hc
    · exact ih2 c hc
  | @field f fs i idx cs idx' he hn hq _ ih =>
    intro c hc
    rcases List.mem_cons.1 hc with rfl | hc
    · have : idx' = idx ++ [(i : Int)] ∨ idx' = idx ++ [(i : Int)] ++ [-1] := by
        unfold embedding at hq
        split at hq
        · split at hq
          · split at hq <;> cases hq; exact .inr rfl
          · cases hq
          · cases hq; exact .inl rfl
        · cases hq; exact .inl rfl
      rcases this with h | h <;> simp [h]
    · exact ih c hc

theorem PlainTy.comp {U : Univ} {a b : Ty} (h : PlainTy U a) (hc : Comp U a b) : PlainTy U b := fun t ht => h t (hc.trans ht)

theorem ne_null_of_typ {j : JVal} (h : ¬ jtyp j = tNull) : j ≠ .null := by rintro rfl; exact h rfl

theorem decode_spec {U : Univ} (hU : U.Ok) (hE : U.EmbedsStructs) {o : Options} {objs : List Obj} (hs : StoreOk U o objs) {h : Heap} :
    ∀ (fuel : Nat) (d : Dec) (t : Ty) (n : Node) (j : JVal) (v : GV) (a : Bool) (r : Out GV), DecIs U objs d t → PlainTy U t → HasTy U t v →
      Tree h n j → decode U objs h fuel d n ⟨t, v, a⟩ = some r → Decodes U o t v j r := by
  intro fuel
  induction fuel with
  | zero => intro d t n j v a r _ _ _ _ hr; rw [decode] at hr; cases hr
  | succ fuel ih =>
    intro d t n j v a r hd hpl hv ht hr
    have hnu := hpl t .refl
    have htyp := tree_typ ht
    have hraw := tree_raw ht
    -- the outcome of a type error
    have mism : ∀ {w}, wants (U.base t) = some w → j ≠ .null → jtyp j &&& w = 0 → typeErr h n w ⟨t, v, a⟩ = some r → Decodes U o t v j r := by
      intro w h1 h2 h3 h4
      unfold typeErr at h4
      rw [htyp] at h4
      cases h4
      exact .mismatch h1 h2 h3
    cases d with
    | njson => simp only [DecIs] at hd; rw [hnu.1] at hd; cases hd
    | json => simp only [DecIs] at hd; rw [hnu.2.1] at hd; cases hd
    | text => simp only [DecIs] at hd; rw [hnu.2.2] at hd; cases hd
    | bool =>
      simp only [DecIs] at hd
      obtain ⟨x, rfl⟩ := hv.inv_bool hd
      rw [decode] at hr
      unfold decBool at hr
      simp only at hr
      have hz : U.zero t = .bool false := by rw [zero_base hU, hd]; rfl
      cases j with
      | bool b =>
        rw [tree_bool ht, if_pos (by rfl)] at hr
        cases hr; exact .bool hd
      | null =>
        rw [tree_not_bool ht (by decide), if_neg (by decide), if_pos (by rw [htyp]; rfl)] at hr
        cases hr
        rw [← hz]; exact .null (by rw [hd]; trivial)
      | _ =>
        rw [tree_not_bool ht (by simp only [jtyp]; decide), if_neg (by decide), if_neg (by rw [htyp]; simp only [jtyp]; decide)] at hr
        exact mism (by rw [hd]; rfl) (by simp) (by simp only [jtyp]; decide) hr
    | int =>
      obtain ⟨k, hd⟩ := hd
      obtain ⟨x, rfl⟩ := hv.inv_int hd
      rw [decode] at hr
      unfold decInt at hr
      simp only [hd] at hr
      have hz : U.zero t = .int 0 := by rw [zero_base hU, hd]; rfl
      rw [htyp, hraw] at hr
      cases j with
      | num raw =>
        rw [if_pos (by rfl)] at hr
        rw [show jraw (.num raw) = raw from rfl] at hr
        by_cases hp : (NumJson.parseInt raw).2 = true
        · rw [if_pos hp] at hr
          cases hr
          exact .int hd (by unfold readInt; rw [if_pos hp])
        · rw [if_neg hp] at hr
          have hri : readInt raw = parseInt64 raw := by unfold readInt; rw [if_neg hp]
          cases hq : parseInt64 raw with
          | some i => rw [hq] at hr; cases hr; exact .int hd (hri.trans hq)
          | none => rw [hq] at hr; cases hr; exact .intErr hd (hri.trans hq)
      | null =>
        rw [if_neg (by simp only [jtyp]; decide), if_pos (by rfl)] at hr
        cases hr
        rw [← hz]; exact .null (by rw [hd]; trivial)
      | _ =>
        rw [if_neg (by simp only [jtyp]; decide), if_neg (by simp only [jtyp]; decide)] at hr
        exact mism (by rw [hd]; rfl) (by simp) (by simp only [jtyp]; decide) hr
    | uint =>
      obtain ⟨k, hd⟩ := hd
      obtain ⟨x, rfl⟩ := hv.inv_uint hd
      rw [decode] at hr
      unfold decUint at hr
      simp only [hd] at hr
      have hz : U.zero t = .uint 0 := by rw [zero_base hU, hd]; rfl
      rw [htyp, hraw] at hr
      cases j with
      | num raw =>
        rw [if_pos (by rfl)] at hr
        rw [show jraw (.num raw) = raw from rfl] at hr
        by_cases hp : (NumJson.parseUint raw).2 = true
        · rw [if_pos hp] at hr
          cases hr
          exact .uint hd (by unfold readUint; rw [if_pos hp])
        · rw [if_neg hp] at hr
          have hri : readUint raw = parseUint64 raw := by unfold readUint; rw [if_neg hp]
          cases hq : parseUint64 raw with
          | some i => rw [hq] at hr; cases hr; exact .uint hd (hri.trans hq)
          | none => rw [hq] at hr; cases hr; exact .uintErr hd (hri.trans hq)
      | null =>
        rw [if_neg (by simp only [jtyp]; decide), if_pos (by rfl)] at hr
        cases hr
        rw [← hz]; exact .null (by rw [hd]; trivial)
      | _ =>
        rw [if_neg (by simp only [jtyp]; decide), if_neg (by simp only [jtyp]; decide)] at hr
        exact mism (by rw [hd]; rfl) (by simp) (by simp only [jtyp]; decide) hr
    | float =>
      obtain ⟨k, hd⟩ := hd
      obtain ⟨x, rfl⟩ := hv.inv_float hd
      rw [decode] at hr
      unfold decFloat at hr
      simp only [hd] at hr
      have hz : U.zero t = U.zero (.float k) := by rw [zero_base hU, hd]
      rw [htyp, hraw] at hr
      cases j with
      | num raw =>
        rw [if_pos (by rfl)] at hr
        simp only [jraw] at hr
        cases hp : NumJson.parseFloat raw with
        | nan =>
          have hri : readFloat U raw = U.atof raw := by unfold readFloat; rw [hp]
          rw [hp] at hr
          simp only at hr
          cases hq : U.atof raw with
          | some f => rw [hq] at hr; cases hr; exact .float hd (hri.trans hq)
          | none => rw [hq] at hr; cases hr; exact .floatErr hd (hri.trans hq)
        | num neg m =>
          rw [hp] at hr
          cases hr
          exact .float hd (by unfold readFloat; rw [hp])
      | null =>
        rw [if_neg (by simp only [jtyp]; decide), if_pos (by rfl)] at hr
        cases hr
        rw [← hz]; exact .null (by rw [hd]; trivial)
      | _ =>
        rw [if_neg (by simp only [jtyp]; decide), if_neg (by simp only [jtyp]; decide)] at hr
        exact mism (by rw [hd]; rfl) (by simp) (by simp only [jtyp]; decide) hr
    | string =>
      simp only [DecIs] at hd
      obtain ⟨x, rfl⟩ := hv.inv_str hd
      rw [decode] at hr
      unfold decString at hr
      simp only at hr
      have hz : U.zero t = .str [] := by rw [zero_base hU, hd]; rfl
      rw [htyp, hraw] at hr
      cases j with
      | str raw => rw [if_pos (by rfl)] at hr; cases hr; exact .str hd
      | null =>
        rw [if_neg (by simp only [jtyp]; decide), if_pos (by rfl)] at hr
        cases hr
        rw [← hz]; exact .null (by rw [hd]; trivial)
      | _ =>
        rw [if_neg (by simp only [jtyp]; decide), if_neg (by simp only [jtyp]; decide)] at hr
        exact mism (by rw [hd]; rfl) (by simp) (by simp only [jtyp]; decide) hr
    | iface =>
      obtain ⟨i, hd⟩ := hd
      rw [decode] at hr
      unfold decIface at hr
      cases hq : toAny (getOf h (n.document h)) fuel n.id with
      | none => rw [hq] at hr; cases hr
      | some x =>
        have hx : x = anyOf j := by
          obtain ⟨rf, hd', hr'⟩ := ht
          rw [doc_cont] at hr'
          rw [hd'] at hq
          exact (toAny_spec _).1 j n.id hr' fuel x hq
        rw [hq] at hr
        cases x with
        | some x =>
          simp only at hr
          by_cases hta : t = .any
          · rw [if_pos hta] at hr; cases hr; subst hta; exact .any hx.symm
          · rw [if_neg hta] at hr; cases hr; exact .anyPanic hd hta hx.symm
        | none =>
          simp only at hr
          unfold typeErr at hr
          rw [htyp] at hr
          cases hr
          exact .anyErr hd hx.symm
    | ptr r0 =>
      obtain ⟨e, hb, hx⟩ := hd
      obtain ⟨d', hobj, hd'⟩ := store_ptrD hs hx
      rw [decode] at hr
      simp only [hobj, hb] at hr
      rw [if_pos trivial, htyp] at hr
      by_cases hn : jtyp j = tNull
      · rw [if_pos hn] at hr
        cases hr
        have : j = .null := by cases j <;> first | rfl | exact absurd hn (by simp only [jtyp]; decide)
        subst this
        have hz : U.zero t = .nilPtr := by rw [zero_base hU, hb]; rfl
        rw [← hz]; exact .null (by rw [hb]; trivial)
      · rw [if_neg hn] at hr
        have hpe := hpl.comp (.ptr hb .refl)
        rcases hv.inv_ptr hb with rfl | ⟨x, rfl, hvx⟩
        · simp only at hr
          cases hq : decode U objs h fuel d' n ⟨e, U.zero e, true⟩ with
          | none => rw [hq] at hr; cases hr
          | some r1 =>
            have hD := ih d' e n j _ true r1 hd' hpe (hasTy_zero hU e) ht hq
            rw [hq] at hr
            have : r = r1.map .ptr := by cases r1 <;> (cases hr; rfl)
            rw [this]; exact .ptrNew hb (ne_null_of_typ hn) hD
        · simp only at hr
          cases hq : decode U objs h fuel d' n ⟨e, x, true⟩ with
          | none => rw [hq] at hr; cases hr
          | some r1 =>
            have hD := ih d' e n j _ true r1 hd' hpe hvx ht hq
            rw [hq] at hr
            have : r = r1.map .ptr := by cases r1 <;> (cases hr; rfl)
            rw [this]; exact .ptr hb (ne_null_of_typ hn) hD
    | slice r0 =>
      obtain ⟨e, hb, hx⟩ := hd
      obtain ⟨d', hobj, hd'⟩ := store_sliceD hs hb hx
      have hpe := hpl.comp (.slice hb .refl)
      rw [decode] at hr
      simp only [hobj] at hr
      rw [htyp, elem_of_base (.inr (.inl hb))] at hr
      cases j with
      | null =>
        rw [if_pos (by rfl)] at hr
        rcases hv.inv_slice hb with rfl | ⟨arr, len, rfl, _, _⟩
        · cases hr; exact .nilSliceNull hb
        · cases hr; exact .sliceNull hb
      | arr js =>
        rw [if_neg (by simp only [jtyp]; decide), if_pos (by rfl)] at hr
        have hel := tree_elems ht
        have hlen := hel.length
        have hfin : ∀ {arr0 : List GV}, (∀ x ∈ arr0, HasTy U e x) → js.length ≤ arr0.length →
            (match decSlice (fun n v => decode U objs h fuel d' n ⟨e, v, true⟩) ((kids h n).map (·.2)) 0 arr0 ((kids h n).map (·.2)).length with
              | none => none
              | some none => some .panic
              | some (some (arr, len)) => some (.done (.slice arr len) none)) = some r →
            ∃ r', DecElems U o e js arr0 r' ∧ r = sliceOut r' := by
          intro arr0 ha hle hm
          cases hq : decSlice (fun n v => decode U objs h fuel d' n ⟨e, v, true⟩) ((kids h n).map (·.2)) 0 arr0 ((kids h n).map (·.2)).length with
          | none => rw [hq] at hm; cases hm
          | some r1 =>
            obtain ⟨r', g1, g2⟩ := decSlice_spec (U := U) (o := o) (t := e) hel (fun n j ht x r hx hr => ih d' e n j x true r hd' hpe hx ht hr)
              (pre := []) hle (by rw [hlen]; simp) ha hq
            rw [hq] at hm
            refine ⟨r', g1, ?_⟩
            subst g2
            cases r' <;> (cases hm; simp [sliceOut])
        have hrep : ∀ x ∈ List.replicate ((kids h n).map (·.2)).length (U.zero e), HasTy U e x := fun x hx => by
          rw [(List.mem_replicate.1 hx).2]; exact hasTy_zero hU e
        rcases hv.inv_slice hb with rfl | ⟨arr, len, rfl, h1, h2⟩
        · obtain ⟨r', g1, rfl⟩ := hfin hrep (by simp [← hlen]) hr
          rw [hlen] at g1
          exact .nilSlice hb g1
        · by_cases hc : arr.length < js.length
          · simp only at hr
            rw [if_pos (by omega)] at hr
            obtain ⟨r', g1, rfl⟩ := hfin hrep (by simp [← hlen]) hr
            rw [hlen] at g1
            exact .sliceGrow hb hc g1
          · simp only at hr
            rw [if_neg (by omega)] at hr
            obtain ⟨r', g1, rfl⟩ := hfin h2 (by omega) hr
            exact .slice hb (by omega) g1
      | _ =>
        rw [if_neg (by simp only [jtyp]; decide), if_neg (by simp only [jtyp]; decide)] at hr
        exact mism (by rw [hb]; rfl) (by simp) (by simp only [jtyp]; decide) hr
    | array r0 =>
      obtain ⟨m, e, hb, hx⟩ := hd
      obtain ⟨d', hobj, hd'⟩ := store_arrayD hs hx
      have hpe := hpl.comp (.array hb .refl)
      obtain ⟨xs, rfl, h1, h2⟩ := hv.inv_array hb
      rw [decode] at hr
      simp only [hobj] at hr
      rw [if_pos h1, htyp] at hr
      cases j with
      | null =>
        rw [if_neg (by simp only [jtyp]; decide), if_pos (by rfl)] at hr
        cases hr
        have hz : U.zero t = .array (List.replicate m (U.zero e)) := by rw [zero_base hU, hb]; rfl
        rw [← hz]; exact .null (by rw [hb]; trivial)
      | arr js =>
        rw [if_pos (by rfl)] at hr
        cases hq : decArray (fun n v => decode U objs h fuel d' n ⟨e, v, true⟩) (U.zero e) xs ((kids h n).map (·.2)) with
        | none => rw [hq] at hr; cases hr
        | some r1 =>
          have hA := decArray_spec (U := U) (o := o) (t := e) (tree_elems ht) (fun n j ht x r hx hr => ih d' e n j x true r hd' hpe hx ht hr) h2 hq
          rw [hq] at hr
          have : r = arrayOut r1 := by cases r1 <;> (cases hr; rfl)
          rw [this]; exact .array hb hA
      | _ =>
        rw [if_neg (by simp only [jtyp]; decide), if_neg (by simp only [jtyp]; decide)] at hr
        exact mism (by rw [hb]; rfl) (by simp) (by simp only [jtyp]; decide) hr
    | map r0 =>
      obtain ⟨k, e, hb, hk, hx⟩ := hd
      obtain ⟨d', hobj, hd'⟩ := store_mapD hs hb hx
      have hpe := hpl.comp (.map hb .refl)
      rw [decode] at hr
      simp only [hobj, hb] at hr
      rw [htyp, elem_of_base (.inr (.inr (.inr ⟨k, hb⟩)))] at hr
      cases j with
      | null => rw [if_pos (by rfl)] at hr; cases hr; exact .mapNull hb
      | obj ms =>
        rw [if_neg (by simp only [jtyp]; decide), if_pos (by rfl)] at hr
        refine .map hb (decMap_spec hU (tree_members ht) (fun n j ht x r hx hr => ih d' e n j x true r hd' hpe hx ht hr) ?_ hr)
        rcases hv.inv_map hb with h | ⟨es, h, _⟩
        · exact .inl h
        · exact .inr ⟨es, h⟩
      | _ =>
        rw [if_neg (by simp only [jtyp]; decide), if_neg (by simp only [jtyp]; decide)] at hr
        exact mism (by rw [hb]; rfl) (by simp) (by simp only [jtyp]; decide) hr
    | struct r0 =>
      obtain ⟨i, hb, hx⟩ := hd
      obtain ⟨fs, cs, hobj, hc, hall⟩ := store_struct hs hb hx
      rw [decode] at hr
      simp only [hobj] at hr
      rw [htyp] at hr
      cases j with
      | null => rw [if_pos (by rfl)] at hr; cases hr; exact .null (by rw [hb]; trivial)
      | obj ms =>
        rw [if_neg (by simp only [jtyp]; decide), if_pos (by rfl)] at hr
        have hpath := cands_path0 hE hb hc
        refine .struct hb hc (decFields_spec hU hE (tree_members ht) hall hpath ?_ ?_ hv hr)
        · intro c hcm
          rcases resolve_mem hcm with h | h
          · exact absurd h (by simp)
          · exact cands_index_ne hc c h
        · intro d c hcm hd n j ht x a r hx hr
          exact ih d c.typ n j x a r hd (hpl.comp (path_comp (hpath c hcm))) hx ht hr
      | _ =>
        rw [if_neg (by simp only [jtyp]; decide), if_neg (by simp only [jtyp]; decide)] at hr
        exact mism (by rw [hb]; rfl) (by simp) (by simp only [jtyp]; decide) hr

end Verif.Unjson
