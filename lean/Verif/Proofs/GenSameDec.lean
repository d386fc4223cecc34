import Verif.Spec.GenSameDec
import Verif.Proofs.GenSame
import Verif.Proofs.UnRound

/-! # Generated code and `unjson` read the same -/

namespace Verif.Gen
open Verif Verif.Float Verif.Spec Verif.Njson Verif.Unjson

/-! ## Paths -/

/-- Index and selectors lead to the same place. -/
def Aims (U : Univ) (t : Ty) (v : GV) (index : List Int) : Prop :=
  ∀ x, sub v index = some x → ∃ mk, focus U t v (selectors index) = some (x, mk) ∧ ∀ y, mk y = put y v index

theorem aims_nil (U : Univ) (t : Ty) (v : GV) : Aims U t v [] := by
  intro x h
  simp only [sub, Option.some.injEq] at h
  subst h
  exact ⟨id, rfl, fun y => rfl⟩

theorem aims_step {U : Univ} {j : Nat} {gs : List GV} {i : Nat} {f : Field} {x : GV} {is : List Int} (hf : (U.fields j)[i]? = some f) (hx : gs[i]? = some x)
    (h : Aims U f.typ x is) : Aims U (.struct j) (.struct gs) ((i : Int) :: is) := by
  intro z hz
  rw [sub_nat, hx] at hz
  obtain ⟨mk, h1, h2⟩ := h z hz
  refine ⟨fun y => .struct (gs.set i (mk y)), ?_, fun y => ?_⟩
  · rw [selectors_nat, focus]
    simp only [openStruct, Univ.base, hf, hx, h1, Option.map_some]
  · rw [put, if_neg (by omega)]
    simp [hx, h2]

theorem aims_ptr {U : Univ} {t : Ty} {j : Nat} {hs : List GV} {k : Nat} {is : List Int} (hb : U.base t = .ptr (.struct j))
    (h : Aims U (.struct j) (.struct hs) ((k : Int) :: is)) : Aims U t (.ptr (.struct hs)) (-1 :: (k : Int) :: is) := by
  intro z hz
  rw [sub, if_pos rfl] at hz
  obtain ⟨mk, h1, h2⟩ := h z hz
  rw [selectors_nat, focus] at h1
  have ho : openStruct U t (.ptr (.struct hs)) = some (j, hs, fun fs => .ptr (.struct fs)) := by
    unfold openStruct
    rw [hb]
    rfl
  have ho' : openStruct U (.struct j) (.struct hs) = some (j, hs, .struct) := rfl
  refine ⟨fun y => .ptr (mk y), ?_, fun y => ?_⟩
  · rw [selectors_neg, selectors_nat, focus, ho]
    rw [ho'] at h1
    cases hf : (U.fields j)[k]? with
    | none => simp [hf] at h1
    | some f =>
      cases hx : hs[k]? with
      | none => simp [hf, hx] at h1
      | some x =>
        simp only [hf, hx, Option.map_eq_some_iff] at h1
        obtain ⟨r, h3, h4⟩ := h1
        cases h4
        simp only [hf, hx, h3, Option.map_some]
  · rw [put, if_pos rfl]
    simp only [h2]

theorem aims_nilPtr {U : Univ} {t : Ty} {is : List Int} : Aims U t .nilPtr (-1 :: is) := by
  intro z hz
  simp [sub] at hz

theorem at_suffix {α : Type} {l pre fs : List α} {f : α} {i : Nat} (h : l = pre ++ f :: fs) (hp : pre.length = i) : l[i]? = some f := by
  subst h; subst hp; simp

theorem cands_aims {U : Univ} (hU : U.Ok) (hE : U.EmbedsStructs) {o : Options} {fs : List Field} {i : Nat} {idx : List Int} {cs : List Cand}
    (h : Cands U o fs i idx cs) : ∀ {j0 : Nat} {pre : List Field}, U.fields j0 = pre ++ fs → pre.length = i →
    ∀ c ∈ cs, ∃ (k : Nat) (suf : List Int), i ≤ k ∧ c.index = idx ++ (k : Int) :: suf ∧
      ∀ gs, HasTy U (.struct j0) (.struct gs) → Aims U (.struct j0) (.struct gs) ((k : Int) :: suf) := by
  induction h with
  | nil => intro j0 pre _ _ c hc; cases hc
  | @skip f _ _ _ _ _ _ ih =>
    intro j0 pre hl hp c hc
    obtain ⟨k, suf, h0, h1, h2⟩ := ih (pre := pre ++ [f]) (by simpa using hl) (by simpa using hp) c hc
    exact ⟨k, suf, by omega, h1, h2⟩
  | @embed f fs i idx cs ds idx' j _ _ he _ _ ih1 ih2 =>
    intro j0 pre hl hp c hc
    have hfi : (U.fields j0)[i]? = some f := at_suffix hl hp
    rcases List.mem_append.1 hc with hc | hc
    · obtain ⟨k, suf, _, h1, h2⟩ := ih1 (j0 := j) (pre := []) rfl rfl c hc
      have hget : ∀ {gs}, HasTy U (.struct j0) (.struct gs) → ∃ x, gs[i]? = some x ∧ HasTy U f.typ x := by
        intro gs hg
        have := fills_of hg i f hfi
        simpa using this
      unfold embedding at he
      split at he
      · split at he
        · rename_i e hb
          split at he
          · rename_i j' hb'
            cases he
            have he' : e = .struct j := base_struct hU hb'
            subst he'
            refine ⟨i, -1 :: (k : Int) :: suf, Nat.le_refl _, by simp [h1], fun gs hg => ?_⟩
            obtain ⟨x, hx, hty⟩ := hget hg
            refine aims_step hfi hx ?_
            rcases hty.inv_ptr hb with rfl | ⟨y, rfl, hy⟩
            · exact aims_nilPtr
            · obtain ⟨hs, rfl, _⟩ := hy.inv_struct hb'
              exact aims_ptr hb (h2 hs hy)
          · cases he
        · rename_i j' hb
          cases he
          refine ⟨i, (k : Int) :: suf, Nat.le_refl _, by simp [h1], fun gs hg => ?_⟩
          obtain ⟨x, hx, hty⟩ := hget hg
          have he' : f.typ = .struct j := base_struct hU hb
          refine aims_step hfi hx ?_
          rw [he'] at hty ⊢
          obtain ⟨hs, rfl, _⟩ := hty.inv_struct (j := j) rfl
          exact h2 hs hty
        · cases he
      · cases he
    · obtain ⟨k, suf, h0, h1, h2⟩ := ih2 (pre := pre ++ [f]) (by simpa using hl) (by simpa using hp) c hc
      exact ⟨k, suf, by omega, h1, h2⟩
  | @field f fs i idx cs idx' _ _ he _ ih =>
    intro j0 pre hl hp c hc
    have hfi : (U.fields j0)[i]? = some f := at_suffix hl hp
    rcases List.mem_cons.1 hc with rfl | hc
    · have hi : idx' = idx ++ [(i : Int)] := by
        unfold embedding at he
        split at he
        · rename_i hcond
          simp only [Bool.and_eq_true, Bool.not_eq_true'] at hcond
          split at he
          · rename_i e hb
            split at he
            · cases he
            · rename_i hb'
              obtain ⟨i', hi'⟩ := hE j0 f e (List.mem_of_getElem? hfi) hcond.2 hb
              exact absurd hi' (hb' _)
          · cases he
          · cases he; rfl
        · cases he; rfl
      refine ⟨i, [], Nat.le_refl _, by simp [hi], fun gs hg => ?_⟩
      obtain ⟨x, hx, _⟩ := fills_of hg i f hfi
      rw [Nat.zero_add] at hx
      exact aims_step hfi hx (aims_nil _ _ _)
    · obtain ⟨k, suf, h0, h1, h2⟩ := ih (pre := pre ++ [f]) (by simpa using hl) (by simpa using hp) c hc
      exact ⟨k, suf, by omega, h1, h2⟩

/-- The indices differ first in the number of a field. -/
def IApart (p q : List Int) : Prop :=
  ∃ (pre : List Int) (a b : Nat) (p' q' : List Int), p = pre ++ (a : Int) :: p' ∧ q = pre ++ (b : Int) :: q' ∧ a ≠ b

theorem IApart.symm {p q : List Int} (h : IApart p q) : IApart q p := by
  obtain ⟨pre, a, b, p', q', h1, h2, h3⟩ := h
  exact ⟨pre, b, a, q', p', h2, h1, Ne.symm h3⟩

theorem cands_apart {U : Univ} (hU : U.Ok) (hE : U.EmbedsStructs) {o : Options} {fs : List Field} {i : Nat} {idx : List Int} {cs : List Cand}
    (h : Cands U o fs i idx cs) : ∀ {j0 : Nat} {pre : List Field}, U.fields j0 = pre ++ fs → pre.length = i →
    cs.Pairwise fun c d => IApart c.index d.index := by
  induction h with
  | nil => intro _ _ _ _; exact .nil
  | @skip f _ _ _ _ _ _ ih => intro j0 pre hl hp; exact ih (pre := pre ++ [f]) (by simpa using hl) (by simpa using hp)
  | @embed f fs i idx cs ds idx' j _ _ he hc1 hc2 ih1 ih2 =>
    intro j0 pre hl hp
    rw [List.pairwise_append]
    refine ⟨ih1 (j0 := j) (pre := []) rfl rfl, ih2 (pre := pre ++ [f]) (by simpa using hl) (by simpa using hp), fun c hc d hd => ?_⟩
    obtain ⟨k1, s1, _, e1, _⟩ := cands_aims hU hE hc1 (j0 := j) (pre := []) rfl rfl c hc
    obtain ⟨k2, s2, hk, e2, _⟩ := cands_aims hU hE hc2 (pre := pre ++ [f]) (by simpa using hl) (by simpa using hp) d hd
    have hi : ∃ s, idx' = idx ++ (i : Int) :: s := by
      unfold embedding at he
      split at he
      · split at he
        · split at he <;> cases he
          exact ⟨[-1], by simp⟩
        · cases he; exact ⟨[], rfl⟩
        · cases he
      · cases he
    obtain ⟨s, rfl⟩ := hi
    exact ⟨idx, i, k2, s ++ (k1 : Int) :: s1, s2, by simp [e1], e2, by omega⟩
  | @field f fs i idx cs idx' _ _ he hc ih =>
    intro j0 pre hl hp
    rw [List.pairwise_cons]
    refine ⟨fun d hd => ?_, ih (pre := pre ++ [f]) (by simpa using hl) (by simpa using hp)⟩
    obtain ⟨k2, s2, hk, e2, _⟩ := cands_aims hU hE hc (pre := pre ++ [f]) (by simpa using hl) (by simpa using hp) d hd
    have hi : ∃ s, idx' = idx ++ (i : Int) :: s := by
      unfold embedding at he
      split at he
      · split at he
        · split at he <;> cases he
          exact ⟨[-1], by simp⟩
        · cases he
        · cases he; exact ⟨[], rfl⟩
      · cases he; exact ⟨[], rfl⟩
    obtain ⟨s, rfl⟩ := hi
    exact ⟨idx, i, k2, s, s2, rfl, e2, by omega⟩

theorem pairwise_mem {α : Type} {R : α → α → Prop} (hs : ∀ a b, R a b → R b a) : ∀ {l : List α}, l.Pairwise R → ∀ a ∈ l, ∀ b ∈ l, a ≠ b → R a b
  | [], _, a, ha, _, _, _ => by cases ha
  | x :: l, h, a, ha, b, hb, hab => by
    rw [List.pairwise_cons] at h
    rcases List.mem_cons.1 ha with e1 | ha <;> rcases List.mem_cons.1 hb with e2 | hb
    · exact absurd (e1.trans e2.symm) hab
    · rw [e1]; exact h.1 b hb
    · rw [e2]; exact hs _ _ (h.1 a ha)
    · exact pairwise_mem hs h.2 a ha b hb hab

theorem sub_put_apart {y : GV} {a b : Nat} (hab : a ≠ b) (p q : List Int) : ∀ (pre : List Int) (v : GV),
    sub (put y v (pre ++ (a : Int) :: p)) (pre ++ (b : Int) :: q) = sub v (pre ++ (b : Int) :: q)
  | [], v => by
    rw [List.nil_append, List.nil_append, put_cons, if_neg (by omega)]
    cases v with
    | struct fs =>
      show sub (.struct _) _ = _
      rw [sub_nat, sub_nat]
      simp only [Int.toNat_natCast]
      cases ha : fs[a]? with
      | none => rfl
      | some x => simp only [List.getElem?_set_ne hab]
    | _ => rfl
  | i :: pre, v => by
    rw [List.cons_append, List.cons_append, put_cons, sub_cons, sub_cons]
    by_cases hi : i = -1
    · rw [if_pos hi, if_pos hi, if_pos hi]
      cases v with
      | ptr x => exact sub_put_apart hab p q pre x
      | _ => rfl
    · rw [if_neg hi, if_neg hi, if_neg hi]
      cases v with
      | struct fs =>
        cases hx : fs[i.toNat]? with
        | none => simp [hx]
        | some x =>
          have hlt : i.toNat < fs.length := by
            rcases Nat.lt_or_ge i.toNat fs.length with h | h
            · exact h
            · rw [List.getElem?_eq_none h] at hx; cases hx
          have := sub_put_apart (y := y) hab p q pre x
          simp only [hx, List.getElem?_set, hlt, if_true]
          exact this
      | _ => rfl

/-! ## Reading -/

/-- Both store the same, without error. -/
def Both (E : Env) (o : GenOptions) (t : Ty) (v : GV) (j : JVal) : Prop :=
  ∃ y, GDec E o t v j y none ∧ Decodes E.U decodeOptions t v j (.done y none)

theorem both_elems {E : Env} {o : GenOptions} {e : Ty} : ∀ {js : List JVal} {arr : List GV}, js.length ≤ arr.length →
    (∀ (i : Nat) x j, arr[i]? = some x → js[i]? = some j → Both E o e x j) →
    ∃ arr', GDecElems E o e arr js arr' none ∧ DecElems E.U decodeOptions e js arr (some (arr', js.length))
  | [], arr, _, _ => ⟨arr, .nil, .nil⟩
  | j :: js, [], h, _ => by simp at h
  | j :: js, x :: arr, h, hb => by
    obtain ⟨y, h1, h2⟩ := hb 0 x j rfl rfl
    obtain ⟨arr', h3, h4⟩ := both_elems (js := js) (arr := arr) (by simpa using h)
      (fun i x j a b => hb (i + 1) x j (by simpa using a) (by simpa using b))
    exact ⟨y :: arr', .cons h1 h3, .cons h2 h4⟩

theorem putEntry_setKey {U : Univ} {key : Bytes} {y : GV} : ∀ {es : List (GV × GV)}, (∀ p ∈ es, HasTy U .string p.1) →
    putEntry (.str key) y es = setKey key y es
  | [], _ => rfl
  | (k, x) :: es, h => by
    obtain ⟨s, hs⟩ := (h _ List.mem_cons_self).inv_str (U := U) (t := .string) rfl
    simp only at hs
    subst hs
    rw [putEntry, Unjson.setKey]
    simp only [GV.str.injEq]
    by_cases hk : s = key
    · subst hk; rw [if_pos rfl, if_pos rfl]
    · rw [if_neg hk, if_neg hk, putEntry_setKey fun p hp => h p (List.mem_cons_of_mem _ hp)]

theorem setKey_keys {U : Univ} {key : Bytes} {y : GV} {es : List (GV × GV)} (h : ∀ p ∈ es, HasTy U .string p.1) :
    ∀ p ∈ setKey key y es, HasTy U .string p.1 := by
  intro p hp
  rcases setKey_mem hp with ⟨_, h2⟩ | h2
  · rw [h2]; exact .str rfl
  · exact h p h2

theorem both_entries {E : Env} {o : GenOptions} {e : Ty} : ∀ {ms : List (Bytes × JVal)} {es : List (GV × GV)}, (∀ p ∈ es, HasTy E.U .string p.1) →
    (∀ m ∈ ms, Both E o e (E.U.zero e) m.2) →
    ∃ es', GDecEntries E o .string e es ms es' none ∧ DecEntries E.U decodeOptions .string e ms (.map es) (.done (.map es') none)
  | [], es, _, _ => ⟨es, .nil, .nil⟩
  | (key, j) :: ms, es, hk, hb => by
    obtain ⟨y, h1, h2⟩ := hb (key, j) List.mem_cons_self
    obtain ⟨es', h3, h4⟩ := both_entries (ms := ms) (setKey_keys (key := key) (y := y) hk) (fun m hm => hb m (List.mem_cons_of_mem _ hm))
    refine ⟨es', .cons h1 ?_, .cons h2 h4⟩
    show GDecEntries E o .string e (putEntry (.str key) y es) ms es' none
    rw [putEntry_setKey hk]
    exact h3

theorem fieldFor_mem {cs : List Cand} {key : Bytes} {c : Cand} (h : fieldFor cs key = some c) : c ∈ resolve [] cs ∧ c ∈ cs ∧ c.key = key := by
  unfold fieldFor at h
  have h1 := List.mem_of_find?_eq_some h
  have h2 := List.find?_some h
  refine ⟨h1, ?_, by simpa using h2⟩
  have := (resolve_sublist cs []).subset h1
  simpa using this

theorem both_members {E : Env} (hU : E.U.Ok) (hE : E.U.EmbedsStructs) {o : GenOptions} {i : Nat} {cs : List Cand}
    (hc : Cands E.U decodeOptions (E.U.fields i) 0 [] cs) : ∀ {ms : List (Bytes × JVal)} {v : GV}, HasTy E.U (.struct i) v → (ms.map Prod.fst).Nodup →
    (∀ m ∈ ms, SameTarget E o i cs m.1) → (∀ m ∈ ms, ∀ c, fieldFor cs m.1 = some c → ∃ x, sub v c.index = some x ∧ Both E o c.typ x m.2) →
    ∃ y, GDecMembers E o i v ms y none ∧ DecMembers E.U decodeOptions (resolve [] cs) ms v (.done y none)
  | [], v, _, _, _, _ => ⟨v, .nil, .nil⟩
  | (key, j) :: ms, v, hv, hn, ht, hb => by
    rw [List.map_cons, List.nodup_cons] at hn
    rcases ht _ List.mem_cons_self with ⟨h1, h2⟩ | ⟨c, p, hp, h1, h2, h3, h4, h5⟩
    · obtain ⟨y, k1, k2⟩ := both_members hU hE hc (ms := ms) hv hn.2 (fun m hm => ht m (List.mem_cons_of_mem _ hm))
        (fun m hm => hb m (List.mem_cons_of_mem _ hm))
      exact ⟨y, .unknown h2 k1, .unknown h1 k2⟩
    · simp only at h1 h2
      subst h2
      obtain ⟨x, hx, y, g1, g2⟩ := hb _ List.mem_cons_self c h1
      obtain ⟨hm1, hm2, hkey⟩ := fieldFor_mem h1
      obtain ⟨gs, rfl, _⟩ := hv.inv_struct (j := i) rfl
      obtain ⟨k, suf, _, e1, e2⟩ := cands_aims hU hE hc (j0 := i) (pre := []) rfl rfl c hm2
      rw [List.nil_append] at e1
      have ha := e2 gs hv
      rw [← e1] at ha
      obtain ⟨mk, a1, a2⟩ := ha x hx
      have hpt := cands_path0 (t := .struct i) hE rfl hc c hm1
      have hty := sub_hasTy hpt hv hx
      have hty' := decodes_hasTy hU hE g2 hty y none rfl
      have hv' := put_hasTy hpt hv hty'
      obtain ⟨z, k1, k2⟩ := both_members hU hE hc (ms := ms) hv' hn.2 (fun m hm => ht m (List.mem_cons_of_mem _ hm)) (by
        intro m hm d hd
        obtain ⟨x', hx', hb'⟩ := hb m (List.mem_cons_of_mem _ hm) d hd
        obtain ⟨_, d2, dkey⟩ := fieldFor_mem hd
        have hne : c ≠ d := by
          rintro rfl
          exact hn.1 (List.mem_map.2 ⟨m, hm, dkey.symm.trans hkey⟩)
        obtain ⟨pre, a, b, p', q', w1, w2, w3⟩ := pairwise_mem (fun _ _ h => IApart.symm h) (cands_apart hU hE hc (j0 := i) (pre := []) rfl rfl) c hm2 d d2 hne
        refine ⟨x', ?_, hb'⟩
        rw [← hx', w1, w2]
        exact sub_put_apart w3 p' q' pre _)
      refine ⟨z, .cons hp h5 (by rw [← h3]; exact a1) (by rw [← h4]; exact g1) ?_, .cons h1 hx g2 k2⟩
      rw [a2]
      exact k1

theorem alike_both {E : Env} (hU : E.U.Ok) (hE : E.U.EmbedsStructs) {o : GenOptions} {t : Ty} {v : GV} {j : JVal} (h : ReadAlike E o t v j) :
    HasTy E.U t v → Both E o t v j := by
  have hz : ∀ t, HasTy E.U t (E.U.zero t) := fun t => hasTy_zero hU t
  induction h with
  | bool hn hb => intro hv; obtain ⟨x, rfl⟩ := hv.inv_bool hb; exact ⟨_, .bool hn hb, .bool hb⟩
  | str hn hb => intro hv; obtain ⟨x, rfl⟩ := hv.inv_str hb; exact ⟨_, .str hn hb, .str hb⟩
  | int hn hb hr =>
    intro hv; obtain ⟨x, rfl⟩ := hv.inv_int hb
    exact ⟨_, .int hn hb (by exact hr), .int hb (by unfold readInt; rw [if_pos hr]; rfl)⟩
  | uint hn hb hr =>
    intro hv; obtain ⟨x, rfl⟩ := hv.inv_uint hb
    exact ⟨_, .uint hn hb (by exact hr), .uint hb (by unfold readUint; rw [if_pos hr]; rfl)⟩
  | @float t k v raw hn hb hr =>
    intro hv; obtain ⟨x, rfl⟩ := hv.inv_float hb
    refine ⟨_, .float hn hb (by exact hr), .float hb ?_⟩
    unfold readFloat
    show (match NumJson.parseFloat raw with | .nan => E.U.atof raw | f => some f) = some (NumJson.parseFloat raw)
    revert hr
    cases NumJson.parseFloat raw with
    | nan => intro h; exact absurd rfl h
    | num => intro _; rfl
  | @ptrNull t e v hn hb =>
    intro hv
    refine ⟨.nilPtr, .ptrNull hn hb, ?_⟩
    have : E.U.zero t = .nilPtr := by rw [zero_base hU, hb]; rfl
    rw [← this]
    exact .null (by rw [hb]; trivial)
  | ptrNew hn hb hj _ ih =>
    intro hv
    obtain ⟨y, h1, h2⟩ := ih (hz _)
    exact ⟨_, .ptrNew hn hb hj h1, .ptrNew hb hj h2⟩
  | ptr hn hb hj _ ih =>
    intro hv
    rcases hv.inv_ptr hb with h | ⟨x, h, hx⟩
    · cases h
    · cases h
      obtain ⟨y, h1, h2⟩ := ih hx
      exact ⟨_, .ptr hn hb hj h1, .ptr hb hj h2⟩
  | sliceNull hn hb => intro _; exact ⟨_, .sliceNull hn hb, .nilSliceNull hb⟩
  | @sliceNew t e js hn hb hj _ ih =>
    intro hv
    obtain ⟨arr, h1, h2⟩ := both_elems (E := E) (o := o) (e := e) (js := js) (arr := List.replicate js.length (E.U.zero e)) (by simp) (by
      intro i x j hx hj
      have := List.mem_of_getElem? hx
      rw [List.mem_replicate] at this
      rw [this.2]
      exact ih j (List.mem_of_getElem? hj) (hz _))
    exact ⟨_, .sliceNew hn hb hj h1, .nilSlice hb h2⟩
  | @sliceFit t e arr len js hn hb hl _ ih =>
    intro hv
    rcases hv.inv_slice hb with h | ⟨arr', len', h, _, hx⟩
    · cases h
    · cases h
      obtain ⟨arr', h1, h2⟩ := both_elems (E := E) (o := o) (e := e) hl fun i x j hi hj => ih i x j hi hj (hx x (List.mem_of_getElem? hi))
      exact ⟨_, .sliceFit hn hb hl h1, .slice hb hl h2⟩
  | @sliceGrow t e arr js hn hb hl _ ih =>
    intro hv
    obtain ⟨arr', h1, h2⟩ := both_elems (E := E) (o := o) (e := e) (js := js) (arr := List.replicate js.length (E.U.zero e)) (by simp) (by
      intro i x j hx hj
      have := List.mem_of_getElem? hx
      rw [List.mem_replicate] at this
      rw [this.2]
      exact ih j (List.mem_of_getElem? hj) (hz _))
    have h3 := GDec.sliceGrow (E := E) (o := o) (len := 0) hn hb hl (by rw [Nat.zero_add]; exact h1)
    rw [Nat.zero_add] at h3
    exact ⟨_, h3, .sliceGrow hb hl h2⟩
  | mapNull hn hb => intro _; exact ⟨_, .mapNull hn hb, .mapNull hb⟩
  | map hn hb _ ih =>
    intro hv
    rcases hv.inv_map hb with h | ⟨es, h, h1, h2⟩
    · cases h
    · cases h
      obtain ⟨es', h3, h4⟩ := both_entries (E := E) (o := o) h1 fun m hm => ih m hm (hz _)
      exact ⟨_, .map hn hb h3, .map hb h4⟩
  | struct hn hc hnd ht hs _ ih =>
    intro hv
    obtain ⟨y, h1, h2⟩ := both_members hU hE hc hv hnd ht (by
      intro m hm c hf
      cases hx : sub _ c.index with
      | none => exact absurd hx (hs m hm c hf)
      | some x => exact ⟨x, rfl, ih m hm c x hf hx (sub_hasTy (cands_path0 hE rfl hc c (fieldFor_mem hf).1) hv hx)⟩)
    exact ⟨y, .struct hn h1, .struct rfl hc h2⟩

end Verif.Gen
