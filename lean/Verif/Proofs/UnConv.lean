import Verif.Proofs.UnExact

/-! # Exactly the values that come back: both directions -/

namespace Verif.Unjson
open Verif Verif.Float Verif.Spec Verif.Njson Verif.Gen

/-! ## Interfaces -/

theorem anyBack_back {U : Univ} {v : GV} (hv : AnyBack U v) : ∀ {o h j}, Encodes U o h .any v j → anyOf j = some v.trim := by
  induction hv with
  | nil => intro o h j he; cases he with
    | nilIface => rfl
  | bool => intro o h j he; cases he with
    | iface _ _ g => cases g with
      | bool => rfl
  | @float neg m e h2 => intro o h j he; cases he with
    | iface _ _ g => cases g with
      | float => rw [anyOf, h2]; rfl
  | @str s h1 => intro o h j he; cases he with
    | iface _ _ g => cases g with
      | str => rw [anyOf, (strText_iff (by simp [Hint.none])).2 h1]; rfl
  | @slice arr len hl hx ih => intro o h j he; cases he with
    | iface _ _ g => cases g with
      | slice hb hes =>
        cases hb
        have key : ∀ {xs js o h}, (∀ x ∈ xs, ∀ {o h j}, Encodes U o h .any x j → anyOf j = some x.trim) → EncElems U o h .any xs js →
            anyElems js = some (trimL xs) := by
          intro xs js o h hx he
          induction xs generalizing js with
          | nil => cases he; rfl
          | cons x xs ihx =>
            cases he with
            | cons g1 g2 =>
              rw [anyElems, hx x (by simp) g1, ihx (fun x h => hx x (by simp [h])) g2]; rfl
        rw [anyOf, key ih hes, Option.map_some, GV.trim, GV.trim, trimL_map, trimL_map, List.map_take]
        simp; omega
  | @map es hk hn hx ih => intro o h j he; cases he with
    | iface _ _ g => cases g with
      | map hb hes =>
        cases hb
        have key : ∀ {es ms o acc}, (∀ p ∈ es, ∃ k, p.1 = .str k ∧ StrJson.escaped k false false = k) → (acc.map Prod.fst ++ es.map Prod.fst).Nodup →
            (∀ p ∈ es, ∀ {o h j}, Encodes U o h .any p.2 j → anyOf j = some p.2.trim) → EncEntries U o .any es ms →
            anyMembers ms acc = some (acc ++ trimM es) := by
          intro es ms o acc hk hn hx he
          induction es generalizing ms acc with
          | nil => cases he; simp [anyMembers, trimM]
          | cons p es ihx =>
            cases he with
            | @cons _ _ k x _ j ms' g1 g2 =>
              obtain ⟨k', h1, h2⟩ := hk _ (List.mem_cons_self)
              cases h1
              rw [anyMembers, hx (.str k, x) List.mem_cons_self g1]
              simp only
              rw [h2, setKey_new (by
                rw [List.map_cons, List.nodup_append] at hn
                intro hm; exact hn.2.2 _ hm _ (by simp) rfl)]
              rw [ihx (fun p hp => hk p (by simp [hp])) (by
                rw [List.map_append, List.append_assoc]; exact hn) (fun p hp => hx p (by simp [hp])) g2, trimM]
              simp
        rw [anyOf, key hk (by simpa using hn) ih hes]
        rfl

theorem anyElems_get : ∀ {js : List JVal} {gs : List GV}, anyElems js = some gs →
    gs.length = js.length ∧ ∀ (i : Nat) j g, js[i]? = some j → gs[i]? = some g → anyOf j = some g
  | [], gs, h => by rw [anyElems] at h; cases h; simp
  | j :: js, gs, h => by
    rw [anyElems] at h
    split at h
    · rename_i g gs' h1 h2
      cases h
      obtain ⟨a, b⟩ := anyElems_get h2
      refine ⟨by simp [a], ?_⟩
      intro i j' g' hj hg
      cases i with
      | zero => cases hj; cases hg; exact h1
      | succ i => exact b i j' g' (by simpa using hj) (by simpa using hg)
    · cases h

theorem setKey_old {key : Bytes} {val : GV} : ∀ {es : List (GV × GV)}, GV.str key ∈ es.map Prod.fst → (setKey key val es).length = es.length
  | [], h => by simp at h
  | (k, x) :: es, h => by
    have ih : k ≠ .str key → (setKey key val es).length = es.length := fun hk => setKey_old (by
      rw [List.map_cons, List.mem_cons] at h
      rcases h with h | h
      · exact absurd h.symm hk
      · exact h)
    rw [setKey.eq_def]
    cases k with
    | str s =>
      simp only
      by_cases hs : s = key
      · rw [if_pos hs]; rfl
      · rw [if_neg hs]; simp [ih (by simpa using hs)]
    | _ => simp [ih (by simp)]

theorem anyMembers_full : ∀ {ms : List (Bytes × JVal)} {acc es : List (GV × GV)}, anyMembers ms acc = some es →
    es.length ≤ acc.length + ms.length ∧ (es.length = acc.length + ms.length → (acc.map Prod.fst).Nodup →
      (es.map Prod.fst).Nodup ∧ ∃ gs, es = acc ++ gs ∧ gs.length = ms.length ∧
        ∀ (i : Nat) k j p, ms[i]? = some (k, j) → gs[i]? = some p → p.1 = .str k ∧ anyOf j = some p.2)
  | [], acc, es, h => by
    rw [anyMembers] at h; cases h
    exact ⟨by simp, fun _ hn => ⟨hn, [], by simp⟩⟩
  | (k, j) :: ms, acc, es, h => by
    rw [anyMembers] at h
    split at h
    · rename_i g hg
      obtain ⟨a, b⟩ := anyMembers_full h
      by_cases hm : GV.str k ∈ acc.map Prod.fst
      · rw [setKey_old hm] at a
        refine ⟨by simp; omega, fun he => ?_⟩
        simp at he; omega
      · rw [setKey_new hm] at a b
        simp only [List.length_append, List.length_cons, List.length_nil] at a b
        refine ⟨by simp; omega, fun he hn => ?_⟩
        obtain ⟨b1, gs, b2, b3, b4⟩ := b (by simp at he; omega) (by
          rw [List.map_append, List.nodup_append]
          refine ⟨hn, by simp, ?_⟩
          intro x hx y hy hxy
          simp at hy
          subst hy; subst hxy
          exact hm hx)
        refine ⟨b1, (.str k, g) :: gs, by rw [b2]; simp, by simp [b3], ?_⟩
        intro i k' j' p hj hp
        cases i with
        | zero => cases hj; cases hp; exact ⟨rfl, hg⟩
        | succ i => exact b4 i k' j' p (by simpa using hj) (by simpa using hp)
    · cases h

theorem encEntries_get {U : Univ} {o : Options} {e : Ty} : ∀ {es : List (GV × GV)} {ms : List (Bytes × JVal)}, EncEntries U o e es ms →
    ms.length = es.length ∧ ∀ (i : Nat) p, es[i]? = some p → ∃ k j, p.1 = .str k ∧ ms[i]? = some (StrJson.escaped k false false, j) ∧
      Encodes U o Hint.none e p.2 j
  | [], _, he => by cases he; exact ⟨rfl, by simp⟩
  | p :: es, _, he => by
    cases he with
    | @cons _ _ k x _ j ms g1 g2 =>
      obtain ⟨a, b⟩ := encEntries_get g2
      refine ⟨by simp [a], ?_⟩
      intro i p' hp
      cases i with
      | zero => cases hp; exact ⟨k, j, rfl, rfl, g1⟩
      | succ i => exact b i p' (by simpa using hp)

theorem any_shape {j : JVal} {y : GV} (h : anyOf j = some y) : y = .nilIface ∨ (∃ b, j = .bool b ∧ y = .iface .bool (.bool b)) ∨
    (∃ raw f, j = .num raw ∧ NumJson.parseFloat raw = f ∧ y = .iface (.float .b64) (.float f)) ∨
    (∃ raw, j = .str raw ∧ y = .iface .string (.str (StrJson.unescaped raw))) ∨
    (∃ js gs, j = .arr js ∧ anyElems js = some gs ∧ y = .iface (.slice .any) (.slice gs gs.length)) ∨
    ∃ ms es, j = .obj ms ∧ anyMembers ms [] = some es ∧ y = .iface (.map .string .any) (.map es) := by
  cases j with
  | null => rw [anyOf] at h; cases h; exact .inl rfl
  | bool b => rw [anyOf] at h; cases h; exact .inr (.inl ⟨b, rfl, rfl⟩)
  | num raw =>
    rw [anyOf] at h
    refine .inr (.inr (.inl ⟨raw, _, rfl, rfl, ?_⟩))
    cases hp : NumJson.parseFloat raw with
    | nan => rw [hp] at h; cases h
    | num a b => rw [hp] at h; cases h; rfl
  | str raw => rw [anyOf] at h; cases h; exact .inr (.inr (.inr (.inl ⟨raw, rfl, rfl⟩)))
  | arr js =>
    rw [anyOf, Option.map_eq_some_iff] at h
    obtain ⟨gs, h1, rfl⟩ := h
    exact .inr (.inr (.inr (.inr (.inl ⟨js, gs, rfl, h1, rfl⟩))))
  | obj ms =>
    rw [anyOf, Option.map_eq_some_iff] at h
    obtain ⟨es, h1, rfl⟩ := h
    exact .inr (.inr (.inr (.inr (.inr ⟨ms, es, rfl, h1, rfl⟩))))

theorem any_conv {U : Univ} : ∀ (n : Nat) {o : Options} {h : Hint} {t : Ty} {v : GV} {j : JVal} {y : GV} {i : Nat}, sizeOf v ≤ n →
    U.base t = .iface 0 i → Encodes U o h t v j → anyOf j = some y → y.trim = v.trim → AnyBack U v := by
  intro n
  induction n with
  | zero => intro o h t v j y i hn; cases v <;> simp at hn
  | succ n ih =>
    intro o h t v j y i hn hb he hy hv
    cases he with
    | nilIface => exact .nil
    | ifacePtr _ _ g =>
      rename_i t' e x
      exfalso
      rw [GV.trim, GV.trim] at hv
      rcases any_shape hy with rfl | ⟨_, _, rfl⟩ | ⟨_, _, _, _, rfl⟩ | ⟨_, _, rfl⟩ | ⟨_, _, _, _, rfl⟩ | ⟨_, _, _, _, rfl⟩ <;>
        simp [GV.trim] at hv
    | @iface _ _ _ _ t' x _ _ hnp g =>
      rw [GV.trim] at hv
      rcases any_shape hy with rfl | ⟨b, rfl, rfl⟩ | ⟨raw, f, rfl, hf, rfl⟩ | ⟨raw, rfl, rfl⟩ | ⟨js, gs, rfl, hg, rfl⟩ | ⟨ms, es, rfl, hg, rfl⟩
      · rw [GV.trim] at hv
        · cases hv
        all_goals simp
      · cases x <;> simp [GV.trim] at hv
        obtain ⟨rfl, rfl⟩ := hv
        exact .bool
      · cases x <;> simp [GV.trim] at hv
        obtain ⟨rfl, rfl⟩ := hv
        cases g with
        | float => exact .float hf
        | inf _ h => cases h
        | nan _ h => cases h
      · cases x <;> simp [GV.trim] at hv
        obtain ⟨rfl, hs⟩ := hv
        cases g with
        | str _ => exact .str ((strText_iff (h := Hint.none) (by simp [Hint.none])).1 hs)
      · cases x with
        | slice arr len =>
          simp only [GV.trim, GV.iface.injEq, GV.slice.injEq] at hv
          obtain ⟨rfl, h1, h2⟩ := hv
          cases g with
          | slice hb' hes =>
            cases hb'
            obtain ⟨a, b⟩ := encElems_get hes
            obtain ⟨c, d⟩ := anyElems_get hg
            have hl : (arr.take len).length = len := by omega
            rw [List.take_of_length_le (by rw [trimL_map, List.length_map]), trimL_map, trimL_map, ← List.map_take] at h1
            refine .slice (by rw [List.length_take] at hl; omega) ?_
            intro x hx
            obtain ⟨k, hk⟩ := List.getElem?_of_mem hx
            have hkl : k < (arr.take len).length := by
              by_contra hc; rw [List.getElem?_eq_none (by omega)] at hk; cases hk
            have hkj : js[k]? = some js[k] := List.getElem?_eq_getElem (by omega)
            have hkg : gs[k]? = some gs[k] := List.getElem?_eq_getElem (by omega)
            have ht : gs[k].trim = x.trim := by
              have := congrArg (·[k]?) h1
              simp only [List.getElem?_map, hk, hkg, Option.map_some, Option.some.injEq] at this
              exact this
            have hs : sizeOf x < sizeOf arr := List.sizeOf_lt_of_mem (List.mem_of_mem_take hx)
            refine ih (i := 0) (t := .any) ?_ rfl (b k _ _ hkj hk) (d k _ _ hkj hkg) ht
            simp at hn; omega
        | _ => simp [GV.trim] at hv
      · cases x with
        | map es0 =>
          simp only [GV.trim, GV.iface.injEq, GV.map.injEq] at hv
          obtain ⟨rfl, h1⟩ := hv
          cases g with
          | map hb' hes =>
            cases hb'
            obtain ⟨a, b⟩ := encEntries_get hes
            have hlen : es.length = es0.length := by
              have := congrArg List.length h1
              simpa [trimM_map] using this
            obtain ⟨_, c⟩ := anyMembers_full hg
            obtain ⟨c1, gs, c2, c3, c4⟩ := c (by simp; omega) (by simp)
            rw [List.nil_append] at c2
            subst c2
            have hf : es.map Prod.fst = es0.map Prod.fst := by
              have := congrArg (List.map Prod.fst) h1
              rwa [trimM_fst, trimM_fst] at this
            have main : ∀ p ∈ es0, ∃ (k : Bytes) (j : JVal) (q : GV × GV), p.1 = .str k ∧ StrJson.escaped k false false = k ∧
                Encodes U defaultOptions Hint.none .any p.2 j ∧ anyOf j = some q.2 ∧ q.2.trim = p.2.trim := by
              intro p hp
              obtain ⟨i, hi⟩ := List.getElem?_of_mem hp
              have hil : i < es0.length := by
                by_contra hc; rw [List.getElem?_eq_none (by omega)] at hi; cases hi
              obtain ⟨k, j, k1, k2, k3⟩ := b i p hi
              have hq : es[i]? = some es[i] := List.getElem?_eq_getElem (by omega)
              obtain ⟨q1, q2⟩ := c4 i _ j _ k2 hq
              have h3 : es[i].1 = p.1 := by
                have := congrArg (·[i]?) hf
                simp only [List.getElem?_map, hi, hq, Option.map_some, Option.some.injEq] at this
                exact this
              have h4 : es[i].2.trim = p.2.trim := by
                have := congrArg (·[i]?) h1
                simp only [trimM_map, List.getElem?_map, hi, hq, Option.map_some, Option.some.injEq, Prod.mk.injEq] at this
                exact this.2
              refine ⟨k, j, es[i], k1, ?_, k3, q2, h4⟩
              rw [q1, k1] at h3
              simpa using h3
            refine .map ?_ (hf ▸ c1) ?_
            · intro p hp
              obtain ⟨k, _, _, k1, k2, _⟩ := main p hp
              exact ⟨k, k1, k2⟩
            · intro p hp
              obtain ⟨k, j, q, _, _, k3, k4, k5⟩ := main p hp
              have hs : sizeOf p < sizeOf es0 := List.sizeOf_lt_of_mem hp
              have hs' : sizeOf p.2 < sizeOf p := by obtain ⟨p1, p2⟩ := p; simp
              refine ih (i := 0) (t := .any) ?_ rfl k3 k4 k5
              simp at hn; omega
        | _ => simp [GV.trim] at hv
    | _ => simp_all

/-! ## Fields -/

theorem OneName.comp {U : Univ} {t t' : Ty} (h : OneName U t) (hc : Comp U t t') : OneName U t' := fun j cs h1 h2 => h j cs (hc.trans h1) h2

theorem cands_hint {U : Univ} {o : Options} (hT : U.PlainTags o) {fs : List Field} {i : Nat} {idx : List Int} {cs : List Cand} (h : Cands U o fs i idx cs) :
    (∃ j, ∀ f ∈ fs, f ∈ U.fields j) → ∀ c ∈ cs, c.hint.raw = true → c.hint.html = true := by
  induction h with
  | nil => simp
  | skip _ _ ih => rintro ⟨j, hj⟩; exact ih ⟨j, fun f hf => hj f (by simp [hf])⟩
  | @embed f fs i idx cs ds idx' j' _ _ _ _ _ ih1 ih2 =>
    rintro ⟨j, hj⟩ c hc
    rcases List.mem_append.1 hc with hc | hc
    · exact ih1 ⟨j', fun f hf => hf⟩ c hc
    · exact ih2 ⟨j, fun f hf => hj f (by simp [hf])⟩ c hc
  | @field f fs i idx cs idx' h1 _ _ _ ih =>
    rintro ⟨j, hj⟩ c hc
    rcases List.mem_cons.1 hc with rfl | hc
    · exact (hT j f (hj f (by simp)) h1).2
    · exact ih ⟨j, fun f hf => hj f (by simp [hf])⟩ c hc

theorem encFields_keys {U : Univ} {o : Options} {v : GV} : ∀ {cs : List Cand} {ms}, EncFields U o v cs ms → ∀ k ∈ ms.map Prod.fst, ∃ c ∈ cs, c.key = k
  | [], ms, h, k, hk => by cases h; simp at hk
  | c :: cs, ms, h, k, hk => by
    cases h with
    | absent h1 h2 => obtain ⟨d, h3, h4⟩ := encFields_keys h2 k hk; exact ⟨d, by simp [h3], h4⟩
    | omitted h1 h2 h3 => obtain ⟨d, h3, h4⟩ := encFields_keys h3 k hk; exact ⟨d, by simp [h3], h4⟩
    | present h1 h2 h3 h4 =>
      rw [List.map_cons, List.mem_cons] at hk
      rcases hk with rfl | hk
      · exact ⟨c, by simp, rfl⟩
      · obtain ⟨d, h3, h4⟩ := encFields_keys h4 k hk; exact ⟨d, by simp [h3], h4⟩

/-- What decoding members does not touch. -/
theorem decMembers_frame {U : Univ} {o : Options} {rs : List Cand} {q : List Int} : ∀ {ms : List (Bytes × JVal)} {w y : GV} {e : Option UErr},
    DecMembers U o rs ms w (.done y e) → (∀ k ∈ ms.map Prod.fst, ∀ c, rs.find? (fun d => d.key = k) = some c → IApart c.index q) →
    sub y q = sub w q
  | [], w, y, e, h, _ => by cases h; rfl
  | m :: ms, w, y, e, h, hq => by
    have hr : ∀ k ∈ ms.map Prod.fst, ∀ c, rs.find? (fun d => d.key = k) = some c → IApart c.index q := fun k hk => hq k (by
      rw [List.map_cons]; exact List.mem_cons_of_mem _ hk)
    cases h with
    | unknown _ h => exact decMembers_frame h hr
    | fail h1 _ _ => exact iapart_sub_put (hq _ (by simp) _ h1)
    | cons h1 _ _ h => rw [decMembers_frame h hr]; exact iapart_sub_put (hq _ (by simp) _ h1)
    | lostFail => rfl
    | lost _ _ _ h => exact decMembers_frame h hr

/-- Decoding members changes nothing but the fields. -/
theorem decMembers_clear {U : Univ} {o : Options} {rs : List Cand} (hp : rs.Pairwise fun a b => IApart a.index b.index) :
    ∀ {ms : List (Bytes × JVal)} {w y : GV} {e : Option UErr}, DecMembers U o rs ms w (.done y e) → clear U rs y = clear U rs w
  | [], w, y, e, h => by cases h; rfl
  | m :: ms, w, y, e, h => by
    cases h with
    | unknown _ h => exact decMembers_clear hp h
    | fail h1 _ _ => exact clear_put_mem hp (List.mem_of_find?_eq_some h1)
    | cons h1 _ _ h => rw [decMembers_clear hp h]; exact clear_put_mem hp (List.mem_of_find?_eq_some h1)
    | lostFail => rfl
    | lost _ _ _ h => exact decMembers_clear hp h

theorem fields_back {U : Univ} (hU : U.Ok) {rs : List Cand} {v : GV} : ∀ {ds : List Cand} {ms : List (Bytes × JVal)} {w : GV}, EncFields U defaultOptions v ds ms →
    ds.Pairwise (fun a b => IApart a.index b.index) → (∀ c ∈ ds, rs.find? (fun k => k.key = c.key) = some c) →
    (∀ c ∈ ds, ∀ x, sub v c.index = some x → sub w c.index = some (U.zero c.typ)) →
    (∀ c ∈ ds, ∀ x j, sub v c.index = some x → Omits U defaultOptions c x false → Encodes U defaultOptions c.hint c.typ x j →
      Decodes U decodeOptions c.typ (U.zero c.typ) j (.done x.trim none)) →
    (∀ c ∈ ds, ∀ x, sub v c.index = some x → Omits U defaultOptions c x true → x = U.zero c.typ) →
    DecMembers U decodeOptions rs ms w (.done (fill v.trim ds w) none)
  | [], ms, w, he, _, _, _, _, _ => by cases he; exact .nil
  | c :: ds, ms, w, he, hp, hf, hw, hk, ho => by
    rw [List.pairwise_cons] at hp
    have hf' : ∀ d ∈ ds, rs.find? (fun k => k.key = d.key) = some d := fun d hd => hf d (by simp [hd])
    have hk' : ∀ d ∈ ds, _ := fun d hd => hk d (by simp [hd])
    have ho' : ∀ d ∈ ds, _ := fun d hd => ho d (by simp [hd])
    have hw' : ∀ d ∈ ds, _ := fun d hd => hw d (by simp [hd])
    cases he with
    | absent h1 h2 =>
      rw [fill_none (by rw [trim_sub, h1]; rfl)]
      exact fields_back hU h2 hp.2 hf' hw' hk' ho'
    | @omitted _ _ _ _ _ x h1 h2 h3 =>
      have hx := ho c (by simp) x h1 h2
      rw [fill_some (x := U.zero c.typ) (by rw [trim_sub, h1, Option.map_some, hx, trim_zero hU]), put_self _ _ _ (hw c (by simp) x h1)]
      exact fields_back hU h3 hp.2 hf' hw' hk' ho'
    | @present _ _ _ _ _ x j h1 h2 h3 h4 =>
      rw [fill_some (x := x.trim) (by rw [trim_sub, h1]; rfl)]
      refine .cons (hf c (by simp)) (hw c (by simp) x h1) (hk c (by simp) x j h1 h2 h3) ?_
      refine fields_back hU h4 hp.2 hf' ?_ hk' ho'
      intro d hd z hz
      rw [iapart_sub_put (hp.1 d hd)]
      exact hw d (by simp [hd]) z hz

theorem resolve_apart {U : Univ} (hU : U.Ok) (hE : U.EmbedsStructs) {o : Options} {j : Nat} {cs : List Cand} (h : Cands U o (U.fields j) 0 [] cs) :
    (resolve [] cs).Pairwise fun a b => IApart a.index b.index := by
  have := cands_apart hU hE h (j0 := j) (pre := []) rfl rfl
  have hs := resolve_sublist cs []
  rw [List.nil_append] at hs
  exact this.sublist hs

/-! ## Values -/

theorem comesBack_null {U : Univ} {h : Hint} {t : Ty} {v : GV} (hs : ComesBack U h t v) :
    ∀ {j}, Encodes U defaultOptions h t v j → j = .null → v = .nilPtr ∨ v = .nilMap ∨ v = .nilIface := by
  induction hs with
  | nilPtr => intros; exact .inl rfl
  | nilMap => intros; exact .inr (.inl rfl)
  | any hv =>
    intro j he hj
    subst hj
    cases hv with
    | nil => exact .inr (.inr rfl)
    | _ => cases he with
      | iface _ _ g => cases g
  | ptr hb h1 h2 h3 _ ih =>
    intro j he hj
    cases he with
    | ptr g1 g2 =>
      rw [hb] at g1; cases g1
      rcases ih g2 hj with h | h | h
      · exact absurd h h1
      · exact absurd h h2
      · exact absurd h h3
  | _ => intro j he hj; subst hj; cases he

theorem comesBack_decodes {U : Univ} (hU : U.Ok) (hE : U.EmbedsStructs) (hT : U.PlainTags defaultOptions) {h : Hint} {t : Ty} {v : GV}
    (hs : ComesBack U h t v) : OneName U t → (h.raw = true → h.html = true) →
    ∀ {j}, Encodes U defaultOptions h t v j → Decodes U decodeOptions t (U.zero t) j (.done v.trim none) := by
  induction hs with
  | bool hb =>
    intro hD hh j he
    cases he with
    | bool => rw [zero_base hU, hb]; exact .bool hb
  | @int h t k i hb h1 h2 h3 =>
    intro hD hh j he
    have := bits_le k
    cases he with
    | int =>
      rw [zero_base hU, hb]
      have := Decodes.int (U := U) (o := decodeOptions) (x := 0) hb ((readInt_iff (by omega) (by omega)).2 h3)
      rwa [wrapInt_id h1 h2] at this
  | @uint h t k n hb h1 h2 =>
    intro hD hh j he
    have := bits_le k
    cases he with
    | uint =>
      rw [zero_base hU, hb]
      have := Decodes.uint (U := U) (o := decodeOptions) (x := 0) hb ((readUint_iff (by omega)).2 h2)
      rwa [wrapUint, Nat.mod_eq_of_lt h1] at this
  | @float h t k neg m e f hb h2 h3 =>
    intro hD hh j he
    cases he with
    | float =>
      rw [zero_base hU, hb]
      have := Decodes.float (U := U) (o := decodeOptions) (x := .num false (.fin 0 f64.emin)) hb h2
      rwa [h3] at this
  | @str h t s hb h2 =>
    intro hD hh j he
    cases he with
    | str =>
      rw [zero_base hU, hb]
      have := Decodes.str (U := U) (o := decodeOptions) (x := []) (raw := strText h s) hb
      rwa [(strText_iff hh).2 h2] at this
  | @nilPtr h t e hb =>
    intro hD hh j he
    cases he with
    | nilPtr =>
      have : U.zero t = .nilPtr := by rw [zero_base hU, hb]; rfl
      have hd := Decodes.null (U := U) (o := decodeOptions) (t := t) (v := U.zero t) (by rw [hb]; trivial)
      rw [this] at hd ⊢; exact hd
  | @ptr h t e v hb h1 h2 h3 hs ih =>
    intro hD hh j he
    cases he with
    | ptr g1 g2 =>
      rw [hb] at g1; cases g1
      rw [zero_base hU, hb]
      refine Decodes.ptrNew hb ?_ (ih (hD.comp (.ptr hb .refl)) hh g2)
      rintro rfl
      rcases comesBack_null hs g2 rfl with h | h | h
      · exact absurd h h1
      · exact absurd h h2
      · exact absurd h h3
  | @slice h t e arr len hb hl hx ih =>
    intro hD hh j he
    cases he with
    | slice g1 g2 =>
      rename_i js
      rw [hb] at g1; cases g1
      rw [zero_base hU, hb]
      obtain ⟨a, b⟩ := encElems_get g2
      have hlen : (arr.take len).length = len := by simp [hl]
      rw [hlen] at a
      have := (decElems_all (U := U) (o := decodeOptions) (e := e) (js := js) (xs := trimL (arr.take len)) (zs := List.replicate js.length (U.zero e))
        (by rw [trimL_map, List.length_map, hlen, a]) (by rw [trimL_map, List.length_map, hlen, List.length_replicate, a]) (by
          intro i j x z hj hx' hz
          rw [trimL_map, List.getElem?_map, Option.map_eq_some_iff] at hx'
          obtain ⟨x', hx', rfl⟩ := hx'
          have hz := List.eq_of_mem_replicate (List.mem_of_getElem? hz)
          subst hz
          exact ih x' (List.mem_of_getElem? hx') (hD.comp (.slice hb .refl)) hh (b i j x' hj hx'))).1
      have := Decodes.nilSlice hb this
      rw [trimL_map, List.length_map, hlen] at this
      rw [GV.trim, trimL_map, ← List.map_take]
      exact this
  | @array h t n e xs hb hl hx ih =>
    intro hD hh j he
    cases he with
    | array g1 g2 =>
      rename_i js
      rw [hb] at g1; cases g1
      rw [zero_base hU, hb]
      obtain ⟨a, b⟩ := encElems_get g2
      have := (decElems_all (U := U) (o := decodeOptions) (e := e) (js := js) (xs := trimL xs) (zs := List.replicate n (U.zero e))
        (by rw [trimL_map, List.length_map, a]) (by rw [trimL_map, List.length_map, List.length_replicate, hl]) (by
          intro i j x z hj hx' hz
          rw [trimL_map, List.getElem?_map, Option.map_eq_some_iff] at hx'
          obtain ⟨x', hx', rfl⟩ := hx'
          have hz := List.eq_of_mem_replicate (List.mem_of_getElem? hz)
          subst hz
          exact ih x' (List.mem_of_getElem? hx') (hD.comp (.array hb .refl)) hh (b i j x' hj hx'))).2
      exact Decodes.array hb this
  | @nilMap h t k e hb =>
    intro hD hh j he
    cases he with
    | nilMap =>
      have : U.zero t = .nilMap := by rw [zero_base hU, hb]; rfl
      rw [this]; exact .mapNull hb
  | any hv => intro hD hh j he; exact .any (anyBack_back hv he)
  | @struct h t j fs cs hb hc hk ho hz ih =>
    intro hD hh jv he
    cases he with
    | @struct _ _ _ j' cs' _ ms g1 g2 g3 =>
      rw [hb] at g1; cases g1
      have := cands_unique hc g2
      subst this
      have hap := resolve_apart hU hE hc
      have hint := cands_hint hT hc ⟨j, fun f hf => hf⟩
      have hmem : ∀ c ∈ resolve [] cs, c ∈ cs := fun c hc => by
        have hs := resolve_sublist cs []
        rw [List.nil_append] at hs
        exact hs.subset hc
      refine .struct hb (cands_decode hc) ?_
      have := fields_back hU (rs := resolve [] cs) (w := U.zero t) g3 hap (find_nodup (hD j cs (by rw [base_struct hU hb]; exact .refl) hc)) (fun c hm x hx => by
        rw [← hz]; exact clear_sub_mem hap hm hx) (fun c hm x jc hx hom hen => ih c hm x hx hom (hD.comp (path_comp (cands_path0 hE hb hc c hm))) (hint c (hmem c hm)) hen) ho
      rwa [← trim_zero hU t, ← hz, clear_trim hU, fill_clear hap, ← clear_trim hU, hz, trim_zero hU] at this

end Verif.Unjson
