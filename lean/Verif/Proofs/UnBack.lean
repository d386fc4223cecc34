import Verif.Proofs.UnConv

/-! # Exactly the values that come back: what comes back is in the class -/

namespace Verif.Unjson
open Verif Verif.Float Verif.Spec Verif.Njson Verif.Gen

theorem zero_read {U : Univ} (hz : U.ZeroText) : readFloat U (floatText U (.num false (.fin 0 f64.emin))) ≠ none := by
  have hf : NumJson.fmtByte (.num false (.fin 0 f64.emin)) 32 = 102 := by decide +kernel
  have : floatText U (.num false (.fin 0 f64.emin)) = b!"0" := by
    unfold floatText NumJson.appendFloat
    simp only [hf]
    rw [hz]; rfl
  have hp : NumJson.parseFloat b!"0" ≠ .nan := by decide +kernel
  rw [this, readFloat]
  split
  · exact absurd (by assumption) hp
  · simp

theorem decElems_inv {U : Univ} {o : Options} : ∀ {t : Ty} {js : List JVal} {xs ys : List GV} {n : Nat}, DecElems U o t js xs (some (ys, n)) →
    ys.length = xs.length ∧ n ≤ js.length ∧ (n = js.length → ∀ (i : Nat) j x, js[i]? = some j → xs[i]? = some x →
      ∃ y, ys[i]? = some y ∧ Decodes U o t x j (.done y none))
  | _, [], xs, ys, n, h => by cases h; exact ⟨rfl, by simp, by simp⟩
  | t, j :: js, xs, ys, n, h => by
    generalize hr : some (ys, n) = r at h
    cases h with
    | stop h1 => cases hr; exact ⟨rfl, by simp, by simp⟩
    | panic => cases hr
    | @cons _ _ _ x arr y r h1 h2 =>
      cases r with
      | none => cases hr
      | some r =>
        cases hr
        obtain ⟨a, c, b⟩ := decElems_inv (ys := r.1) (n := r.2) h2
        refine ⟨by simp [a], by simp [c], fun hn i j' x' hj hx => ?_⟩
        cases i with
        | zero => cases hj; cases hx; exact ⟨y, rfl, h1⟩
        | succ i => exact b (by simpa using hn) i j' x' (by simpa using hj) (by simpa using hx)

theorem decArr_inv {U : Univ} {o : Options} : ∀ {t : Ty} {js : List JVal} {xs ys : List GV}, DecArr U o t js xs (some ys) →
    ys.length = xs.length ∧ ∀ (i : Nat) j x, js[i]? = some j → xs[i]? = some x → ∃ y e, ys[i]? = some y ∧ Decodes U o t x j (.done y e)
  | _, js, [], ys, h => by cases h; exact ⟨rfl, by simp⟩
  | t, js, x :: xs, ys, h => by
    generalize hr : some ys = r at h
    cases h with
    | rest => cases hr; exact ⟨by simp, by simp⟩
    | panic => cases hr
    | @cons _ j js _ _ y e r h1 h2 =>
      cases r with
      | none => cases hr
      | some r =>
        cases hr
        obtain ⟨a, b⟩ := decArr_inv h2
        refine ⟨by simp [a], fun i j' x' hj hx => ?_⟩
        cases i with
        | zero => cases hj; cases hx; exact ⟨y, e, rfl, h1⟩
        | succ i => exact b i j' x' (by simpa using hj) (by simpa using hx)

theorem decEntries_nil {U : Univ} {o : Options} {k t : Ty} {ms : List (Bytes × JVal)} {y : GV} {e : Option UErr}
    (h : DecEntries U o k t ms .nilMap (.done y e)) : y = .nilMap := by cases h <;> rfl

theorem small_repr {n : Nat} (h : n ≤ 2 ^ 53) : Repr64 n := Props.nat_isFloat h

theorem int_back {k : IKind} {i i' : Int} (hr : readInt (formatInt i) = some i') (hw : wrapInt k i' = i) :
    -(2 ^ (k.bits - 1) : Int) ≤ i ∧ i < 2 ^ (k.bits - 1) ∧ (Repr64 i.natAbs ∨ 2 ^ 63 - 512 ≤ i) := by
  have hk := bits_le k
  obtain ⟨h1, h2⟩ := wrapInt_range k i'
  rw [hw] at h1 h2
  refine ⟨h1, h2, ?_⟩
  by_cases hb : k.bits = 64
  · have ha := Props.readInt_arrives (formatInt_decimal i)
    rw [hr] at ha
    have hi : -2 ^ 63 ≤ i' ∧ i' < 2 ^ 63 := by cases ha <;> exact ⟨by assumption, by assumption⟩
    rw [wrapInt_id (by rw [hb]; exact hi.1) (by rw [hb]; exact hi.2)] at hw
    subst hw
    exact (readInt_iff hi.1 hi.2).1 hr
  · refine .inl (small_repr ?_)
    cases k <;> simp [IKind.bits] at h1 h2 hb <;> omega

theorem uint_back {k : IKind} {n n' : Nat} (hr : readUint (formatUint n) = some n') (hw : wrapUint k n' = n) :
    n < 2 ^ k.bits ∧ (Repr64 n ∨ 2 ^ 64 - 1024 ≤ n) := by
  have h2 := wrapUint_range k n'
  rw [hw] at h2
  refine ⟨h2, ?_⟩
  by_cases hb : k.bits = 64
  · have ha := Props.readUint_arrives (formatUint_decimal n)
    rw [hr, Option.map_some] at ha
    generalize hm : Int.ofNat n' = m at ha
    simp only [Int.ofNat_eq_natCast] at hm
    have hi : n' < 2 ^ 64 := by cases ha <;> omega
    rw [wrapUint, hb, Nat.mod_eq_of_lt hi] at hw
    subst hw
    exact (readUint_iff hi).1 hr
  · refine .inl (small_repr ?_)
    cases k <;> simp [IKind.bits] at h2 hb <;> omega

theorem trimL_getElem {xs ys : List GV} (h : trimL xs = trimL ys) : xs.length = ys.length ∧ ∀ (i : Nat) x y, xs[i]? = some x → ys[i]? = some y → x.trim = y.trim := by
  rw [trimL_map, trimL_map] at h
  refine ⟨by simpa using congrArg List.length h, fun i x y hx hy => ?_⟩
  have := congrArg (fun l => l[i]?) h
  simpa [hx, hy] using this

theorem not_null {U : Univ} {o : Options} {h : Hint} {t : Ty} {v : GV} {j : JVal} (he : Encodes U o h t v j) (hj : j ≠ .null) :
    v ≠ .nilPtr ∧ v ≠ .nilMap ∧ v ≠ .nilIface := by
  refine ⟨?_, ?_, ?_⟩ <;> (rintro rfl; cases he; exact hj rfl)

theorem iface_conv {U : Univ} (hU : U.Ok) {h : Hint} {t : Ty} {i : Nat} {v : GV} {j : JVal} {o : Options} (hb : U.base t = .iface 0 i)
    (he : Encodes U o h t v j) {h' : Hint} {y : GV} {e : Option UErr} (hd : Decodes U decodeOptions t (U.zero t) j (.done y e)) (hy : y.trim = v.trim) :
    e = none ∧ ComesBack U h' t v := by
  cases ha : anyOf j with
  | none =>
    cases decodes_unique hd _ (.anyErr hb ha)
    rw [trim_zero hU, zero_base hU, hb] at hy
    have hv : v = .nilIface := by
      cases v <;> simp only [GV.trim, Univ.zero] at hy <;> first | rfl | cases hy
    subst hv
    cases he
    cases ha
  | some x =>
    by_cases ht : t = .any
    · subst ht
      cases decodes_unique hd _ (.any ha)
      exact ⟨rfl, .any (any_conv _ (Nat.le_refl _) hb he ha hy)⟩
    · cases decodes_unique hd _ (.anyPanic hb ht ha)

theorem conv {U : Univ} (hU : U.Ok) (hE : U.EmbedsStructs) (hT : U.PlainTags defaultOptions) (hZ : U.ZeroText)
    {o : Options} {h : Hint} {t : Ty} {v : GV} {j : JVal} (he : Encodes U o h t v j) : o = defaultOptions → OneName U t → (h.raw = true → h.html = true) →
    ∀ {y e}, Decodes U decodeOptions t (U.zero t) j (.done y e) → y.trim = v.trim → e = none ∧ ComesBack U h t v := by
  refine Encodes.rec
    (motive_1 := fun o h t v j _ => o = defaultOptions → OneName U t → (h.raw = true → h.html = true) →
      ∀ {y e}, Decodes U decodeOptions t (U.zero t) j (.done y e) → y.trim = v.trim → e = none ∧ ComesBack U h t v)
    (motive_2 := fun o h t xs js _ => o = defaultOptions → OneName U t → (h.raw = true → h.html = true) → ∀ (i : Nat) j x, js[i]? = some j → xs[i]? = some x →
      ∀ {y e}, Decodes U decodeOptions t (U.zero t) j (.done y e) → y.trim = x.trim → e = none ∧ ComesBack U h t x)
    (motive_3 := fun _ _ _ _ _ => True)
    (motive_4 := fun o v ds ms _ => o = defaultOptions → (∀ c ∈ ds, OneName U c.typ) → ∀ {rs w y e}, ds.Pairwise (fun a b => IApart a.index b.index) →
      (∀ c ∈ ds, rs.find? (fun k => k.key = c.key) = some c) → (∀ c ∈ ds, c.hint.raw = true → c.hint.html = true) →
      (∀ c ∈ ds, ∀ x, sub w c.index = some x → x = U.zero c.typ) → DecMembers U decodeOptions rs ms w (.done y e) → y.trim = v.trim →
      e = none ∧ ∀ c ∈ ds, ∀ x, sub v c.index = some x →
        (Omits U defaultOptions c x false → ComesBack U c.hint c.typ x) ∧ (Omits U defaultOptions c x true → x = U.zero c.typ))
    ?bool ?int ?uint ?float ?inf ?nan ?str ?nilPtr ?ptr ?nilSlice ?slice ?array ?nilMap ?map ?nilIface ?iface ?ifacePtr ?struct
    ?enil ?econs ?mnil ?mcons ?fnil ?fabsent ?fomitted ?fpresent he
  case bool =>
    intro o h t b hb ho hD hh y e hd hy
    rw [zero_base hU, hb] at hd
    cases decodes_unique hd _ (.bool hb)
    exact ⟨rfl, .bool hb⟩
  case int =>
    intro o h t k i hb ho hD hh y e hd hy
    rw [zero_base hU, hb] at hd
    cases hr : readInt (formatInt i) with
    | none =>
      cases decodes_unique hd _ (.intErr hb hr)
      have hy : (0 : Int) = i := by simpa [GV.trim] using hy
      subst hy
      rw [(readInt_iff (by norm_num) (by norm_num)).2 (.inl (small_repr (by simp)))] at hr
      cases hr
    | some i' =>
      cases decodes_unique hd _ (.int hb hr)
      obtain ⟨a, b, c⟩ := int_back hr (by simpa [GV.trim] using hy)
      exact ⟨rfl, .int hb a b c⟩
  case uint =>
    intro o h t k n hb ho hD hh y e hd hy
    rw [zero_base hU, hb] at hd
    cases hr : readUint (formatUint n) with
    | none =>
      cases decodes_unique hd _ (.uintErr hb hr)
      have hy : 0 = n := by simpa [GV.trim] using hy
      subst hy
      rw [(readUint_iff (by norm_num)).2 (.inl (small_repr (by simp)))] at hr
      cases hr
    | some i' =>
      cases decodes_unique hd _ (.uint hb hr)
      obtain ⟨a, b⟩ := uint_back hr (by simpa [GV.trim] using hy)
      exact ⟨rfl, .uint hb a b⟩
  case float =>
    intro o h t k neg m ex hb ho hD hh y e hd hy
    rw [zero_base hU, hb] at hd
    cases hr : readFloat U (floatText U (.num neg (.fin m ex))) with
    | none =>
      cases decodes_unique hd _ (.floatErr hb hr)
      have hy : Flt.num false (.fin 0 f64.emin) = .num neg (.fin m ex) := by simpa [GV.trim] using hy
      rw [← hy] at hr
      exact absurd hr (zero_read hZ)
    | some f =>
      cases decodes_unique hd _ (.float hb hr)
      exact ⟨rfl, .float hb hr (by simpa [GV.trim] using hy)⟩
  case inf => intro o h t k neg hb hi ho; subst ho; cases hi
  case nan => intro o h t k hb hi ho; subst ho; cases hi
  case str =>
    intro o h t s hb ho hD hh y e hd hy
    rw [zero_base hU, hb] at hd
    cases decodes_unique hd _ (.str hb)
    exact ⟨rfl, .str hb ((strText_iff hh).1 (by simpa [GV.trim] using hy))⟩
  case nilPtr =>
    intro o h t el hb ho hD hh y e hd hy
    cases decodes_unique hd _ (.null (by rw [hb]; trivial))
    exact ⟨rfl, .nilPtr hb⟩
  case ptr =>
    intro o h t el v j hb he ih ho hD hh y e hd hy
    have hd' := hd
    rw [zero_base hU, hb] at hd
    by_cases hj : j = .null
    · subst hj
      cases decodes_unique hd' _ (.null (by rw [hb]; trivial))
      rw [trim_zero hU, zero_base hU, hb] at hy
      cases hy
    · generalize hr : Out.done y e = r at hd
      generalize hz : U.zero (.ptr el) = z at hd
      cases hd with
      | ptrNew g1 g2 g3 =>
        rename_i el' r'
        rw [hb] at g1; cases g1
        cases r' with
        | panic => cases hr
        | done y' e' =>
          cases hr
          obtain ⟨a, b⟩ := ih ho (hD.comp (.ptr hb .refl)) hh g3 (by simpa [GV.trim] using hy)
          obtain ⟨n1, n2, n3⟩ := not_null he hj
          exact ⟨a, .ptr hb n1 n2 n3 b⟩
      | ptr => cases hz
      | mismatch g1 => rw [hb] at g1; cases g1
      | null => exact absurd rfl hj
      | any => cases hb
      | _ => simp_all
  case nilSlice =>
    intro o h t el hb ho hD hh y e hd hy
    rw [zero_base hU, hb] at hd
    cases decodes_unique hd _ (.nilSlice (r := some ([], 0)) hb .nil)
    cases hy
  case slice =>
    intro o h t el arr len js hb he ih ho hD hh y e hd hy
    rw [zero_base hU, hb] at hd
    generalize hr : Out.done y e = r at hd
    generalize hz : U.zero (.slice el) = z at hd
    cases hd with
    | nilSlice g1 g2 =>
      rename_i el' r'
      rw [hb] at g1; cases g1
      cases r' with
      | none => cases hr
      | some p =>
        obtain ⟨ys, n⟩ := p
        cases hr
        obtain ⟨a, c, b⟩ := decElems_inv g2
        have hlen := (encElems_get he).1
        rw [GV.trim, GV.trim, GV.slice.injEq] at hy
        obtain ⟨h1, rfl⟩ := hy
        have hl : n ≤ arr.length := by
          simp at hlen
          omega
        have hn : n = js.length := by rw [hlen]; simp [hl]
        have h1 : trimL (ys.take n) = trimL (arr.take n) := by
          rw [trimL_map, trimL_map] at h1 ⊢; rw [List.map_take, List.map_take]; exact h1
        obtain ⟨h2, h3⟩ := trimL_getElem h1
        refine ⟨rfl, .slice hb hl fun x hx => ?_⟩
        obtain ⟨i, hi⟩ := List.mem_iff_getElem?.1 hx
        have hin : i < n := by
          have := (List.getElem?_eq_some_iff.1 hi).1
          simp at this; omega
        have hj : js[i]? = some js[i] := List.getElem?_eq_getElem (by omega)
        obtain ⟨y, hy, hdy⟩ := b hn i _ (U.zero el) hj (by rw [List.getElem?_replicate, if_pos (by omega)])
        exact (ih ho (hD.comp (.slice hb .refl)) hh i _ x hj hi hdy (h3 i y x (by rw [List.getElem?_take, if_pos hin, hy]) hi)).2
    | mismatch g1 g2 g3 => exact absurd rfl ((no_mismatch g1 g3).2.2.2.2.2.2.1 _ hb _)
    | slice => cases hz
    | sliceGrow => cases hz
    | any => cases hb
    | _ => simp_all
  case array =>
    intro o h t n el xs js hb he ih ho hD hh y e hd hy
    rw [zero_base hU, hb] at hd
    generalize hr : Out.done y e = r at hd
    generalize hz : U.zero (.array n el) = z at hd
    cases hd with
    | array g1 g2 =>
      rename_i n' el' zs r'
      rw [hb] at g1; cases g1
      cases hz
      cases r' with
      | none => cases hr
      | some ys =>
        cases hr
        obtain ⟨a, b⟩ := decArr_inv g2
        have hlen := (encElems_get he).1
        rw [GV.trim, GV.trim, GV.array.injEq] at hy
        obtain ⟨h2, h3⟩ := trimL_getElem hy
        have hl : xs.length = n := by rw [← h2, a]; simp
        refine ⟨rfl, .array hb hl fun x hx => ?_⟩
        obtain ⟨i, hi⟩ := List.mem_iff_getElem?.1 hx
        have hin : i < n := by
          have := (List.getElem?_eq_some_iff.1 hi).1
          omega
        have hj : js[i]? = some js[i] := List.getElem?_eq_getElem (by omega)
        obtain ⟨y, e, hy, hdy⟩ := b i _ (U.zero el) hj (by rw [List.getElem?_replicate, if_pos (by omega)])
        exact (ih ho (hD.comp (.array hb .refl)) hh i _ x hj hi hdy (h3 i y x hy hi)).2
    | mismatch g1 g2 g3 => exact absurd rfl ((no_mismatch g1 g3).2.2.2.2.2.2.2.1 _ _ hb _)
    | any => cases hb
    | _ => simp_all
  case nilMap =>
    intro o h t k el hb ho hD hh y e hd hy
    cases decodes_unique hd _ (.mapNull hb)
    exact ⟨rfl, .nilMap hb⟩
  case map =>
    intro o h t k el es ms hb he _ ho hD hh y e hd hy
    rw [zero_base hU, hb] at hd
    generalize hr : Out.done y e = r at hd
    generalize hz : U.zero (.map k el) = z at hd
    cases hd with
    | map g1 g2 =>
      rw [hb] at g1; cases g1
      cases hz
      subst hr
      rw [decEntries_nil g2] at hy
      cases hy
    | mismatch g1 g2 g3 => exact absurd rfl ((no_mismatch g1 g3).2.2.2.2.2.2.2.2.1 _ _ hb _)
    | any => cases hb
    | _ => simp_all
  case nilIface => intro o h t i hb ho hD hh y e hd hy; exact iface_conv hU hb (.nilIface (o := o) (h := h) hb) hd hy
  case iface => intro o h t i t' v j hb h1 he _ ho hD hh y e hd hy; exact iface_conv hU hb (.iface (o := o) (h := h) hb h1 he) hd hy
  case ifacePtr => intro o h t i t' e' v j hb h1 he _ ho hD hh y e hd hy; exact iface_conv hU hb (.ifacePtr (o := o) (h := h) hb h1 he) hd hy
  case struct =>
    intro o h t j cs fs ms hb hc he ih ho hD hh y e hd hy
    subst ho
    generalize hr : Out.done y e = r at hd
    generalize hz : U.zero t = z at hd
    cases hd with
    | struct g1 g2 g3 =>
      rw [hb] at g1; cases g1
      cases cands_unique (cands_decode hc) g2
      subst hr
      have hap := resolve_apart hU hE hc
      have hint := cands_hint hT hc ⟨j, fun f hf => hf⟩
      have hmem : ∀ c ∈ resolve [] cs, c ∈ cs := fun c hc => by
        have hs := resolve_sublist cs []
        rw [List.nil_append] at hs
        exact hs.subset hc
      have hz0 : ∀ c ∈ resolve [] cs, ∀ x, sub z c.index = some x → x = U.zero c.typ := fun c hm x hx => by
        rw [← hz] at hx; exact sub_zero hU (cands_path0 hE hb hc c hm) hx
      obtain ⟨a, b⟩ := ih rfl (fun c hm => hD.comp (path_comp (cands_path0 hE hb hc c hm))) hap (find_nodup (hD j cs (by rw [base_struct hU hb]; exact .refl) hc)) (fun c hm => hint c (hmem c hm)) hz0 g3 hy
      refine ⟨a, .struct hb hc (fun c hm x hx ho => (b c hm x hx).1 ho) (fun c hm x hx ho => (b c hm x hx).2 ho) ?_⟩
      apply trim_eq_zero hU
      rw [clear_trim hU, ← hy, ← clear_trim hU, decMembers_clear hap g3, clear_same hz0, ← hz, trim_zero hU]
    | mismatch g1 g2 g3 => exact absurd rfl ((no_mismatch g1 g3).2.2.2.2.2.2.2.2.2.1 _ hb _)
    | any => cases hb
    | _ => simp_all
  case enil => intro o h t _ _ _ i j x hj; simp at hj
  case econs =>
    intro o h t x xs j js _ _ ih1 ih2 ho hD hh i j' x' hj hx
    cases i with
    | zero => cases hj; cases hx; exact ih1 ho hD hh
    | succ i => exact ih2 ho hD hh i j' x' (by simpa using hj) (by simpa using hx)
  case mnil => intros; trivial
  case mcons => intros; trivial
  case fnil =>
    intro o v _ _ rs w y e _ _ _ _ hd hy
    cases hd
    exact ⟨rfl, by simp⟩
  case fabsent =>
    intro o v c cs ms h1 _ ih ho hD rs w y e hp hf hh hw hd hy
    rw [List.pairwise_cons] at hp
    obtain ⟨a, b⟩ := ih ho (fun d hd => hD d (by simp [hd])) hp.2 (fun d hd => hf d (by simp [hd])) (fun d hd => hh d (by simp [hd])) (fun d hd => hw d (by simp [hd])) hd hy
    refine ⟨a, fun d hd x hx => ?_⟩
    rcases List.mem_cons.1 hd with rfl | hd
    · rw [h1] at hx; cases hx
    · exact b d hd x hx
  case fomitted =>
    intro o v c cs ms x h1 h2 he ih ho hD rs w y e hp hf hh hw hd hy
    subst ho
    rw [List.pairwise_cons] at hp
    obtain ⟨a, b⟩ := ih rfl (fun d hd => hD d (by simp [hd])) hp.2 (fun d hd => hf d (by simp [hd])) (fun d hd => hh d (by simp [hd])) (fun d hd => hw d (by simp [hd])) hd hy
    refine ⟨a, fun d hd' x' hx => ?_⟩
    rcases List.mem_cons.1 hd' with rfl | hd'
    · rw [h1] at hx; cases hx
      refine ⟨fun h => (by cases omits_unique h2 h), fun _ => ?_⟩
      have hfr : sub y d.index = sub w d.index := decMembers_frame hd fun k hk c hc => by
        obtain ⟨d', hd', rfl⟩ := encFields_keys he k hk
        rw [hf d' (by simp [hd'])] at hc
        cases hc
        exact (hp.1 _ hd').symm
      have hs := trim_sub d.index y
      rw [hy, trim_sub, h1, hfr] at hs
      cases hw' : sub w d.index with
      | none => rw [hw'] at hs; cases hs
      | some z =>
        rw [hw', hw d (by simp) z hw', Option.map_some, Option.map_some, trim_zero hU] at hs
        exact trim_eq_zero hU (Option.some.inj hs)
    · exact b d hd' x' hx
  case fpresent =>
    intro o v c cs ms x j h1 h2 _ he ih1 ih ho hD rs w y e hp hf hh hw hd hy
    subst ho
    rw [List.pairwise_cons] at hp
    have hap : ∀ k ∈ ms.map Prod.fst, ∀ d, rs.find? (fun d => d.key = k) = some d → IApart d.index c.index := fun k hk d hc => by
      obtain ⟨d', hd', rfl⟩ := encFields_keys he k hk
      rw [hf d' (by simp [hd'])] at hc
      cases hc
      exact (hp.1 _ hd').symm
    have hs := trim_sub c.index y
    rw [hy, trim_sub, h1] at hs
    have hw2 : ∀ {u}, ∀ d ∈ cs, ∀ x, sub (put u w c.index) d.index = some x → x = U.zero d.typ := fun {u} d hd x hx => by
      rw [iapart_sub_put (hp.1 d hd)] at hx
      exact hw d (by simp [hd]) x hx
    cases hd with
    | unknown g => rw [hf c (by simp)] at g; cases g
    | @fail _ _ _ _ _ c' x' y' e' g1 g2 g3 =>
      rw [hf c (by simp)] at g1; cases g1
      rw [sub_put_self g2] at hs
      rw [hw c (by simp) _ g2] at g3
      cases (ih1 rfl (hD c (by simp)) (hh c (by simp)) g3 (Option.some.inj hs).symm).1
    | @cons _ _ _ _ _ c' x' y' _ g1 g2 g3 g4 =>
      rw [hf c (by simp)] at g1; cases g1
      rw [decMembers_frame g4 hap, sub_put_self g2] at hs
      rw [hw c (by simp) _ g2] at g3
      have hb := (ih1 rfl (hD c (by simp)) (hh c (by simp)) g3 (Option.some.inj hs).symm).2
      obtain ⟨a, b⟩ := ih rfl (fun d hd => hD d (by simp [hd])) hp.2 (fun d hd => hf d (by simp [hd])) (fun d hd => hh d (by simp [hd])) hw2 g4 hy
      refine ⟨a, fun d hd' z hz => ?_⟩
      rcases List.mem_cons.1 hd' with rfl | hd'
      · rw [h1] at hz; cases hz
        exact ⟨fun _ => hb, fun h => (by cases omits_unique h2 h)⟩
      · exact b d hd' z hz
    | lostFail g1 g2 g3 =>
      rw [hf c (by simp)] at g1; cases g1
      rw [g2] at hs; cases hs
    | lost g1 g2 g3 g4 =>
      rw [hf c (by simp)] at g1; cases g1
      rw [decMembers_frame g4 hap, g2] at hs; cases hs

end Verif.Unjson
