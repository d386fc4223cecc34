import Verif.Props.UnMarshal
import Verif.Proofs.UnResolve

/-! # Floats, omitted fields and field resolution (C52-C54) -/

namespace Verif.Props
open Verif Verif.Float Verif.Spec Verif.Njson Verif.Unjson

/-! ## C52 -/

/-- What `Marshal` writes for a finite float64. -/
theorem marshal_float {U : Univ} (hF : U.GoFloats) (hn : NoMarshal U (.float .b64)) (hn' : NoMarshal U (.ptr (.float .b64)))
    (neg : Bool) (m : Nat) (e : Int) (fuel : Nat) (hf : 2 ≤ fuel) :
    marshal U fuel (some (.float .b64, .float (.num neg (.fin m e)))) = some (.done (floatText U (.num neg (.fin m e))) none) := by
  obtain ⟨k, rfl⟩ : ∃ k, fuel = k + 2 := ⟨fuel - 2, by omega⟩
  have h1 : encMeth U (.ptr (.float .b64)) = none := by unfold encMeth; simp [hn'.1, hn'.2.1, hn'.2.2]
  have h2 : encMeth U (.float .b64) = none := by unfold encMeth; simp [hn.1, hn.2.1, hn.2.2]
  unfold marshal Unjson.appendJSON newTypeEncoder
  simp only [Univ.base, h1, newEncoder, h2, Bld.pure, TypeEncoder.encode, if_true, encode, encFloat]
  rw [appendFloat_append hF.floatText, List.nil_append]

/-- strconv's texts with bit size 32 of a float, without and with exponent, round to the nearest float32. -/
structure Shortest32 (U : Univ) (neg : Bool) (m : Nat) (e : Int) : Prop where
  plain : ∃ x : NumText, x.Ok ∧ x.ex = none ∧ U.fmtFloat (.num neg (.fin m e)) 32 102 = x.text ∧ x.neg = neg ∧
    Nearest f32 x.value (NumJson.toF32 (.fin m e))
  exp : ∃ (x : NumText) (sg : UInt8) (ds : Bytes), x.Ok ∧ x.ex = some (101, [sg], ds) ∧ 2 ≤ ds.length ∧
    U.fmtFloat (.num neg (.fin m e)) 32 101 = x.text ∧ x.neg = neg ∧ Nearest f32 x.value (NumJson.toF32 (.fin m e))

/-- **C52 (partial)**: a float64 is marshalled with the precision of a float32. When strconv's text for it with bit size 32
rounds to a float32 (as its shortest format guarantees), the text that is written is a numeral that rounds to the same
float32. For a float64 that is a float32 that is the number itself. Missing from the full claim: the float64 that are no
float32, for which it is false (`C52_false`). -/
theorem C52_single_partial {U : Univ} (hF : U.GoFloats) (hn : NoMarshal U (.float .b64)) (hn' : NoMarshal U (.ptr (.float .b64)))
    (neg : Bool) (m : Nat) (e : Int) (hs : Shortest32 U neg m e) (fuel : Nat) (hf : 2 ≤ fuel) :
    ∃ x : NumText, marshal U fuel (some (.float .b64, .float (.num neg (.fin m e)))) = some (.done x.text none) ∧ x.Ok ∧
      x.neg = neg ∧ Nearest f32 x.value (NumJson.toF32 (.fin m e)) ∧ (IsFloat f32 m e → Nearest f32 x.value (.fin m e)) := by
  have key : ∃ x : NumText, floatText U (.num neg (.fin m e)) = x.text ∧ x.Ok ∧ x.neg = neg ∧ Nearest f32 x.value (NumJson.toF32 (.fin m e)) := by
    unfold floatText
    by_cases hb : NumJson.fmtByte (.num neg (.fin m e)) 32 = 101
    · obtain ⟨x, sg, ds, hx, he, hd, ht, q1, q2⟩ := hs.exp
      obtain ⟨x', p1, p2, p3, p4, _⟩ := C45_exponent [] _ 32 _ x hx ht he hd hb
      exact ⟨x', by rw [p2, List.nil_append], p1, by rw [p3, q1], by rw [p4]; exact q2⟩
    · have h102 : NumJson.fmtByte (.num neg (.fin m e)) 32 = 102 := by
        unfold NumJson.fmtByte at hb ⊢
        split at hb <;> simp_all
      obtain ⟨x, hx, he, ht, q1, q2⟩ := hs.plain
      exact ⟨x, by rw [C45_plain _ _ _ _ (.inl h102), h102, ht, List.nil_append], hx, q1, q2⟩
  obtain ⟨x, h1, h2, h3, h4⟩ := key
  refine ⟨x, by rw [marshal_float hF hn hn' neg m e fuel hf, h1], h2, h3, h4, fun hf => ?_⟩
  rw [← toF32_exact hf]; exact h4

/-- **C52 is false** of the code, in every universe: the different float64 16777216 and 16777217 are written as the same
text. -/
theorem C52_false {U : Univ} (hF : U.GoFloats) (hn : NoMarshal U (.float .b64)) (hn' : NoMarshal U (.ptr (.float .b64)))
    (fuel : Nat) (hf : 2 ≤ fuel) : ∃ m e m' e', IsFloat f64 m e ∧ IsFloat f64 m' e' ∧ val m e = 16777216 ∧ val m' e' = 16777217 ∧
      ∃ s, marshal U fuel (some (.float .b64, .float (.num false (.fin m e)))) = some (.done s none) ∧
        marshal U fuel (some (.float .b64, .float (.num false (.fin m' e')))) = some (.done s none) := by
  have h1 : NumJson.toF32 (.fin 4503599627370496 (-28)) = .fin 8388608 1 := by decide +kernel
  have h2 : NumJson.toF32 (.fin 4503599895805952 (-28)) = .fin 8388608 1 := by decide +kernel
  have b1 : NumJson.fmtByte (.num false (.fin 4503599627370496 (-28))) 32 = 102 := by decide +kernel
  have b2 : NumJson.fmtByte (.num false (.fin 4503599895805952 (-28))) 32 = 102 := by decide +kernel
  refine ⟨4503599627370496, -28, 4503599895805952, -28, by unfold IsFloat; decide, by unfold IsFloat; decide, by unfold val; norm_num,
    by unfold val; norm_num, _, marshal_float hF hn hn' _ _ _ fuel hf, ?_⟩
  rw [marshal_float hF hn hn' _ _ _ fuel hf]
  congr 2
  unfold floatText
  rw [C45_plain _ _ _ _ (.inl b1), C45_plain _ _ _ _ (.inl b2), b1, b2, hF.single _ _ _ 102, hF.single _ _ (-28) 102, h1, h2]

/-- The hypotheses hold, for zero, in the example universe (whose formatting function is good for nothing else). -/
example : exU.GoFloats ∧ NoMarshal exU (.float .b64) ∧ NoMarshal exU (.ptr (.float .b64)) ∧ Shortest32 exU false 0 (-1074) := by
  have h0 : NumJson.toF32 (.fin 0 (-1074)) = .fin 0 (-149) := by decide +kernel
  have hr : Nearest f32 0 (.fin 0 (-149)) := by
    have := round_nearest f32 Unjson.f32_ok 0 (d := 1) (by decide)
    rw [round_zero] at this
    simpa [f32] using this
  refine ⟨exU_floats, ⟨rfl, rfl, rfl⟩, ⟨rfl, rfl, rfl⟩, ?_, ?_⟩
  · refine ⟨⟨false, b!"0", none, none⟩, ⟨⟨by simp, by unfold IsDigitByte; decide⟩, by simp, by simp⟩, rfl, by decide +kernel, rfl, ?_⟩
    rw [h0]
    have : NumText.value ⟨false, b!"0", none, none⟩ = 0 := by simp [NumText.value, natOf, NumText.frac]
    rw [this]; exact hr
  · refine ⟨⟨false, b!"0", none, some (101, [43], b!"00")⟩, 43, b!"00", ⟨⟨by simp, by unfold IsDigitByte; decide⟩, by simp, ?_⟩, rfl, by decide, by decide +kernel, rfl, ?_⟩
    · intro c sg ds h
      cases h
      exact ⟨.inl rfl, by simp, by simp, by unfold IsDigitByte; decide⟩
    · rw [h0]
      have : NumText.value ⟨false, b!"0", none, some (101, [43], b!"00")⟩ = 0 := by simp [NumText.value, natOf, NumText.frac]
      rw [this]; exact hr

/-! ## C53 -/

open Classical in
theorem encFields_kept {U : Univ} {o : Options} {v : GV} : ∀ {cs : List Cand} {ms : List (Bytes × JVal)}, EncFields U o v cs ms →
    All2 (fun (m : Bytes × JVal) (c : Cand) => m.1 = c.key ∧ ∃ x, sub v c.index = some x ∧ Encodes U o c.hint c.typ x m.2) ms
      (cs.filter fun c => decide (Keeps U o v c))
  | [], _, h => by cases h; exact .nil
  | c :: cs, ms, h => by
    cases h with
    | absent h1 h2 =>
      have : ¬ Keeps U o v c := by rintro ⟨x, h, _⟩; rw [h1] at h; cases h
      rw [List.filter_cons_of_neg (by simpa using this)]
      exact encFields_kept h2
    | omitted h1 h2 h3 =>
      have : ¬ Keeps U o v c := by
        rintro ⟨x, h, h'⟩
        rw [h1] at h; cases h
        exact absurd (omits_unique h2 h') (by simp)
      rw [List.filter_cons_of_neg (by simpa using this)]
      exact encFields_kept h3
    | present h1 h2 h3 h4 =>
      rw [List.filter_cons_of_pos (by simpa using ⟨_, h1, h2⟩)]
      exact .cons ⟨rfl, _, h1, h3⟩ (encFields_kept h4)

open Classical in
/-- C53, the members: marshalling a struct fails or writes exactly the fields that `Keeps` describes, each with the
encoding of its value, in the order of the declaration. -/
theorem C53_members {U : Univ} (hE : U.EmbedsStructs) (hO : U.NoOmitMethod) (hF : U.GoFloats) {t : Ty} {j : Nat} {fs : List GV}
    (hb : U.base t = .struct j) (hv : MarshalArg U t (.struct fs)) (fuel : Nat) (r : Out Bytes)
    (h : marshal U fuel (some (t, .struct fs)) = some r) :
    (∃ cs ms, Cands U defaultOptions (U.fields j) 0 [] cs ∧ r = .done (JVal.obj ms).ser none ∧
      All2 (fun (m : Bytes × JVal) (c : Cand) => m.1 = c.key ∧ ∃ x, sub (.struct fs) c.index = some x ∧ Encodes U defaultOptions c.hint c.typ x m.2)
        ms ((resolve [] cs).filter fun c => decide (Keeps U defaultOptions (.struct fs) c))) ∨
    ∃ b e, r = .done b (some e) := by
  rcases C47_encodes hE hO hF hv fuel [] r h with ⟨k, h1, h2⟩ | he
  · rcases h2 with ⟨_, h2⟩ | ⟨e, x, h, _⟩
    · cases h2 with
      | struct hb' hc hm =>
        rw [hb] at hb'; cases hb'
        exact .inl ⟨_, _, hc, h1, encFields_kept hm⟩
    · cases h
  · exact .inr he

/-- **C53 (partial)**: a field is written exactly when it can be reached (no nil embedded pointer on the way) and it has no
omitempty or its value is not empty. For a struct with omitempty: when some field of it is written.
Missing from the full claim: an array of empty values has a length but counts as empty, and a struct all of whose
fields are omitted is left out as well (`C53_false`). -/
theorem C53_omit_partial {U : Univ} {o : Options} {v : GV} {c : Cand} :
    (c.hint.omitempty = false → (Keeps U o v c ↔ ∃ x, sub v c.index = some x)) ∧
    (c.hint.omitempty = true → (∀ j, U.base c.typ ≠ .struct j) → (Keeps U o v c ↔ ∃ x, sub v c.index = some x ∧ x.empty = false)) ∧
    (c.hint.omitempty = true → ∀ j cs x, U.base c.typ = .struct j → Cands U o (U.fields j) 0 [] cs → sub v c.index = some x →
      (∀ k ∈ resolve [] cs, ∀ y, sub x k.index = some y → ∃ b, Omits U o k y b) →
      (Keeps U o v c ↔ ∃ k ∈ resolve [] cs, Keeps U o x k)) := by
  refine ⟨fun h => ?_, fun h hb => ?_, fun h j cs x hb hc hs hdef => ?_⟩
  · exact ⟨fun ⟨x, h1, _⟩ => ⟨x, h1⟩, fun ⟨x, h1⟩ => ⟨x, h1, .keep h⟩⟩
  · constructor
    · rintro ⟨x, h1, h2⟩
      exact ⟨x, h1, omits_unique (.value h hb) h2⟩
    · rintro ⟨x, h1, h2⟩
      exact ⟨x, h1, by have := Omits.value (U := U) (o := o) (x := x) h hb; rwa [h2] at this⟩
  · have all : ∀ L : List Cand, (∀ k ∈ L, ∀ y, sub x k.index = some y → ∃ b, Omits U o k y b) →
        (OmitsAll U o L x false ↔ ∃ k ∈ L, Keeps U o x k) := by
      intro L
      induction L with
      | nil => intro _; constructor <;> [intro h; rintro ⟨k, hk, _⟩] <;> [cases h; simp at hk]
      | cons d L ih =>
        intro hL
        have ih := ih (fun k hk => hL k (by simp [hk]))
        constructor
        · intro ha
          cases ha with
          | absent h1 h2 => obtain ⟨k, hk, hk'⟩ := ih.1 h2; exact ⟨k, by simp [hk], hk'⟩
          | no h1 h2 => exact ⟨d, by simp, _, h1, h2⟩
          | yes h1 h2 h3 => obtain ⟨k, hk, hk'⟩ := ih.1 h3; exact ⟨k, by simp [hk], hk'⟩
        · rintro ⟨k, hk, hk'⟩
          cases hq : sub x d.index with
          | none =>
            rcases List.mem_cons.1 hk with rfl | hk
            · obtain ⟨y, h1, _⟩ := hk'; rw [hq] at h1; cases h1
            · exact .absent hq (ih.2 ⟨k, hk, hk'⟩)
          | some y =>
            obtain ⟨b, hb⟩ := hL d (by simp) y hq
            cases b with
            | false => exact .no hq hb
            | true =>
              rcases List.mem_cons.1 hk with rfl | hk
              · obtain ⟨y', h1, h2⟩ := hk'
                rw [hq] at h1; cases h1
                exact absurd (omits_unique hb h2) (by simp)
              · exact .yes hq hb (ih.2 ⟨k, hk, hk'⟩)
    rw [← all _ hdef]
    constructor
    · rintro ⟨y, h1, h2⟩
      rw [hs] at h1; cases h1
      generalize false = b at h2 ⊢
      cases h2 with
      | keep h3 => rw [h] at h3; cases h3
      | value _ h3 => exact absurd hb (h3 j)
      | struct _ h3 h4 h5 =>
        rw [hb] at h3; cases h3
        rw [cands_unique hc h4]
        exact h5
    · intro ha
      exact ⟨x, hs, .struct h hb hc ha⟩

/-- **C53 is false** of the code: the array of two zeros has length 2 and is left out all the same; so is a struct. -/
theorem C53_false : marshal exU 30 (some (.struct 7, .struct [.array [.int 0, .int 0], .struct [.int 0]])) = some (.done b!"{}" none) ∧
    marshal exU 30 (some (.struct 7, .struct [.array [.int 0, .int 5], .struct [.int 6]])) = some (.done b!"{\"r\":[0,5],\"o\":{\"a\":6}}" none) :=
  ⟨eq_of_sameB (by decide +kernel), eq_of_sameB (by decide +kernel)⟩

/-! ## C54 -/

/-- The field that is used for decoding a name is the first one with it in the order of the declaration (embedded structs
in place of the embedding field), whatever its depth. -/
theorem C54_decoding_field (cs : List Cand) (k : Bytes) :
    (resolve [] cs).find? (fun x => x.key = k) = cs.find? fun x => x.key = k := by
  rw [resolve_find]; simp

/-- C54, which fields are used at all: the first one with its name, and later ones that are less deep than the first. -/
theorem C54_fields {U : Univ} {o : Options} {j : Nat} {cs : List Cand} (hc : Cands U o (U.fields j) 0 [] cs) (c : Cand) :
    c ∈ resolve [] cs ↔ ∃ xs ys, cs = xs ++ c :: ys ∧
      ∀ d, xs.find? (fun x => x.key = c.key) = some d → c.index.length < d.index.length := by
  rw [resolve_mem_iff cs [] [] (fun _ => rfl)]
  simp only [List.not_mem_nil, false_or, List.nil_append]
  constructor
  · rintro ⟨xs, ys, rfl, h⟩
    refine ⟨xs, ys, rfl, fun d hd => (cmpIndex_before ?_).1 (h d hd)⟩
    exact (List.pairwise_append.1 (cands_before hc)).2.2 d (List.mem_of_find?_eq_some hd) c (by simp)
  · rintro ⟨xs, ys, rfl, h⟩
    refine ⟨xs, ys, rfl, fun d hd => (cmpIndex_before ?_).2 (h d hd)⟩
    exact (List.pairwise_append.1 (cands_before hc)).2.2 d (List.mem_of_find?_eq_some hd) c (by simp)

theorem sublist_pairwise_key {cs rs : List Cand} (h : rs.Sublist cs) {R : Cand → Cand → Prop} (hp : cs.Pairwise R) : rs.Pairwise R := hp.sublist h

/-- **C54 (partial)**: when no field comes after a deeper one of the same name, every name is used once, by a shallowest
field; in particular no member of the output is repeated. Missing from the full claim: types in which a shallower
field comes after a deeper one of the same name, for which it is false (`C54_false`). -/
theorem C54_unique_partial {U : Univ} {o : Options} {j : Nat} {cs : List Cand} (hc : Cands U o (U.fields j) 0 [] cs)
    (hd : cs.Pairwise fun a b => a.key = b.key → a.index.length ≤ b.index.length) :
    (resolve [] cs).Pairwise (fun a b => a.key ≠ b.key) ∧
    (∀ c ∈ resolve [] cs, ∀ d ∈ cs, d.key = c.key → c.index.length ≤ d.index.length) ∧
    (∀ d ∈ cs, ∃ c ∈ resolve [] cs, c.key = d.key) ∧
    ∀ {h t fs ms}, U.base t = .struct j → Encodes U o h t (.struct fs) (.obj ms) → ms.Pairwise fun a b => a.1 ≠ b.1 := by
  have first : ∀ c ∈ resolve [] cs, ∃ xs ys, cs = xs ++ c :: ys ∧ xs.find? (fun x => x.key = c.key) = none := by
    intro c hcm
    obtain ⟨xs, ys, h1, h2⟩ := (C54_fields hc c).1 hcm
    refine ⟨xs, ys, h1, ?_⟩
    cases hq : xs.find? (fun x => x.key = c.key) with
    | none => rfl
    | some d =>
      have hk : d.key = c.key := by have := List.find?_some hq; simpa using this
      have := h2 d hq
      rw [h1] at hd
      have := (List.pairwise_append.1 hd).2.2 d (List.mem_of_find?_eq_some hq) c (by simp) hk
      omega
  have hsub : (resolve [] cs).Sublist cs := by simpa using resolve_sublist cs []
  have hA : ∀ c ∈ resolve [] cs, cs.find? (fun x => x.key = c.key) = some c := by
    intro c hcm
    obtain ⟨xs, ys, h1, h2⟩ := first c hcm
    rw [h1, List.find?_append, h2]; simp
  have hU : (resolve [] cs).Pairwise (fun a b => a.key ≠ b.key) := by
    have hb : (resolve [] cs).Pairwise fun a b => Before a.index b.index := (cands_before hc).sublist hsub
    rw [List.pairwise_iff_forall_sublist]
    intro a b hab hk
    have hb' := (List.pairwise_iff_forall_sublist.1 hb) hab
    have ha := hA a (hab.subset (by simp))
    have hb2 := hA b (hab.subset (by simp))
    rw [hk, hb2] at ha
    cases ha
    obtain ⟨p, k, k', r, r', e1, e2, hlt⟩ := hb'
    rw [e1] at e2
    have := List.append_cancel_left e2
    cases this
    omega
  refine ⟨hU, ?_, ?_, ?_⟩
  · intro c hcm d hdm hk
    obtain ⟨xs, ys, h1, h2⟩ := first c hcm
    rw [h1] at hd hdm
    rcases List.mem_append.1 hdm with h | h
    · have := List.find?_eq_none.1 h2 d h
      simp [hk] at this
    · rcases List.mem_cons.1 h with rfl | h
      · exact Nat.le_refl _
      · exact (List.pairwise_cons.1 (List.pairwise_append.1 hd).2.1).1 d h hk.symm
  · intro d hdm
    have : (resolve [] cs).find? (fun x => x.key = d.key) ≠ none := by
      rw [C54_decoding_field]
      intro h
      have := List.find?_eq_none.1 h d hdm
      simp at this
    cases hq : (resolve [] cs).find? (fun x => x.key = d.key) with
    | none => exact absurd hq this
    | some c => exact ⟨c, List.mem_of_find?_eq_some hq, by simpa using List.find?_some hq⟩
  · intro h t fs ms hb he
    cases he with
    | struct hb' hc' hm =>
      rw [hb] at hb'; cases hb'
      rw [← cands_unique hc hc'] at hm
      have keys : ∀ {L : List Cand} {ms : List (Bytes × JVal)}, EncFields U o (.struct fs) L ms → L.Pairwise (fun a b => a.key ≠ b.key) →
          ms.Pairwise (fun a b => a.1 ≠ b.1) ∧ ∀ m ∈ ms, ∃ c ∈ L, c.key = m.1 := by
        intro L
        induction L with
        | nil => intro ms h _; cases h; exact ⟨.nil, by simp⟩
        | cons c L ih =>
          intro ms h hp
          rw [List.pairwise_cons] at hp
          cases h with
          | absent _ h2 => obtain ⟨q1, q2⟩ := ih h2 hp.2; exact ⟨q1, fun m hm => by obtain ⟨c, hc, hk⟩ := q2 m hm; exact ⟨c, by simp [hc], hk⟩⟩
          | omitted _ _ h2 => obtain ⟨q1, q2⟩ := ih h2 hp.2; exact ⟨q1, fun m hm => by obtain ⟨c, hc, hk⟩ := q2 m hm; exact ⟨c, by simp [hc], hk⟩⟩
          | present _ _ _ h2 =>
            obtain ⟨q1, q2⟩ := ih h2 hp.2
            refine ⟨List.pairwise_cons.2 ⟨fun m hm => ?_, q1⟩, fun m hm => ?_⟩
            · obtain ⟨d, hd, hk⟩ := q2 m hm
              rw [← hk]; exact hp.1 d hd
            · rcases List.mem_cons.1 hm with rfl | hm
              · exact ⟨c, by simp, rfl⟩
              · obtain ⟨d, hd, hk⟩ := q2 m hm; exact ⟨d, by simp [hd], hk⟩
      exact (keys hm hU).1

/-- Struct type 10 has a field `X` and then embeds a struct with a field `X`: the hypotheses hold, and the second is
dropped. -/
example : ∃ cs, Cands exU defaultOptions (exU.fields 10) 0 [] cs ∧
    (cs.Pairwise fun a b => a.key = b.key → a.index.length ≤ b.index.length) ∧ (resolve [] cs).map (·.index) = [[0]] ∧ cs.length = 2 := by
  refine ⟨[⟨b!"X", [0], .bool, Hint.none⟩, ⟨b!"X", [1, 0], .bool, Hint.none⟩], ?_, by decide, by decide, rfl⟩
  have h2 : Cands exU defaultOptions (exU.fields 2) 0 [1] [⟨b!"X", [1, 0], .bool, Hint.none⟩] := .field (f := fld b!"X" .bool) rfl (by decide) rfl .nil
  have h1 : Cands exU defaultOptions [fld b!"E" (.struct 2) [] true] 1 [] ([⟨b!"X", [1, 0], .bool, Hint.none⟩] ++ []) :=
    Cands.embed (o := defaultOptions) (ds := []) (f := fld b!"E" (.struct 2) [] true) rfl (by decide) rfl h2 .nil
  exact .field (f := fld b!"X" .bool) rfl (by decide) rfl h1

/-- **C54 is false** of the code: struct type 1 embeds a struct with a field `X` and then has a field `X` itself. Both are
written, and decoding stores into the deeper one. -/
theorem C54_false : marshal exU 30 (some (.struct 1, .struct [.struct [.bool false], .bool true])) = some (.done b!"{\"X\":false,\"X\":true}" none) ∧
    unmarshal exU 30 Doc.empty b!"{\"X\":true}" (some (.ptr (.struct 1), .ptr (.struct [.struct [.bool false], .bool false]))) =
      some (.done (some (.ptr (.struct 1), .ptr (.struct [.struct [.bool true], .bool false]))) none) :=
  ⟨eq_of_sameB (by decide +kernel), eq_of_sameX (by decide +kernel)⟩

end Verif.Props
