import Verif.Spec.UnRound
import Verif.Proofs.UnTyped
import Verif.Proofs.UnResolve
import Verif.Proofs.UnText
import Verif.Props.NumJson
import Verif.Props.StrJson

/-! # Values that survive Marshal and Unmarshal: lemmas -/

namespace Verif.Unjson
open Verif Verif.Float Verif.Spec Verif.Njson

/-! ## Zero values -/

theorem zero_ind {U : Univ} (hU : U.Ok) {P : GV → Prop} (h1 : P (.bool false)) (h2 : P (.int 0)) (h3 : P (.uint 0))
    (h4 : P (.float (.num false (.fin 0 f64.emin)))) (h5 : P (.str [])) (h6 : P .nilPtr) (h7 : P .nilSlice) (h8 : P .nilMap)
    (h9 : P .nilIface) (h10 : P .opaque) (h11 : ∀ xs, (∀ x ∈ xs, P x) → P (.array xs)) (h12 : ∀ xs, (∀ x ∈ xs, P x) → P (.struct xs)) :
    ∀ t, P (U.zero t) := by
  suffices ∀ (n : Nat) (t : Ty), sizeOf (U.zero t) ≤ n → P (U.zero t) from fun t => this _ t (Nat.le_refl _)
  intro n
  induction n using Nat.strongRecOn with
  | ind n ih =>
    have main : ∀ t, (∀ i, t ≠ .named i) → sizeOf (U.zero t) ≤ n → P (U.zero t) := by
      intro t hn hs
      cases t with
      | bool => exact h1
      | int k => exact h2
      | uint k => exact h3
      | float k => exact h4
      | string => exact h5
      | ptr e => exact h6
      | slice e => exact h7
      | array m e =>
        refine h11 _ ?_
        intro x hx
        rw [List.mem_replicate] at hx
        obtain ⟨hm, rfl⟩ := hx
        simp only [Univ.zero] at hs
        have h1 : U.zero e ∈ List.replicate m (U.zero e) := List.mem_replicate.2 ⟨hm, rfl⟩
        have h2 := List.sizeOf_lt_of_mem h1
        have : sizeOf (GV.array (List.replicate m (U.zero e))) = 1 + sizeOf (List.replicate m (U.zero e)) := by simp
        exact ih (sizeOf (U.zero e)) (by omega) e (Nat.le_refl _)
      | map k e => exact h8
      | iface m i => exact h9
      | struct i =>
        have hz : U.zero (.struct i) = .struct ((U.fields i).map fun f => U.zero f.typ) := hU.zero_struct i
        rw [hz] at hs ⊢
        refine h12 _ ?_
        intro v hv
        obtain ⟨f, hf, rfl⟩ := List.mem_map.1 hv
        have h2 := List.sizeOf_lt_of_mem hv
        have : sizeOf (GV.struct ((U.fields i).map fun f => U.zero f.typ)) = 1 + sizeOf ((U.fields i).map fun f => U.zero f.typ) := by simp
        exact ih (sizeOf (U.zero f.typ)) (by omega) f.typ (Nat.le_refl _)
      | other => exact h10
      | named i => exact absurd rfl (hn i)
    intro t hs
    by_cases h : ∃ i, t = .named i
    · obtain ⟨i, rfl⟩ := h
      rw [zero_named' hU] at hs ⊢
      exact main _ (hU.under_base i) hs
    · exact main t (fun i hi => h ⟨i, hi⟩) hs

theorem trimL_map : ∀ xs, trimL xs = xs.map GV.trim
  | [] => rfl
  | x :: xs => by rw [trimL, trimL_map xs]; rfl

theorem trimM_map : ∀ es, trimM es = es.map fun p => (p.1, p.2.trim)
  | [] => rfl
  | (k, x) :: es => by rw [trimM, trimM_map es]; rfl

theorem trim_zero {U : Univ} (hU : U.Ok) (t : Ty) : (U.zero t).trim = U.zero t := by
  refine zero_ind hU (P := fun v => v.trim = v) rfl rfl rfl rfl rfl rfl rfl rfl rfl rfl ?_ ?_ t
  · intro xs h; rw [GV.trim, trimL_map, List.map_congr_left h, List.map_id']
  · intro xs h; rw [GV.trim, trimL_map, List.map_congr_left h, List.map_id']

theorem allLeaf_zero {U : Univ} (hU : U.Ok) {P : Bytes → Prop} {Q : Flt → Prop} (hP : P []) (hQ : Q (.num false (.fin 0 f64.emin))) (t : Ty) :
    AllLeaf P Q (U.zero t) :=
  zero_ind hU (P := AllLeaf P Q) .bool .int .uint (.float hQ) (.str hP) .nilPtr .nilSlice .nilMap .nilIface .opaque
    (fun _ h => .array h) (fun _ h => .struct h) t

/-! ## Paths -/

theorem sub_cons (v : GV) (i : Int) (is : List Int) : sub v (i :: is) =
    if i = -1 then (match v with | .ptr x => sub x is | _ => none)
    else (match v with | .struct fs => (match fs[i.toNat]? with | some x => sub x is | none => none) | _ => none) := by
  rw [sub.eq_def]; rfl

theorem put_cons (y v : GV) (i : Int) (is : List Int) : put y v (i :: is) =
    if i = -1 then (match v with | .ptr x => .ptr (put y x is) | v => v)
    else (match v with | .struct fs => .struct (match fs[i.toNat]? with | some x => fs.set i.toNat (put y x is) | none => fs) | v => v) := by
  rw [put.eq_def]; rfl

theorem sub_append : ∀ (p q : List Int) (v : GV), sub v (p ++ q) = (sub v p).bind fun s => sub s q
  | [], q, v => by simp [sub]
  | i :: p, q, v => by
    rw [List.cons_append, sub_cons, sub_cons]
    by_cases hi : i = -1
    · rw [if_pos hi, if_pos hi]
      cases v <;> first | rfl | exact sub_append p q _
    · rw [if_neg hi, if_neg hi]
      cases v with
      | struct fs =>
        simp only
        cases fs[i.toNat]? with
        | none => rfl
        | some x => exact sub_append p q x
      | _ => rfl

theorem put_append {y : GV} : ∀ (p q : List Int) (v s : GV), sub v p = some s → put y v (p ++ q) = put (put y s q) v p
  | [], q, v, s, h => by
    rw [sub] at h
    obtain rfl : v = s := by simpa using h
    rw [List.nil_append, put.eq_1]
  | i :: p, q, v, s, h => by
    rw [List.cons_append, put_cons, put_cons]
    rw [sub_cons] at h
    by_cases hi : i = -1
    · rw [if_pos hi] at h ⊢
      rw [if_pos hi]
      cases v with
      | ptr x => simp only at h ⊢; rw [put_append p q x s h]
      | _ => rfl
    · rw [if_neg hi] at h ⊢
      rw [if_neg hi]
      cases v with
      | struct fs =>
        simp only at h ⊢
        cases hx : fs[i.toNat]? with
        | none => rfl
        | some x => rw [hx] at h; simp only at h ⊢; rw [put_append p q x s h]
      | _ => rfl

theorem put_put {a b : GV} : ∀ (p : List Int) (v s : GV), sub v p = some s → put a (put b v p) p = put a v p ∧ sub (put b v p) p = some b
  | [], v, s, h => by rw [put, put, put, sub]; exact ⟨rfl, rfl⟩
  | i :: p, v, s, h => by
    rw [sub_cons] at h
    rw [put_cons b, put_cons a v]
    by_cases hi : i = -1
    · subst hi
      rw [if_pos rfl] at h
      rw [if_pos rfl, if_pos rfl]
      cases v with
      | ptr x =>
        simp only at h ⊢
        rw [put_cons, if_pos rfl, sub_cons, if_pos rfl]
        simp only
        rw [(put_put (a := a) (b := b) p x s h).1, (put_put (a := a) (b := b) p x s h).2]; exact ⟨rfl, rfl⟩
      | _ => cases h
    · rw [if_neg hi] at h
      rw [if_neg hi, if_neg hi]
      cases v with
      | struct fs =>
        simp only at h ⊢
        cases hx : fs[i.toNat]? with
        | none => rw [hx] at h; cases h
        | some x =>
          rw [hx] at h
          simp only at h ⊢
          obtain ⟨hl, _⟩ := List.getElem?_eq_some_iff.1 hx
          rw [put_cons, if_neg hi, sub_cons, if_neg hi]
          simp only [List.getElem?_set_self hl]
          rw [(put_put (a := a) (b := b) p x s h).1, (put_put (a := a) (b := b) p x s h).2, List.set_set]; exact ⟨rfl, rfl⟩
      | _ => cases h

theorem put_self : ∀ (p : List Int) (v s : GV), sub v p = some s → put s v p = v
  | [], v, s, h => by rw [sub] at h; rw [put]; simpa using h.symm
  | i :: p, v, s, h => by
    rw [sub_cons] at h
    rw [put_cons]
    by_cases hi : i = -1
    · rw [if_pos hi] at h ⊢
      cases v with
      | ptr x => simp only at h ⊢; rw [put_self p x s h]
      | _ => rfl
    · rw [if_neg hi] at h ⊢
      cases v with
      | struct fs =>
        simp only at h ⊢
        cases hx : fs[i.toNat]? with
        | none => rfl
        | some x =>
          rw [hx] at h
          simp only at h ⊢
          obtain ⟨hl, hx⟩ := List.getElem?_eq_some_iff.1 hx
          rw [put_self p x s h]; subst hx; rw [List.set_getElem_self]
      | _ => rfl

/-! ## Fields -/

theorem parseField_decode (f : Field) : decodeOptions.parseField f = defaultOptions.parseField f := rfl

theorem cands_decode {U : Univ} {fs : List Field} {i : Nat} {idx : List Int} {cs : List Cand} (h : Cands U defaultOptions fs i idx cs) :
    Cands U decodeOptions fs i idx cs := by
  induction h with
  | nil => exact .nil
  | skip h1 _ ih => exact .skip h1 ih
  | embed h1 h2 h3 _ _ ih1 ih2 => exact .embed h1 h2 h3 ih1 ih2
  | field h1 h2 h3 _ ih => exact .field h1 h2 h3 ih

theorem find_nodup : ∀ {cs : List Cand}, (cs.map Cand.key).Nodup → ∀ c ∈ cs, cs.find? (fun k => k.key = c.key) = some c
  | [], _, c, hc => by cases hc
  | d :: cs, hn, c, hc => by
    rw [List.map_cons, List.nodup_cons] at hn
    rcases List.mem_cons.1 hc with rfl | hc
    · rw [List.find?_cons_of_pos (by simp)]
    · rw [List.find?_cons_of_neg (by
        simp only [decide_eq_true_eq]
        intro h; exact hn.1 (h ▸ List.mem_map_of_mem hc))]
      exact find_nodup hn.2 c hc

theorem resolve_nodup : ∀ (cs acc : List Cand), ((acc ++ cs).map Cand.key).Nodup → resolve acc cs = acc ++ cs
  | [], acc, _ => by simp [resolve]
  | c :: cs, acc, hn => by
    unfold resolve
    rw [List.foldl_cons]
    have : addCand acc c = acc ++ [c] := by
      unfold addCand
      have : acc.find? (fun k => k.key = c.key) = none := by
        rw [List.find?_eq_none]
        intro k hk
        simp only [decide_eq_true_eq]
        intro he
        rw [List.map_append, List.nodup_append] at hn
        exact hn.2.2 _ (List.mem_map_of_mem hk) _ (List.mem_map_of_mem (List.mem_cons_self (a := c))) he
      rw [this]
    rw [this]
    have := resolve_nodup cs (acc ++ [c]) (by simpa using hn)
    unfold resolve at this
    rw [this]; simp

theorem omits_congr {U : Univ} {o : Options} {c c' : Cand} {x : GV} {b : Bool} (h : Omits U o c x b) (h1 : c'.hint = c.hint) (h2 : c'.typ = c.typ) :
    Omits U o c' x b := by
  cases h with
  | keep g => exact .keep (h1 ▸ g)
  | value g1 g2 => exact .value (h1 ▸ g1) (h2 ▸ g2)
  | struct g1 g2 g3 g4 => exact .struct (h1 ▸ g1) (h2 ▸ g2) g3 g4

theorem encFields_append {U : Univ} {o : Options} {v : GV} : ∀ {cs ds : List Cand} {ms}, EncFields U o v (cs ++ ds) ms →
    ∃ m1 m2, ms = m1 ++ m2 ∧ EncFields U o v cs m1 ∧ EncFields U o v ds m2
  | [], ds, ms, h => ⟨[], ms, rfl, .nil, h⟩
  | c :: cs, ds, ms, h => by
    rw [List.cons_append] at h
    cases h with
    | absent h1 h2 => obtain ⟨m1, m2, rfl, g1, g2⟩ := encFields_append h2; exact ⟨m1, m2, rfl, .absent h1 g1, g2⟩
    | omitted h1 h2 h3 => obtain ⟨m1, m2, rfl, g1, g2⟩ := encFields_append h3; exact ⟨m1, m2, rfl, .omitted h1 h2 g1, g2⟩
    | present h1 h2 h3 h4 => obtain ⟨m1, m2, rfl, g1, g2⟩ := encFields_append h4; exact ⟨_, m2, rfl, .present h1 h2 h3 g1, g2⟩

theorem encFields_absent {U : Univ} {o : Options} {v : GV} : ∀ {cs : List Cand} {ms}, EncFields U o v cs ms → (∀ c ∈ cs, sub v c.index = none) → ms = []
  | [], ms, h, _ => by cases h; rfl
  | c :: cs, ms, h, ha => by
    have := ha c (by simp)
    cases h with
    | absent h1 h2 => exact encFields_absent h2 (fun c hc => ha c (by simp [hc]))
    | omitted h1 => rw [this] at h1; cases h1
    | present h1 => rw [this] at h1; cases h1

/-! ## Leaves -/

theorem readInt_repr {i : Int} (h1 : -2 ^ 63 ≤ i) (h2 : i < 2 ^ 63) (hr : Repr64 i.natAbs) : readInt (formatInt i) = some i := by
  unfold readInt
  rw [Props.C42_parseInt_partial i _ (formatInt_decimal i) h1 h2 hr]; rfl

theorem formatUint_decimal (n : Nat) : IsDecimal (n : Int) (formatUint n) := by
  have := formatInt_decimal (n : Int)
  unfold formatInt at this
  rw [if_neg (by omega)] at this
  simpa using this

theorem readUint_repr {n : Nat} (h : n < 2 ^ 64) (hr : Repr64 n) : readUint (formatUint n) = some n := by
  unfold readUint
  rw [Props.C42_parseUint_partial n _ (formatUint_decimal n) (by omega) (by exact_mod_cast h) (by simpa [Repr64] using hr)]; rfl

theorem wrapInt_id {k : IKind} {i : Int} (h1 : -(2 ^ (k.bits - 1) : Int) ≤ i) (h2 : i < 2 ^ (k.bits - 1)) : wrapInt k i = i := by
  unfold wrapInt
  apply Int.bmod_eq_of_le <;> cases k <;> simp [IKind.bits] at h1 h2 ⊢ <;> omega

theorem bits_le (k : IKind) : (2 ^ (k.bits - 1) : Int) ≤ 2 ^ 63 ∧ 2 ^ k.bits ≤ 2 ^ 64 := by cases k <;> decide

theorem strText_back {h : Hint} {s : Bytes} (hh : h.raw = true → h.html = true) (hs : SafeText s) : StrJson.unescaped (strText h s) = s := by
  unfold strText
  by_cases h1 : h.html = true
  · rw [if_pos h1]; exact Props.C01_roundtrip s true hs.1
  · rw [if_neg h1, if_neg (fun h2 => h1 (hh h2))]; exact Props.C01_roundtrip s false hs.1

/-! ## Interfaces -/

theorem setKey_new {key : Bytes} {val : GV} : ∀ {es : List (GV × GV)}, GV.str key ∉ es.map Prod.fst → setKey key val es = es ++ [(.str key, val)]
  | [], _ => rfl
  | (k, x) :: es, h => by
    rw [List.map_cons, List.mem_cons, not_or] at h
    have ih := setKey_new (val := val) h.2
    rw [setKey.eq_def]
    cases k with
    | str s => simp only; rw [if_neg (fun he => h.1 (by rw [he])), ih]; rfl
    | _ => simp only; rw [ih]; rfl

theorem trimM_fst (es : List (GV × GV)) : (trimM es).map Prod.fst = es.map Prod.fst := by
  rw [trimM_map, List.map_map]; rfl

theorem jsonAny_back {U : Univ} {v : GV} (hv : JsonAny U v) : ∀ {o h j}, Encodes U o h .any v j → anyOf j = some v.trim := by
  induction hv with
  | nil => intro o h j he; cases he with
    | nilIface => rfl
  | bool => intro o h j he; cases he with
    | iface _ _ g => cases g with
      | bool => rfl
  | @float neg m e h1 h2 => intro o h j he; cases he with
    | iface _ _ g => cases g with
      | float => rw [anyOf, h2]; rfl
  | @str s h1 => intro o h j he; cases he with
    | iface _ _ g => cases g with
      | str => rw [anyOf, strText_back (by simp [Hint.none]) h1]; rfl
  | @slice arr len hl hx ih => intro o h j he; cases he with
    | iface _ _ g => cases g with
      | slice hb hes =>
        cases hb
        have key : ∀ {xs js o h}, (∀ x ∈ xs, ∀ {o h j}, Encodes U o h .any x j → anyOf j = some x.trim) → EncElems U o h .any xs js →
            anyElems js = some (trimL xs) := by
          intro xs js o h hx he
          induction xs generalizing js with
          | nil => cases he; rfl
          | cons x xs ihx =>
            cases he with
            | cons g1 g2 =>
              rw [anyElems, hx x (by simp) g1, ihx (fun x h => hx x (by simp [h])) g2]; rfl
        rw [anyOf, key ih hes, Option.map_some, GV.trim, GV.trim, trimL_map, trimL_map, List.map_take]
        simp; omega
  | @map es hk hn hx ih => intro o h j he; cases he with
    | iface _ _ g => cases g with
      | map hb hes =>
        cases hb
        have key : ∀ {es ms o acc}, (∀ p ∈ es, ∃ k, p.1 = .str k ∧ StrJson.escaped k false false = k) → (acc.map Prod.fst ++ es.map Prod.fst).Nodup →
            (∀ p ∈ es, ∀ {o h j}, Encodes U o h .any p.2 j → anyOf j = some p.2.trim) → EncEntries U o .any es ms →
            anyMembers ms acc = some (acc ++ trimM es) := by
          intro es ms o acc hk hn hx he
          induction es generalizing ms acc with
          | nil => cases he; simp [anyMembers, trimM]
          | cons p es ihx =>
            cases he with
            | @cons _ _ k x _ j ms' g1 g2 =>
              obtain ⟨k', h1, h2⟩ := hk _ (List.mem_cons_self)
              cases h1
              rw [anyMembers, hx (.str k, x) List.mem_cons_self g1]
              simp only
              rw [h2, setKey_new (by
                rw [List.map_cons, List.nodup_append] at hn
                intro hm; exact hn.2.2 _ hm _ (by simp) rfl)]
              rw [ihx (fun p hp => hk p (by simp [hp])) (by
                rw [List.map_append, List.append_assoc]; exact hn) (fun p hp => hx p (by simp [hp])) g2, trimM]
              simp
        rw [anyOf, key hk (by simpa using hn) ih hes]
        rfl

/-! ## Values -/

theorem decElems_all {U : Univ} {o : Options} {e : Ty} : ∀ {js : List JVal} {xs zs : List GV}, js.length = xs.length → zs.length = xs.length →
    (∀ (i : Nat) j x z, js[i]? = some j → xs[i]? = some x → zs[i]? = some z → Decodes U o e z j (.done x none)) →
    DecElems U o e js zs (some (xs, xs.length)) ∧ DecArr U o e js zs (some xs)
  | [], [], [], _, _, _ => ⟨.nil, .full⟩
  | j :: js, x :: xs, z :: zs, h1, h2, h => by
    have hd := h 0 j x z rfl rfl rfl
    obtain ⟨g1, g2⟩ := decElems_all (js := js) (xs := xs) (zs := zs) (by simpa using h1) (by simpa using h2)
      (fun i j x z a b c => h (i + 1) j x z (by simpa using a) (by simpa using b) (by simpa using c))
    exact ⟨.cons hd g1, .cons hd g2⟩
  | [], x :: xs, _, h1, _, _ => by simp at h1
  | j :: js, [], _, h1, _, _ => by simp at h1
  | _, [], z :: zs, _, h2, _ => by simp at h2
  | _, x :: xs, [], _, h2, _ => by simp at h2

theorem encElems_get {U : Univ} {o : Options} {h : Hint} {e : Ty} : ∀ {xs : List GV} {js : List JVal}, EncElems U o h e xs js →
    js.length = xs.length ∧ ∀ (i : Nat) j x, js[i]? = some j → xs[i]? = some x → Encodes U o h e x j
  | [], _, he => by cases he; exact ⟨rfl, by simp⟩
  | x :: xs, _, he => by
    cases he with
    | @cons _ _ _ _ _ j js g1 g2 =>
      obtain ⟨a, b⟩ := encElems_get g2
      refine ⟨by simp [a], ?_⟩
      intro i j' x' hj hx
      cases i with
      | zero => cases hj; cases hx; exact g1
      | succ i => exact b i j' x' (by simpa using hj) (by simpa using hx)

/-- Only nil pointers, maps and interfaces are written as null, and pointers to them. -/
theorem encodes_null {U : Univ} {h : Hint} {t : Ty} {v : GV} (hs : Survives U h t v) (he : Encodes U defaultOptions h t v .null) :
    v = .nilPtr ∨ v = .nilMap ∨ v = .nilIface := by
  suffices ∀ j, Survives U h t v → Encodes U defaultOptions h t v j → j = .null → v = .nilPtr ∨ v = .nilMap ∨ v = .nilIface from this _ hs he rfl
  clear hs he
  intro j hs
  refine Survives.rec (motive_1 := fun h t v _ => ∀ {j}, Encodes U defaultOptions h t v j → j = .null → v = .nilPtr ∨ v = .nilMap ∨ v = .nilIface)
    (motive_2 := fun _ _ _ => True) ?_ ?_ ?_ ?_ ?_ ?_ ?_ ?_ ?_ ?_ ?_ ?_ ?_ ?_ ?_ ?_ ?_ ?_ hs
  · intro h t b hb j he hj; subst hj; cases he
  · intro h t k i hb _ _ _ j he hj; subst hj; cases he
  · intro h t k n hb _ _ j he hj; subst hj; cases he
  · intro h t k neg m e hb _ _ _ j he hj; subst hj; cases he
  · intro h t s hb _ _ j he hj; subst hj; cases he
  · intro h t e hb j he hj; exact .inl rfl
  · intro h t e v hb h1 h2 h3 _ ih j he hj
    cases he with
    | ptr g1 g2 =>
      rw [hb] at g1; cases g1
      rcases ih g2 hj with h | h | h
      · exact absurd h h1
      · exact absurd h h2
      · exact absurd h h3
  · intro h t e arr len hb _ _ _ j he hj; subst hj; cases he
  · intro h t n e xs hb _ _ _ j he hj; subst hj; cases he
  · intro h t k e hb j he hj; exact .inr (.inl rfl)
  · intro h v hv j he hj
    subst hj
    cases hv with
    | nil => exact .inr (.inr rfl)
    | _ => cases he with
      | iface _ _ g => cases g
  · intro h t j fs cs hb _ _ _ _ j he hj; subst hj; cases he
  · trivial
  · intros; trivial
  · intros; trivial
  · intros; trivial
  · intros; trivial
  · intros; trivial

theorem decMembers_skip {U : Univ} {w : GV} {idx : List Int} {pre : List GV} {vs : List GV} (h : sub w idx = some (.struct (pre ++ vs)))
    {big : List Cand} {ms : List (Bytes × JVal)} {r : Out GV}
    (hd : DecMembers U decodeOptions big ms (put (.struct (pre ++ vs)) w idx) r) : DecMembers U decodeOptions big ms w r := by
  rwa [put_self _ _ _ h] at hd

theorem survives_back {U : Univ} (hU : U.Ok) {h : Hint} {t : Ty} {v : GV} (hs : Survives U h t v) :
    ∀ {j}, Encodes U defaultOptions h t v j → Decodes U decodeOptions t (U.zero t) j (.done v.trim none) := by
  refine Survives.rec
    (motive_1 := fun h t v _ => ∀ {j}, Encodes U defaultOptions h t v j → Decodes U decodeOptions t (U.zero t) j (.done v.trim none))
    (motive_2 := fun fs ws _ => ∀ (i : Nat) (idx : List Int) (cs big : List Cand) (x w : GV) (pre pre' : List GV) (ms : List (Bytes × JVal)),
      Cands U defaultOptions fs i idx cs → pre.length = i → pre'.length = i →
      sub x idx = some (.struct (pre ++ ws)) → sub w idx = some (.struct (pre' ++ fs.map fun f => U.zero f.typ)) →
      (∀ c ∈ cs, big.find? (fun k => k.key = c.key) = some c) → EncFields U defaultOptions x cs ms →
      ∀ ms' r, DecMembers U decodeOptions big ms' (put (.struct (pre' ++ trimL ws)) w idx) r → DecMembers U decodeOptions big (ms ++ ms') w r)
    ?bool ?int ?uint ?float ?str ?nilPtr ?ptr ?slice ?array ?nilMap ?any ?struct ?nil ?skip ?embed ?embedNil ?kept ?omitted hs
  case bool =>
    intro h t b hb j he
    cases he with
    | bool => rw [zero_base hU, hb]; exact .bool hb
  case int =>
    intro h t k i hb h1 h2 h3 j he
    have := bits_le k
    cases he with
    | int =>
      rw [zero_base hU, hb]
      have := Decodes.int (U := U) (o := decodeOptions) (x := 0) hb (readInt_repr (by omega) (by omega) h3)
      rwa [wrapInt_id h1 h2] at this
  case uint =>
    intro h t k n hb h1 h2 j he
    have := bits_le k
    cases he with
    | uint =>
      rw [zero_base hU, hb]
      have := Decodes.uint (U := U) (o := decodeOptions) (x := 0) hb (readUint_repr (by omega) h2)
      rwa [wrapUint, Nat.mod_eq_of_lt h1] at this
  case float =>
    intro h t k neg m e hb h1 h2 h3 j he
    cases he with
    | float =>
      rw [zero_base hU, hb]
      have := Decodes.float (U := U) (o := decodeOptions) (x := .num false (.fin 0 f64.emin)) hb h2
      have hk : setFloat k (.num neg (.fin m e)) = .num neg (.fin m e) := by
        cases k with
        | b32 => simp only [setFloat, toF32_exact (h3 rfl)]
        | b64 => rfl
      rwa [hk] at this
  case str =>
    intro h t s hb h1 h2 j he
    cases he with
    | str =>
      rw [zero_base hU, hb]
      have := Decodes.str (U := U) (o := decodeOptions) (x := []) (raw := strText h s) hb
      rwa [strText_back h1 h2] at this
  case nilPtr =>
    intro h t e hb j he
    cases he with
    | nilPtr =>
      have : U.zero t = .nilPtr := by rw [zero_base hU, hb]; rfl
      have hd := Decodes.null (U := U) (o := decodeOptions) (t := t) (v := U.zero t) (by rw [hb]; trivial)
      rw [this] at hd ⊢; exact hd
  case ptr =>
    intro h t e v hb h1 h2 h3 hs ih j he
    cases he with
    | ptr g1 g2 =>
      rw [hb] at g1; cases g1
      rw [zero_base hU, hb]
      refine Decodes.ptrNew hb ?_ (ih g2)
      rintro rfl
      rcases encodes_null hs g2 with h | h | h
      · exact absurd h h1
      · exact absurd h h2
      · exact absurd h h3
  case slice =>
    intro h t e arr len hb hl hx ih j he
    cases he with
    | slice g1 g2 =>
      rename_i js
      rw [hb] at g1; cases g1
      rw [zero_base hU, hb]
      obtain ⟨a, b⟩ := encElems_get g2
      have hlen : (arr.take len).length = len := by simp [hl]
      rw [hlen] at a
      have := (decElems_all (U := U) (o := decodeOptions) (e := e) (js := js) (xs := trimL (arr.take len)) (zs := List.replicate js.length (U.zero e))
        (by rw [trimL_map, List.length_map, hlen, a]) (by rw [trimL_map, List.length_map, hlen, List.length_replicate, a]) (by
          intro i j x z hj hx' hz
          rw [trimL_map, List.getElem?_map, Option.map_eq_some_iff] at hx'
          obtain ⟨x', hx', rfl⟩ := hx'
          have hz := List.eq_of_mem_replicate (List.mem_of_getElem? hz)
          subst hz
          exact ih x' (List.mem_of_getElem? hx') (b i j x' hj hx'))).1
      have := Decodes.nilSlice hb this
      rw [trimL_map, List.length_map, hlen] at this
      rw [GV.trim, trimL_map, ← List.map_take]
      exact this
  case array =>
    intro h t n e xs hb hl hx ih j he
    cases he with
    | array g1 g2 =>
      rename_i js
      rw [hb] at g1; cases g1
      rw [zero_base hU, hb]
      obtain ⟨a, b⟩ := encElems_get g2
      have := (decElems_all (U := U) (o := decodeOptions) (e := e) (js := js) (xs := trimL xs) (zs := List.replicate n (U.zero e))
        (by rw [trimL_map, List.length_map, a]) (by rw [trimL_map, List.length_map, List.length_replicate, hl]) (by
          intro i j x z hj hx' hz
          rw [trimL_map, List.getElem?_map, Option.map_eq_some_iff] at hx'
          obtain ⟨x', hx', rfl⟩ := hx'
          have hz := List.eq_of_mem_replicate (List.mem_of_getElem? hz)
          subst hz
          exact ih x' (List.mem_of_getElem? hx') (b i j x' hj hx'))).2
      exact Decodes.array hb this
  case nilMap =>
    intro h t k e hb j he
    cases he with
    | nilMap =>
      have : U.zero t = .nilMap := by rw [zero_base hU, hb]; rfl
      rw [this]; exact .mapNull hb
  case any =>
    intro h v hv j he
    exact .any (jsonAny_back hv he)
  case struct =>
    intro h t j fs cs hb hc hn _ ih k he
    cases he with
    | @struct _ _ _ j' cs' _ ms g1 g2 g3 =>
      rw [hb] at g1; cases g1
      have := cands_unique hc g2
      subst this
      have hr := resolve_nodup cs [] (by simpa using hn)
      rw [List.nil_append] at hr
      rw [hr] at g3
      refine .struct hb (cands_decode hc) ?_
      rw [hr]
      have hz : U.zero t = .struct ((U.fields j).map fun f => U.zero f.typ) := by rw [zero_base hU, hb]; exact hU.zero_struct j
      have := ih 0 [] cs cs (.struct fs) (U.zero t) [] [] ms hc rfl rfl (by rw [sub]; rfl) (by rw [sub, hz]; rfl) (find_nodup hn) g3 [] (.done (GV.struct fs).trim none)
        (by rw [put]; exact .nil)
      rwa [List.append_nil] at this
  case nil =>
    intro i idx cs big x w pre pre' ms hc _ _ hx hw _ he ms' r hd
    cases hc
    cases he
    exact decMembers_skip hw hd
  case skip =>
    intro f fs vs h1 _ ih i idx cs big x w pre pre' ms hc h2 h3 hx hw hbig he ms' r hd
    have hc : Cands U defaultOptions fs (i + 1) idx cs := by
      cases hc with
      | skip _ h => exact h
      | embed g1 g2 => rcases h1 with h | h; · rw [h] at g1; cases g1
                       · exact absurd h g2
      | field g1 g2 => rcases h1 with h | h; · rw [h] at g1; cases g1
                       · exact absurd h g2
    refine ih (i + 1) idx cs big x w (pre ++ [U.zero f.typ]) (pre' ++ [U.zero f.typ]) ms hc (by simp [h2]) (by simp [h3]) (by simpa using hx) (by simpa using hw)
      hbig he ms' r ?_
    rw [trimL, trim_zero hU] at hd
    simpa using hd
  case embed =>
    intro f fs vs k ws h1 h2 h3 h4 hb _ _ ih1 ih2 i idx cs big x w pre pre' ms hc g2 g3 hx hw hbig he ms' r hd
    have hemb : ∀ idx, embedding U f (defaultOptions.parseField f).2.2 idx = (idx, some k) := by
      intro idx; unfold embedding; rw [h4, h3]; simp [hb]
    cases hc with
    | skip g => rcases g with g | g; · rw [h1] at g; cases g
                · exact absurd g h2
    | field _ _ g => rw [hemb] at g; cases g
    | @embed _ _ _ _ c1 c2 idx' j' _ _ g hc1 hc2 =>
      rw [hemb] at g; cases g
      obtain ⟨m1, m2, rfl, e1, e2⟩ := encFields_append he
      rw [List.append_assoc]
      have hzf : U.zero f.typ = .struct ((U.fields k).map fun f => U.zero f.typ) := by rw [zero_base hU, hb]; exact hU.zero_struct k
      have hxi : sub x (idx ++ [(i : Int)]) = some (.struct ws) := by
        rw [sub_append, hx, Option.bind_some, sub_field (x := .struct ws) (by rw [← g2]; simp), sub]
      have hwi : sub w (idx ++ [(i : Int)]) = some (U.zero f.typ) := by
        rw [sub_append, hw, Option.bind_some, sub_field (x := U.zero f.typ) (by rw [← g3]; simp), sub]
      refine ih1 0 (idx ++ [(i : Int)]) c1 big x w [] [] m1 hc1 rfl rfl hxi (by rw [hwi, hzf]; rfl)
        (fun c hc => hbig c (by simp [hc])) e1 (m2 ++ ms') r ?_
      have hput : put (.struct ([] ++ trimL ws)) w (idx ++ [(i : Int)]) =
          put (.struct (pre' ++ .struct (trimL ws) :: fs.map fun f => U.zero f.typ)) w idx := by
        rw [put_append _ _ _ _ hw, put_field (x := U.zero f.typ) (by rw [← g3]; simp), put, ← g3]
        simp
      rw [hput]
      obtain ⟨p1, p2⟩ := put_put (a := .struct (pre' ++ trimL (.struct ws :: vs))) (b := .struct (pre' ++ .struct (trimL ws) :: fs.map fun f => U.zero f.typ)) idx w _ hw
      refine ih2 (i + 1) idx c2 big x _ (pre ++ [.struct ws]) (pre' ++ [.struct (trimL ws)]) m2 hc2 (by simp [g2]) (by simp [g3]) (by simpa using hx)
        (by rw [p2]; simp) (fun c hc => hbig c (by simp [hc])) e2 ms' r ?_
      have : pre' ++ [.struct (trimL ws)] ++ trimL vs = pre' ++ trimL (.struct ws :: vs) := by simp [trimL, GV.trim]
      rw [this, p1]
      exact hd
  case embedNil =>
    intro f fs vs e h1 h3 h4 hb _ ih i idx cs big x w pre pre' ms hc g2 g3 hx hw hbig he ms' r hd
    have hzf : U.zero f.typ = .nilPtr := by rw [zero_base hU, hb]; rfl
    have main : ∀ {cs ms}, Cands U defaultOptions fs (i + 1) idx cs → (∀ c ∈ cs, big.find? (fun k => k.key = c.key) = some c) →
        EncFields U defaultOptions x cs ms → DecMembers U decodeOptions big (ms ++ ms') w r := by
      intro cs ms hc hbig he
      refine ih (i + 1) idx cs big x w (pre ++ [.nilPtr]) (pre' ++ [.nilPtr]) ms hc (by simp [g2]) (by simp [g3]) (by simpa using hx)
        (by rw [hw]; simp [hzf]) hbig he ms' r ?_
      have : pre' ++ [.nilPtr] ++ trimL vs = pre' ++ trimL (.nilPtr :: vs) := by simp [trimL, GV.trim]
      rw [this]; exact hd
    have hxi : sub x (idx ++ [(i : Int)]) = some .nilPtr := by
      rw [sub_append, hx, Option.bind_some, sub_field (x := .nilPtr) (by rw [← g2]; simp), sub]
    have habs : ∀ q, sub x (idx ++ [(i : Int)] ++ -1 :: q) = none := by
      intro q
      rw [sub_append, hxi, Option.bind_some, sub_cons, if_pos rfl]
    have hemb : ∀ idx, (embedding U f (defaultOptions.parseField f).2.2 idx).1 = idx ++ [-1] := by
      intro idx; unfold embedding; rw [h4, h3]; simp only [hb]; split <;> first | (split <;> rfl) | simp_all
    cases hc with
    | skip _ h => exact main h hbig he
    | @embed _ _ _ _ c1 c2 idx' j' _ _ g hc1 hc2 =>
      obtain ⟨m1, m2, rfl, e1, e2⟩ := encFields_append he
      have hi := hemb (idx ++ [(i : Int)])
      rw [g] at hi
      simp only at hi
      have := encFields_absent e1 (by
        intro c hc
        obtain ⟨k, q, hq, _⟩ := cands_index hc1 c hc
        rw [hq, hi, List.append_assoc]
        exact habs _)
      subst this
      exact main hc2 (fun c hc => hbig c (by simp [hc])) e2
    | field _ _ g hc' =>
      rename_i c2 idx'
      have hi := hemb (idx ++ [(i : Int)])
      rw [g] at hi
      simp only at hi
      subst hi
      have ha : sub x (idx ++ [(i : Int)] ++ [-1]) = none := habs []
      cases he with
      | absent _ h => exact main hc' (fun c hc => hbig c (by simp [hc])) h
      | omitted h => rw [ha] at h; cases h
      | present h => rw [ha] at h; cases h
  case kept =>
    intro f fs vs v idx0 h1 h2 h3 hom hs _ ih1 ih2 i idx cs big x w pre pre' ms hc g2 g3 hx hw hbig he ms' r hd
    have hemb : ∀ idx, embedding U f (defaultOptions.parseField f).2.2 idx = (idx, none) := by
      intro idx; unfold embedding
      by_cases ha : f.anon = true ∧ (defaultOptions.parseField f).2.2 = false
      · obtain ⟨q1, q2⟩ := h3 ha.1 ha.2
        rw [ha.1, ha.2]
        cases hb : U.base f.typ <;> first | exact absurd hb (q1 _) | exact absurd hb (q2 _) | rfl
      · rw [if_neg (by simp at ha ⊢; intro h; by_contra hc; exact absurd (ha (by simpa using hc)) (by simp [h]))]
    cases hc with
    | skip g => rcases g with g | g; · rw [h1] at g; cases g
                · exact absurd g h2
    | embed _ _ g => rw [hemb] at g; cases g
    | @field _ _ _ _ c2 idx' _ _ g hc' =>
      rw [hemb] at g; cases g
      have hxi : sub x (idx ++ [(i : Int)]) = some v := by
        rw [sub_append, hx, Option.bind_some, sub_field (x := v) (by rw [← g2]; simp), sub]
      have hwi : sub w (idx ++ [(i : Int)]) = some (U.zero f.typ) := by
        rw [sub_append, hw, Option.bind_some, sub_field (x := U.zero f.typ) (by rw [← g3]; simp), sub]
      cases he with
      | absent q => simp only at q; rw [hxi] at q; cases q
      | omitted q1 q2 =>
        simp only at q1; rw [hxi] at q1; cases q1
        have := omits_unique q2 (omits_congr hom rfl rfl)
        cases this
      | present q1 _ q2 q3 =>
        simp only at q1; rw [hxi] at q1; cases q1
        simp only at q2
        rw [List.cons_append]
        refine .cons (hbig _ List.mem_cons_self) hwi (ih1 q2) ?_
        have hput : put v.trim w (idx ++ [(i : Int)]) = put (.struct (pre' ++ v.trim :: fs.map fun f => U.zero f.typ)) w idx := by
          rw [put_append _ _ _ _ hw, put_field (x := U.zero f.typ) (by rw [← g3]; simp), put, ← g3]
          simp
        simp only
        rw [hput]
        obtain ⟨p1, p2⟩ := put_put (a := .struct (pre' ++ trimL (v :: vs))) (b := .struct (pre' ++ v.trim :: fs.map fun f => U.zero f.typ)) idx w _ hw
        refine ih2 (i + 1) idx c2 big x _ (pre ++ [v]) (pre' ++ [v.trim]) _ hc' (by simp [g2]) (by simp [g3]) (by simpa using hx)
          (by rw [p2]; simp) (fun c hc => hbig c (by simp [hc])) q3 ms' r ?_
        have : pre' ++ [v.trim] ++ trimL vs = pre' ++ trimL (v :: vs) := by simp [trimL]
        rw [this, p1]
        exact hd
  case omitted =>
    intro f fs vs idx0 h1 h2 h3 hom _ ih2 i idx cs big x w pre pre' ms hc g2 g3 hx hw hbig he ms' r hd
    have hemb : ∀ idx, embedding U f (defaultOptions.parseField f).2.2 idx = (idx, none) := by
      intro idx; unfold embedding
      by_cases ha : f.anon = true ∧ (defaultOptions.parseField f).2.2 = false
      · obtain ⟨q1, q2⟩ := h3 ha.1 ha.2
        rw [ha.1, ha.2]
        cases hb : U.base f.typ <;> first | exact absurd hb (q1 _) | exact absurd hb (q2 _) | rfl
      · rw [if_neg (by simp at ha ⊢; intro h; by_contra hc; exact absurd (ha (by simpa using hc)) (by simp [h]))]
    cases hc with
    | skip g => rcases g with g | g; · rw [h1] at g; cases g
                · exact absurd g h2
    | embed _ _ g => rw [hemb] at g; cases g
    | @field _ _ _ _ c2 idx' _ _ g hc' =>
      rw [hemb] at g; cases g
      have hxi : sub x (idx ++ [(i : Int)]) = some (U.zero f.typ) := by
        rw [sub_append, hx, Option.bind_some, sub_field (x := U.zero f.typ) (by rw [← g2]; simp), sub]
      cases he with
      | absent q => simp only at q; rw [hxi] at q; cases q
      | present q1 q2 =>
        simp only at q1; rw [hxi] at q1; cases q1
        have := omits_unique q2 (omits_congr hom rfl rfl)
        cases this
      | omitted q1 _ q3 =>
        refine ih2 (i + 1) idx c2 big x w (pre ++ [U.zero f.typ]) (pre' ++ [U.zero f.typ]) ms hc' (by simp [g2]) (by simp [g3]) (by simpa using hx)
          (by simpa using hw) (fun c hc => hbig c (by simp [hc])) q3 ms' r ?_
        rw [trimL, trim_zero hU] at hd
        simpa using hd

end Verif.Unjson
