import Verif.Spec.UnExact
import Verif.Proofs.GenSameDec
import Verif.Proofs.UnRound
import Verif.Props.NumInt

/-! # Exactly the values that come back: lemmas -/

namespace Verif.Unjson
open Verif Verif.Float Verif.Spec Verif.Njson Verif.Gen

/-! ## Paths -/

theorem put_none {y : GV} : ∀ (p : List Int) (v : GV), sub v p = none → put y v p = v
  | [], v, h => by rw [sub] at h; cases h
  | i :: p, v, h => by
    rw [sub_cons] at h
    rw [put_cons]
    by_cases hi : i = -1
    · rw [if_pos hi] at h ⊢
      cases v with
      | ptr x => simp only at h ⊢; rw [put_none p x h]
      | _ => rfl
    · rw [if_neg hi] at h ⊢
      cases v with
      | struct fs =>
        simp only at h ⊢
        cases hx : fs[i.toNat]? with
        | none => rfl
        | some x =>
          rw [hx] at h
          simp only at h ⊢
          obtain ⟨hl, hx⟩ := List.getElem?_eq_some_iff.1 hx
          rw [put_none p x h]; subst hx; rw [List.set_getElem_self]
      | _ => rfl

theorem put_over {a b : GV} (p : List Int) (v : GV) : put a (put b v p) p = put a v p := by
  cases h : sub v p with
  | none => rw [put_none p v h]
  | some s => exact (put_put p v s h).1

theorem sub_put_self {y : GV} {p : List Int} {v s : GV} (h : sub v p = some s) : sub (put y v p) p = some y := (put_put (a := y) p v s h).2

theorem put_comm_apart {x y : GV} {a b : Nat} (hab : a ≠ b) (p q : List Int) : ∀ (pre : List Int) (v : GV),
    put y (put x v (pre ++ (a : Int) :: p)) (pre ++ (b : Int) :: q) = put x (put y v (pre ++ (b : Int) :: q)) (pre ++ (a : Int) :: p)
  | [], v => by
    rw [List.nil_append, List.nil_append, put_cons x, put_cons y v, if_neg (by omega), if_neg (by omega)]
    cases v with
    | struct fs =>
      simp only [Int.toNat_natCast]
      cases ha : fs[a]? with
      | none =>
        simp only
        rw [put_cons, if_neg (by omega), put_cons, if_neg (by omega)]
        cases hb : fs[b]? with
        | none => simp [ha, hb]
        | some u => simp [ha, hb, List.getElem?_set_ne (Ne.symm hab)]
      | some w =>
        simp only
        rw [put_cons, if_neg (by omega), put_cons, if_neg (by omega)]
        cases hb : fs[b]? with
        | none => simp [ha, hb, List.getElem?_set_ne hab]
        | some u => simp [ha, hb, List.getElem?_set_ne hab, List.getElem?_set_ne (Ne.symm hab), List.set_comm _ _ hab]
    | _ => simp [put_cons]
  | i :: pre, v => by
    rw [List.cons_append, List.cons_append, put_cons x, put_cons y v]
    by_cases hi : i = -1
    · rw [if_pos hi, if_pos hi]
      cases v with
      | ptr z =>
        simp only
        rw [put_cons, put_cons, if_pos hi, if_pos hi]
        simp only
        rw [put_comm_apart hab p q pre z]
      | _ => simp [put_cons, hi]
    · rw [if_neg hi, if_neg hi]
      cases v with
      | struct fs =>
        simp only
        rw [put_cons, put_cons, if_neg hi, if_neg hi]
        simp only
        cases hx : fs[i.toNat]? with
        | none => simp [hx]
        | some z =>
          obtain ⟨hl, _⟩ := List.getElem?_eq_some_iff.1 hx
          simp only [List.getElem?_set_self hl, List.set_set]
          rw [put_comm_apart hab p q pre z]
      | _ => simp [put_cons, hi]

theorem iapart_put_comm {x y v : GV} {p q : List Int} (h : IApart p q) : put y (put x v p) q = put x (put y v q) p := by
  obtain ⟨pre, a, b, p', q', rfl, rfl, hab⟩ := h
  exact put_comm_apart hab _ _ _ _

theorem iapart_sub_put {y v : GV} {p q : List Int} (h : IApart p q) : sub (put y v p) q = sub v q := by
  obtain ⟨pre, a, b, p', q', rfl, rfl, hab⟩ := h
  exact sub_put_apart hab _ _ _ _

theorem trim_sub : ∀ (p : List Int) (v : GV), sub v.trim p = (sub v p).map GV.trim
  | [], v => by rw [sub, sub]; rfl
  | i :: p, v => by
    rw [sub_cons, sub_cons]
    by_cases hi : i = -1
    · rw [if_pos hi, if_pos hi]
      cases v with
      | ptr x => exact trim_sub p x
      | _ => rfl
    · rw [if_neg hi, if_neg hi]
      cases v with
      | struct fs =>
        simp only [GV.trim, trimL_map, List.getElem?_map]
        cases fs[i.toNat]? with
        | none => rfl
        | some x => exact trim_sub p x
      | _ => rfl

theorem trim_put {y : GV} : ∀ (p : List Int) (v : GV), (put y v p).trim = put y.trim v.trim p
  | [], v => by rw [put, put]
  | i :: p, v => by
    rw [put_cons, put_cons]
    by_cases hi : i = -1
    · rw [if_pos hi, if_pos hi]
      cases v with
      | ptr x => simp only [GV.trim]; rw [trim_put p x]
      | _ => rfl
    · rw [if_neg hi, if_neg hi]
      cases v with
      | struct fs =>
        simp only [GV.trim, trimL_map, List.getElem?_map]
        cases fs[i.toNat]? with
        | none => rfl
        | some x => simp only [Option.map_some, List.map_set, trim_put p x]
      | _ => rfl

theorem trim_eq_zero {U : Univ} (hU : U.Ok) {t : Ty} : ∀ {v : GV}, v.trim = U.zero t → v = U.zero t := by
  have key : ∀ {xs ys : List GV}, (∀ x ∈ xs, ∀ v : GV, v.trim = x → v = x) → trimL ys = xs → ys = xs := by
    intro xs ys
    induction ys generalizing xs with
    | nil => intro _ h; exact h
    | cons y ys ih =>
      intro hx h
      rw [trimL] at h
      subst h
      rw [← hx _ List.mem_cons_self y rfl, ← ih (fun x h => hx x (by simp [h])) rfl]
  refine zero_ind hU (P := fun z => ∀ v : GV, v.trim = z → v = z) ?_ ?_ ?_ ?_ ?_ ?_ ?_ ?_ ?_ ?_ ?_ ?_ t
  iterate 10 (intro v h; cases v <;> first | exact h | (simp only [GV.trim] at h; cases h))
  · intro xs hx v h
    cases v <;> simp only [GV.trim] at h <;> cases h
    exact congrArg _ (key hx rfl)
  · intro xs hx v h
    cases v <;> simp only [GV.trim] at h <;> cases h
    exact congrArg _ (key hx rfl)

/-! ## Clearing and filling fields -/

theorem clear_nil (U : Univ) (v : GV) : clear U [] v = v := rfl
theorem clear_cons (U : Univ) (c : Cand) (cs : List Cand) (v : GV) : clear U (c :: cs) v = clear U cs (put (U.zero c.typ) v c.index) := rfl

theorem clear_put {U : Univ} {y : GV} {q : List Int} : ∀ {cs : List Cand} {v : GV}, (∀ c ∈ cs, IApart q c.index) →
    clear U cs (put y v q) = put y (clear U cs v) q
  | [], v, _ => rfl
  | c :: cs, v, h => by
    rw [clear_cons, clear_cons, iapart_put_comm (h c (by simp)), clear_put fun c hc => h c (by simp [hc])]

theorem clear_put_mem {U : Univ} {y : GV} {c : Cand} : ∀ {cs : List Cand} {v : GV}, cs.Pairwise (fun a b => IApart a.index b.index) → c ∈ cs →
    clear U cs (put y v c.index) = clear U cs v
  | d :: cs, v, hp, hc => by
    rw [List.pairwise_cons] at hp
    rw [clear_cons, clear_cons]
    rcases List.mem_cons.1 hc with rfl | hc
    · rw [put_over]
    · rw [iapart_put_comm (hp.1 c hc).symm, clear_put_mem hp.2 hc]

theorem clear_sub {U : Univ} {q : List Int} : ∀ {cs : List Cand} {v : GV}, (∀ c ∈ cs, IApart q c.index) → sub (clear U cs v) q = sub v q
  | [], _, _ => rfl
  | c :: cs, v, h => by
    rw [clear_cons, clear_sub fun c hc => h c (by simp [hc]), iapart_sub_put (h c (by simp)).symm]

theorem clear_sub_mem {U : Univ} {c : Cand} {x : GV} : ∀ {cs : List Cand} {v : GV}, cs.Pairwise (fun a b => IApart a.index b.index) → c ∈ cs →
    sub v c.index = some x → sub (clear U cs v) c.index = some (U.zero c.typ)
  | d :: cs, v, hp, hc, hx => by
    rw [List.pairwise_cons] at hp
    rw [clear_cons]
    rcases List.mem_cons.1 hc with rfl | hc
    · rw [clear_sub hp.1, sub_put_self hx]
    · exact clear_sub_mem hp.2 hc (by rw [iapart_sub_put (hp.1 c hc), hx])

theorem clear_trim {U : Univ} (hU : U.Ok) : ∀ {cs : List Cand} {v : GV}, (clear U cs v).trim = clear U cs v.trim
  | [], _ => rfl
  | c :: cs, v => by rw [clear_cons, clear_cons, clear_trim hU, trim_put, trim_zero hU]

theorem clear_same {U : Univ} : ∀ {cs : List Cand} {v : GV}, (∀ c ∈ cs, ∀ x, sub v c.index = some x → x = U.zero c.typ) → clear U cs v = v
  | [], _, _ => rfl
  | c :: cs, v, h => by
    have : put (U.zero c.typ) v c.index = v := by
      cases hx : sub v c.index with
      | none => exact put_none _ _ hx
      | some x => rw [← h c (by simp) x hx]; exact put_self _ _ _ hx
    rw [clear_cons, this, clear_same fun c hc => h c (by simp [hc])]

/-- The fields of `u` put into `w`. -/
def fill (u : GV) (cs : List Cand) (w : GV) : GV :=
  cs.foldl (fun w c => (match sub u c.index with | some x => put x w c.index | none => w)) w

theorem fill_some {u x : GV} {c : Cand} {cs : List Cand} {w : GV} (h : sub u c.index = some x) : fill u (c :: cs) w = fill u cs (put x w c.index) := by
  unfold fill; rw [List.foldl_cons, h]
theorem fill_none {u : GV} {c : Cand} {cs : List Cand} {w : GV} (h : sub u c.index = none) : fill u (c :: cs) w = fill u cs w := by
  unfold fill; rw [List.foldl_cons, h]

theorem fill_clear {U : Univ} {u : GV} : ∀ {cs : List Cand}, cs.Pairwise (fun a b => IApart a.index b.index) → fill u cs (clear U cs u) = u
  | [], _ => rfl
  | c :: cs, hp => by
    rw [List.pairwise_cons] at hp
    rw [clear_cons]
    cases hx : sub u c.index with
    | none => rw [fill_none hx, put_none _ _ hx, fill_clear hp.2]
    | some x => rw [fill_some hx, ← clear_put hp.1, put_over, put_self _ _ _ hx, fill_clear hp.2]

/-! ## Leaves -/

theorem valid_of_back {html : Bool} {s : Bytes} (h : StrJson.unescaped (StrJson.escaped s html false) = s) : ValidUtf8 s := by
  have hs := (Props.C02_unescape_escape s html s).2 h
  have : ∀ {s t}, Sanitized s t → ValidUtf8 t := by
    intro s t h
    induction h with
    | nil => exact ⟨[], rfl⟩
    | char c _ ih => obtain ⟨cs, hc⟩ := ih; exact ⟨c :: cs, by rw [List.flatMap_cons, ← hc]⟩
    | bad b _ _ ih => obtain ⟨cs, hc⟩ := ih; exact ⟨⟨65533, by decide⟩ :: cs, by rw [List.flatMap_cons, ← hc]; rfl⟩
  exact this hs

theorem strText_iff {h : Hint} {s : Bytes} (hh : h.raw = true → h.html = true) : StrJson.unescaped (strText h s) = s ↔ ValidUtf8 s := by
  unfold strText
  by_cases h1 : h.html = true
  · rw [if_pos h1]; exact ⟨valid_of_back, Props.C01_roundtrip s true⟩
  · rw [if_neg h1, if_neg (fun h2 => h1 (hh h2))]; exact ⟨valid_of_back, Props.C01_roundtrip s false⟩

theorem rounds_self {i : ℤ} (h : i.natAbs < 2 ^ 65) : Rounds i i ↔ Repr64 i.natAbs := by
  constructor
  · rintro ⟨m, e, h1, h2, _⟩
    exact ⟨m, e, h1.1, h2⟩
  · rintro ⟨m', e', h4, h5⟩
    obtain ⟨j, m, e, h1, h2, h3⟩ := Props.rounds_exists (i := i) (by omega)
    have := (h1.2.2 m' e' h4).1
    rw [h5, sub_self, abs_zero] at this
    have := abs_eq_zero.1 (le_antisymm this (abs_nonneg _))
    exact ⟨m, e, h1, by linarith, Iff.rfl⟩

theorem readInt_iff {i : ℤ} (h1 : -2 ^ 63 ≤ i) (h2 : i < 2 ^ 63) : readInt (formatInt i) = some i ↔ Repr64 i.natAbs ∨ 2 ^ 63 - 512 ≤ i := by
  rw [← rounds_self (by omega)]
  have ha := Props.readInt_arrives (formatInt_decimal i)
  obtain ⟨j, hj⟩ := Props.rounds_exists (i := i) (by omega)
  have hr := Props.rounds_signed hj
  constructor
  · intro h
    rw [h] at ha
    cases ha with
    | rounded g => exact .inl g
    | itself g =>
      have := mt hr.2 (g j hj)
      exact .inr (by omega)
  · intro h
    generalize hq : readInt (formatInt i) = q at ha
    cases ha with
    | rounded g g1 g2 =>
      rcases h with h | h
      · rw [Props.rounds_unique h g]
      · have := (Props.rounds_signed g).1 ⟨g1, g2⟩; omega
    | itself g => rfl
    | rejected _ g => exact absurd ⟨h1, h2⟩ g

theorem readUint_iff {n : Nat} (h : n < 2 ^ 64) : readUint (formatUint n) = some n ↔ Repr64 n ∨ 2 ^ 64 - 1024 ≤ n := by
  have hs : Rounds (n : ℤ) n ↔ Repr64 n := by simpa using rounds_self (i := (n : ℤ)) (by omega)
  rw [← hs]
  have ha := Props.readUint_arrives (formatUint_decimal n)
  obtain ⟨j, hj⟩ := Props.rounds_exists (i := (n : ℤ)) (by omega)
  have hr := Props.rounds_unsigned hj
  constructor
  · intro h
    rw [h] at ha
    simp only [Option.map_some] at ha
    cases ha with
    | rounded g => exact .inl g
    | itself g =>
      have := mt hr.2 (g j hj)
      exact .inr (by omega)
  · intro h
    cases hq : readUint (formatUint n) with
    | none =>
      rw [hq] at ha
      cases ha with
      | rejected _ g => exact absurd ⟨by omega, by omega⟩ g
    | some k =>
      rw [hq] at ha
      simp only [Option.map_some] at ha
      generalize hk : Int.ofNat k = K at ha
      cases ha with
      | rounded g g1 g2 =>
        rcases h with h | h
        · have := Props.rounds_unique h g; congr 1; simp at hk; omega
        · have := (Props.rounds_unsigned g).1 ⟨g1, g2⟩; omega
      | itself g => congr 1; simp at hk; omega

end Verif.Unjson
