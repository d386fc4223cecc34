import Verif.Model.BytemaperFile
import Verif.Spec.BytemaperFile
import Verif.Proofs.ErrText

/-! # Proofs about the file that bytemaper prints -/

namespace Verif.Bytemaper
open Verif Verif.Spec Verif.Spec.TableFile Verif.StructTag Verif.ErrText

/-! ## the reading is unique -/

theorem idChars_cut {a b x y : Bytes} (ha : a.all isIdChar = true) (hb : b.all isIdChar = true)
    (hx : x.head?.any isIdChar = false) (hy : y.head?.any isIdChar = false) (h : a ++ x = b ++ y) : a = b ∧ x = y := by
  induction a generalizing b with
  | nil =>
    cases b with
    | nil => exact ⟨rfl, h⟩
    | cons c b =>
      simp only [List.nil_append, List.cons_append] at h
      subst h
      simp only [List.head?_cons, Option.any_some] at hx
      simp only [List.all_cons, Bool.and_eq_true] at hb
      rw [hb.1] at hx; cases hx
  | cons c a ih =>
    cases b with
    | nil =>
      simp only [List.nil_append, List.cons_append] at h
      subst h
      simp only [List.head?_cons, Option.any_some] at hy
      simp only [List.all_cons, Bool.and_eq_true] at ha
      rw [ha.1] at hy; cases hy
    | cons d b =>
      simp only [List.cons_append, List.cons.injEq] at h
      simp only [List.all_cons, Bool.and_eq_true] at ha hb
      obtain ⟨e1, e2⟩ := ih ha.2 hb.2 h.2
      exact ⟨by rw [h.1, e1], e2⟩

theorem lit_cut {q q' v v' x x' : Bytes} (l : Lit q v) (l' : Lit q' v') (h : q ++ 34 :: x = q' ++ 34 :: x') : q = q' ∧ v = v' ∧ x = x' := by
  have h1 := scanQuoted_raw (lit_raw l) x
  rw [h, scanQuoted_raw (lit_raw l') x'] at h1
  simp only [Option.some.injEq, Prod.mk.injEq] at h1
  obtain ⟨rfl, rfl⟩ := h1
  exact ⟨rfl, lit_fun l l', rfl⟩

theorem consts_cut {a a' r r' : Bytes} {cs cs' : List (Bytes × Bytes)} (h : Consts a cs) (h' : Consts a' cs')
    (e : a ++ (b!"\n)" ++ r) = a' ++ (b!"\n)" ++ r')) : cs = cs' ∧ r = r' := by
  induction h generalizing a' cs' with
  | nil =>
    cases h' with
    | nil => simpa using e
    | cons _ _ _ => simp at e
  | cons hn hl hc ih =>
    cases h' with
    | nil => simp at e
    | cons hn' hl' hc' =>
      simp only [List.append_assoc] at e
      have e1 := List.append_cancel_left e
      obtain ⟨rfl, e2⟩ := idChars_cut hn.2.1 hn'.2.1 (by rfl) (by rfl) e1
      have e3 := List.append_cancel_left e2
      obtain ⟨rfl, rfl, e4⟩ := lit_cut hl hl' e3
      obtain ⟨rfl, rfl⟩ := ih hc' e4
      exact ⟨rfl, rfl⟩

theorem funcs_fun {b : Bytes} {fs fs' : List Fn} (h : Funcs b fs) (h' : Funcs b fs') : fs = fs' := by
  induction h generalizing fs' with
  | nil =>
    generalize hb : b!"\n" = b at h'
    cases h' with
    | nil => rfl
    | bool _ _ _ => simp at hb
    | byte _ _ _ => simp at hb
  | bool hf hn _ ih =>
    generalize hb : b!"\n\nfunc " ++ _ ++ b!"(c byte) bool {\n\treturn " ++ _ ++ b!"[c] == 1\n}" ++ _ = b at h'
    cases h' with
    | nil => simp at hb
    | bool hf' hn' h' =>
      simp only [List.append_assoc] at hb
      obtain ⟨rfl, e2⟩ := idChars_cut hf.2.1 hf'.2.1 (by rfl) (by rfl) (List.append_cancel_left hb)
      obtain ⟨rfl, e4⟩ := idChars_cut hn.2.1 hn'.2.1 (by rfl) (by rfl) (List.append_cancel_left e2)
      have e5 := List.append_cancel_left e4
      subst e5
      rw [ih h']
    | byte hf' hn' h' =>
      simp only [List.append_assoc] at hb
      obtain ⟨rfl, e2⟩ := idChars_cut hf.2.1 hf'.2.1 (by rfl) (by rfl) (List.append_cancel_left hb)
      simp at e2
  | byte hf hn _ ih =>
    generalize hb : b!"\n\nfunc " ++ _ ++ b!"(c byte) byte {\n\treturn " ++ _ ++ b!"[c]\n}" ++ _ = b at h'
    cases h' with
    | nil => simp at hb
    | byte hf' hn' h' =>
      simp only [List.append_assoc] at hb
      obtain ⟨rfl, e2⟩ := idChars_cut hf.2.1 hf'.2.1 (by rfl) (by rfl) (List.append_cancel_left hb)
      obtain ⟨rfl, e4⟩ := idChars_cut hn.2.1 hn'.2.1 (by rfl) (by rfl) (List.append_cancel_left e2)
      have e5 := List.append_cancel_left e4
      subst e5
      rw [ih h']
    | bool hf' hn' h' =>
      simp only [List.append_assoc] at hb
      obtain ⟨rfl, e2⟩ := idChars_cut hf.2.1 hf'.2.1 (by rfl) (by rfl) (List.append_cancel_left hb)
      simp at e2

theorem comment_cut {a b x y : Bytes} (ha : 10 ∉ a) (hb : 10 ∉ b) (h : a ++ 10 :: x = b ++ 10 :: y) : a = b ∧ x = y := by
  induction a generalizing b with
  | nil =>
    cases b with
    | nil => simpa using h
    | cons c b => simp only [List.nil_append, List.cons_append, List.cons.injEq] at h; rw [h.1] at hb; simp at hb
  | cons c a ih =>
    cases b with
    | nil => simp only [List.nil_append, List.cons_append, List.cons.injEq] at h; rw [← h.1] at ha; simp at ha
    | cons d b =>
      simp only [List.cons_append, List.cons.injEq] at h
      simp only [List.mem_cons, not_or] at ha hb
      obtain ⟨e1, e2⟩ := ih ha.2 hb.2 h.2
      exact ⟨by rw [h.1, e1], e2⟩

theorem goFile_one {text pkg pkg' : Bytes} {cs cs' : List (Bytes × Bytes)} {fs fs' : List Fn} (h : GoFile text pkg cs fs)
    (h' : GoFile text pkg' cs' fs') : pkg = pkg' ∧ cs = cs' ∧ fs = fs' := by
  obtain ⟨m, a, b, hm, hp, hc, hf, rfl⟩ := h
  obtain ⟨m', a', b', hm', hp', hc', hf', e⟩ := h'
  simp only [List.append_assoc] at e
  have e1 := List.append_cancel_left e
  obtain ⟨rfl, e2⟩ := comment_cut hm hm' e1
  have e3 := List.append_cancel_left (as := b!"package ") e2
  obtain ⟨rfl, e4⟩ := idChars_cut hp.2.1 hp'.2.1 (by rfl) (by rfl) e3
  have e5 := List.append_cancel_left e4
  obtain ⟨rfl, rfl⟩ := consts_cut hc hc' e5
  exact ⟨rfl, rfl, funcs_fun hf hf'⟩

/-! ## what is printed -/

/-- The constants and functions of the tables `m`. -/
def constsOf (pre : Bytes) (m : List (Bytes × Bytes)) : List (Bytes × Bytes) := m.map fun p => (pre ++ p.1, p.2)
def funcsOf (pre : Bytes) (m : List (Bytes × Bytes)) : List Fn := m.map fun p => ⟨p.1, b!"Is".isPrefixOf p.1, pre ++ p.1⟩

theorem constText_reads (hi : Nat → Bool) (pre : Bytes) (m : List (Bytes × Bytes)) (h : ∀ p ∈ m, IsIdent (pre ++ p.1)) :
    Consts (constText hi pre m) (constsOf pre m) := by
  induction m with
  | nil => exact .nil
  | cons p m ih =>
    obtain ⟨q, hq, hl⟩ := quoteStr_lit hi p.2
    have := Consts.cons (h p (by simp)) hl (ih fun p hp => h p (by simp [hp]))
    show Consts (b!"\n\t" ++ pre ++ p.1 ++ b!" = " ++ quoteStr hi p.2 ++ constText hi pre m) ((pre ++ p.1, p.2) :: constsOf pre m)
    rw [hq]
    simpa [List.append_assoc] using this

theorem funcText_reads (pre : Bytes) (m : List (Bytes × Bytes)) (h : ∀ p ∈ m, IsIdent p.1 ∧ IsIdent (pre ++ p.1)) :
    Funcs (funcText pre m) (funcsOf pre m) := by
  induction m with
  | nil => exact .nil
  | cons p m ih =>
    have hp := h p (by simp)
    have hr := ih fun p hp => h p (by simp [hp])
    obtain ⟨name, t⟩ := p
    show Funcs ((if b!"Is".isPrefixOf name then _ else _) ++ funcText pre m) (⟨name, b!"Is".isPrefixOf name, pre ++ name⟩ :: funcsOf pre m)
    by_cases hc : b!"Is".isPrefixOf name = true
    · rw [if_pos hc, hc]
      have := Funcs.bool hp.1 hp.2 hr
      simpa [List.append_assoc] using this
    · rw [if_neg hc, Bool.not_eq_true _ |>.mp hc]
      have := Funcs.byte hp.1 hp.2 hr
      simpa [List.append_assoc] using this

/-! ## the order -/

theorem insertKey_perm (p : Bytes × Bytes) (m : List (Bytes × Bytes)) : (insertKey p m).Perm (p :: m) := by
  induction m with
  | nil => exact .refl _
  | cons q m ih =>
    unfold insertKey
    split
    · exact .refl _
    · exact (List.Perm.cons q ih).trans (.swap p q m)

theorem sortKeys_perm (m : List (Bytes × Bytes)) : (sortKeys m).Perm m := by
  induction m with
  | nil => exact .refl _
  | cons p m ih => exact (insertKey_perm p _).trans (ih.cons p)

theorem bytesLe_below {a b : Bytes} (h : bytesLe a b = true) (hne : a ≠ b) : Below a b := by
  induction a generalizing b with
  | nil =>
    cases b with
    | nil => exact absurd rfl hne
    | cons _ _ => exact .nil
  | cons x a ih =>
    cases b with
    | nil => simp [bytesLe] at h
    | cons y b =>
      unfold bytesLe at h
      split at h
      · exact .head (by assumption)
      · split at h
        · rename_i e; subst e
          exact .tail (ih h (fun e => hne (by rw [e])))
        · cases h

theorem bytesLe_total {a b : Bytes} (h : bytesLe a b = false) : Below b a := by
  induction a generalizing b with
  | nil => simp [bytesLe] at h
  | cons x a ih =>
    cases b with
    | nil => exact .nil
    | cons y b =>
      unfold bytesLe at h
      split at h
      · cases h
      · rename_i h1
        split at h
        · rename_i e; subst e
          exact .tail (ih h)
        · rename_i h2
          refine .head ?_
          rw [UInt8.lt_iff_toNat_lt] at h1 ⊢
          rw [← UInt8.toNat_inj] at h2
          omega

theorem insertKey_mem {p q : Bytes × Bytes} {m : List (Bytes × Bytes)} : q ∈ insertKey p m ↔ q = p ∨ q ∈ m := by
  rw [(insertKey_perm p m).mem_iff]; simp

theorem below_trans {a b c : Bytes} (h1 : Below a b) (h2 : Below b c) : Below a c := by
  induction h1 generalizing c with
  | nil => cases h2 <;> exact .nil
  | head h =>
    cases h2 with
    | head h' => exact .head (UInt8.lt_trans h h')
    | tail _ => exact .head h
  | tail h ih =>
    cases h2 with
    | head h' => exact .head h'
    | tail h' => exact .tail (ih h')

theorem insertKey_sorted {p : Bytes × Bytes} {m : List (Bytes × Bytes)} (hm : m.Pairwise fun p q => Below p.1 q.1)
    (hn : p.1 ∉ m.map (·.1)) : (insertKey p m).Pairwise fun p q => Below p.1 q.1 := by
  induction m with
  | nil => simp [insertKey]
  | cons q m ih =>
    simp only [List.map_cons, List.mem_cons, not_or] at hn
    rw [List.pairwise_cons] at hm
    unfold insertKey
    split
    · rename_i h
      have hb := bytesLe_below h hn.1
      refine List.pairwise_cons.2 ⟨?_, List.pairwise_cons.2 hm⟩
      intro r hr
      rcases List.mem_cons.1 hr with rfl | hr
      · exact hb
      · exact below_trans hb (hm.1 r hr)
    · rename_i h
      refine List.pairwise_cons.2 ⟨?_, ih hm.2 hn.2⟩
      intro r hr
      rcases insertKey_mem.1 hr with rfl | hr
      · exact bytesLe_total (by simpa using h)
      · exact hm.1 r hr

theorem sortKeys_sorted {m : List (Bytes × Bytes)} (hm : (m.map (·.1)).Nodup) : (sortKeys m).Pairwise fun p q => Below p.1 q.1 := by
  induction m with
  | nil => exact .nil
  | cons p m ih =>
    simp only [List.map_cons, List.nodup_cons] at hm
    exact insertKey_sorted (ih hm.2) (by rw [((sortKeys_perm m).map _).mem_iff]; exact hm.1)

/-! ## the arguments -/

theorem put_names {m : List (Bytes × Bytes)} {name t : Bytes} (hm : (m.map (·.1)).Nodup) : ((put m name t).map (·.1)).Nodup := by
  unfold put
  rw [List.map_append, List.nodup_append]
  refine ⟨?_, by simp, ?_⟩
  · exact hm.sublist (List.Sublist.map _ List.filter_sublist)
  · intro a ha b hb
    simp only [List.map_cons, List.map_nil, List.mem_singleton] at hb
    subst hb
    obtain ⟨p, hp, rfl⟩ := List.mem_map.1 ha
    simpa using (List.mem_filter.1 hp).2

theorem run_names {args : List Bytes} : ∀ {m m' : List (Bytes × Bytes)}, (m.map (·.1)).Nodup → run args m = some m' → (m'.map (·.1)).Nodup := by
  induction args with
  | nil => intro m m' hm h; simp only [run, Option.some.injEq] at h; rwa [← h]
  | cons a as ih =>
    intro m m' hm h
    unfold run at h
    split at h
    · exact ih (put_names hm) h
    · cases h

theorem put_mem {m : List (Bytes × Bytes)} {name t : Bytes} {p : Bytes × Bytes} :
    p ∈ put m name t ↔ (p ∈ m ∧ p.1 ≠ name) ∨ p = (name, t) := by
  simp [put, List.mem_filter]

theorem run_one (a : Bytes) : run [a] [] = (table a).map fun p => [(p.1, mask p.2)] := by
  unfold run
  cases h : table a with
  | none => rfl
  | some p => obtain ⟨n, t⟩ := p; simp [run, put]

theorem run_mem {args : List Bytes} : ∀ {m m' : List (Bytes × Bytes)}, run args m = some m' → ∀ p, p ∈ m' ↔
    (p ∈ m ∧ ∀ b ∈ args, ∀ t, run [b] [] ≠ some [(p.1, t)]) ∨
      ∃ x a y, args = x ++ a :: y ∧ run [a] [] = some [p] ∧ ∀ b ∈ y, ∀ t, run [b] [] ≠ some [(p.1, t)] := by
  induction args with
  | nil =>
    intro m m' h p
    simp only [run, Option.some.injEq] at h
    subst h
    constructor
    · intro h; exact .inl ⟨h, by simp⟩
    · rintro (h | ⟨x, a, y, h, _⟩)
      · exact h.1
      · simp at h
  | cons a as ih =>
    intro m m' h p
    have h0 := h
    unfold run at h
    split at h
    · rename_i name tr ht
      have h1 : run [a] [] = some [(name, mask tr)] := by rw [run_one, ht]; rfl
      rw [ih h p, put_mem]
      constructor
      · rintro (⟨⟨hp, hne⟩ | rfl, hb⟩ | ⟨x, a', y, rfl, ha, hb⟩)
        · refine .inl ⟨hp, ?_⟩
          intro b hb' t
          rcases List.mem_cons.1 hb' with rfl | hb'
          · rw [h1]; intro e; simp only [Option.some.injEq, List.cons.injEq, Prod.mk.injEq, and_true] at e; exact hne e.1.symm
          · exact hb b hb' t
        · exact .inr ⟨[], a, as, rfl, h1, hb⟩
        · exact .inr ⟨a :: x, a', y, rfl, ha, hb⟩
      · rintro (⟨hp, hb⟩ | ⟨x, a', y, e, ha, hb⟩)
        · refine .inl ⟨.inl ⟨hp, ?_⟩, fun b hb' => hb b (by simp [hb'])⟩
          rintro rfl
          exact hb a (by simp) _ h1
        · cases x with
          | nil =>
            simp only [List.nil_append, List.cons.injEq] at e
            obtain ⟨rfl, rfl⟩ := e
            rw [h1] at ha
            simp only [Option.some.injEq, List.cons.injEq, and_true] at ha
            exact .inl ⟨.inr ha.symm, hb⟩
          | cons _ x =>
            simp only [List.cons_append, List.cons.injEq] at e
            obtain ⟨rfl, rfl⟩ := e
            exact .inr ⟨x, a', y, rfl, ha, hb⟩
    · cases h

theorem run_cons (a : Bytes) (as : List Bytes) (m : List (Bytes × Bytes)) :
    run (a :: as) m = (table a).bind fun p => run as (put m p.1 (mask p.2)) := by
  conv_lhs => unfold run
  cases table a <;> rfl

theorem run_none {args : List Bytes} : ∀ {m : List (Bytes × Bytes)}, run args m = none ↔ ∃ a ∈ args, run [a] [] = none := by
  induction args with
  | nil => intro m; simp [run]
  | cons a as ih =>
    intro m
    rw [run_cons]
    have h1 := run_one a
    simp only [List.mem_cons, exists_eq_or_imp]
    cases ht : table a with
    | none =>
      rw [ht] at h1
      simp [h1]
    | some p =>
      rw [ht] at h1
      simp [h1, ih]

theorem run_length {args : List Bytes} {m : List (Bytes × Bytes)} (h : run args [] = some m) {p : Bytes × Bytes} (hp : p ∈ m) : p.2.length = 256 := by
  rcases (run_mem h p).1 hp with ⟨h, _⟩ | ⟨x, a, y, _, ha, _⟩
  · cases h
  · rw [run_one] at ha
    cases ht : table a with
    | none => rw [ht] at ha; cases ha
    | some q =>
      rw [ht] at ha
      simp only [Option.map_some, Option.some.injEq, List.cons.injEq, and_true] at ha
      rw [← ha]
      simp [mask]

end Verif.Bytemaper
