import Verif.Spec.Tree
import Verif.Proofs.Extend

/-! From the tree parser to `Document.Parse`: what the visible nodes are afterwards. -/

namespace Verif.Njson
open Verif Verif.Spec

/-- The visible nodes, spare value capacity forgotten. -/
def Doc.view (d : Doc) : List ANode := (d.arr.take d.len).map NodeD.abs

def ANode.cont (a : ANode) : Cont := ⟨a.typ, a.raw, a.vals⟩

theorem view_length {d : Doc} (h : d.Wf) : d.view.length = d.len := by
  unfold Doc.Wf at h; simp [Doc.view, h]

theorem modify_ne {α : Type} (l : List α) {i j : Nat} (f : α → α) (h : j ≠ i) : (l.modify i f)[j]? = l[j]? := by
  simp [Ne.symm h]
theorem modify_eq {α : Type} (l : List α) (i : Nat) (f : α → α) : (l.modify i f)[i]? = (l[i]?).map f := by simp

theorem view_get (d : Doc) (id : Nat) : d.view[id]? = (d.get id).map NodeD.abs := by
  unfold Doc.view Doc.get
  rw [List.getElem?_map, List.getElem?_take]

theorem cont_eq_view (d : Doc) (id : Nat) : d.cont id = (d.view[id]?).map ANode.cont := by
  rw [view_get, Doc.cont, Option.map_map]
  rfl

/-- the root flag of the first node is set -/
def rootHead : List ANode → List ANode
  | [] => []
  | a :: l => { a with root := true } :: l

theorem rootHead_length (l : List ANode) : (rootHead l).length = l.length := by cases l <;> rfl

theorem rootHead_cont (l : List ANode) (j : Nat) : ((rootHead l)[j]?).map ANode.cont = (l[j]?).map ANode.cont := by
  cases l with
  | nil => rfl
  | cons a l => cases j <;> simp [rootHead, ANode.cont]

/-- the error-independent part of a successful or failed parse -/
theorem parse_cases {d : Doc} (hwf : d.Wf) (s : Bytes) :
    (∃ t pos r d', treeParse s = .ok t pos r ∧ d.parse s = (d', .ok d.len r) ∧ d'.Wf ∧ d'.rev = d.rev ∧
      d'.view = d.view ++ rootHead (flat d.len t)) ∨
    (∃ typ d', treeParse s = .err (.eof typ) ∧ d.parse s = (d', .eof typ s) ∧ d'.Wf ∧ d'.rev = d.rev ∧
      d'.len = d.len ∧ d'.view = d.view) ∨
    (∃ pos typ got want d', treeParse s = .err (.abort pos typ got want) ∧ d.parse s = (d', .err pos typ got want []) ∧
      d'.Wf ∧ d'.rev = d.rev ∧ d'.len = d.len ∧ d'.view = d.view) := by
  have hp : P.Wf ⟨d.arr, d.len⟩ := hwf
  have href := (refine_all (2 * s.length + 2)).1 ⟨d.arr, d.len⟩ 0 s hp
  have hok : ∀ {t pos r}, treeParse s = .ok t pos r → (if pos < s.length then s.drop pos else []) = r := by
    intro t pos r h
    obtain ⟨w, v, rfl, _, _, _, rfl⟩ := treeParse_ok_iff.1 h
    split
    · rw [List.drop_left' (by simp)]
    · rename_i hlt
      simp at hlt
      exact hlt.symm
  have herr : ∀ p' : P, Keep d.len ⟨d.arr, d.len⟩ p' → ∀ d' : Doc, d' = { d with arr := p'.nodes.take d.arr.length } →
      d'.Wf ∧ d'.rev = d.rev ∧ d'.len = d.len ∧ d'.view = d.view := by
    intro p' hk d' hd'
    subst hd'
    have hcap := hk.cap
    simp only at hcap
    unfold Doc.Wf at hwf
    refine ⟨?_, rfl, rfl, ?_⟩
    · unfold Doc.Wf; rw [List.length_take]; simp only; omega
    · apply List.ext_getElem?
      intro i
      rw [view_get, view_get]
      unfold Doc.get
      simp only
      split
      · rename_i hi
        rw [List.getElem?_take_of_lt (by omega), hk.same i hi]
      · rfl
  have htp : tVal (2 * s.length + 2) 0 s = treeParse s := rfl
  rw [htp] at href
  cases htr : treeParse s with
  | crash => exact absurd htr (treeParse_ne_crash s)
  | ok t pos r =>
    left
    rw [htr] at href
    obtain ⟨p', he, hk, hn, hh⟩ := href
    simp only at hn hh
    have hcap := hk.cap
    have hpw := hk.wf
    unfold P.Wf at hpw
    simp only at hcap
    refine ⟨t, pos, r, { d with arr := p'.nodes.modify d.len (fun n => { n with root := true }), len := p'.n }, rfl, ?_, ?_, rfl, ?_⟩
    · unfold Doc.parse
      simp only
      rw [he]
      simp only
      rw [hok htr]
    · unfold Doc.Wf; simp only [List.length_modify]; exact hpw
    · have hlv : d.view.length = d.len := view_length hwf
      apply List.ext_getElem?
      intro i
      rw [view_get]
      unfold Doc.get
      simp only
      by_cases hi : i < d.len
      · rw [if_pos (by omega), List.getElem?_append_left (by omega), view_get]
        unfold Doc.get
        rw [if_pos hi, modify_ne _ _ (by omega), hk.same i hi]
      · rw [List.getElem?_append_right (by omega), hlv]
        by_cases hi2 : i < p'.n
        · rw [if_pos hi2]
          have h1 := hh (i - d.len) (by rw [flat_length]; omega)
          rw [show d.len + (i - d.len) = i by omega] at h1
          by_cases hi0 : i = d.len
          · subst hi0
            rw [modify_eq]
            rw [Nat.sub_self] at h1 ⊢
            cases hf : flat d.len t with
            | nil => have := flat_length t d.len; rw [hf] at this; have := size_pos t; simp at *; omega
            | cons a l =>
              rw [hf] at h1
              simp only [rootHead, List.getElem?_cons_zero] at h1 ⊢
              cases hx : p'.nodes[d.len]? with
              | none => rw [hx] at h1; simp at h1
              | some nd =>
                rw [hx] at h1
                simp only [Option.map_some, Option.some.injEq] at h1
                subst h1
                simp [NodeD.abs]
          · rw [modify_ne _ _ hi0, h1]
            cases hf : flat d.len t with
            | nil => rfl
            | cons a l =>
              obtain ⟨k, hk⟩ : ∃ k, i - d.len = k + 1 := ⟨i - d.len - 1, by omega⟩
              rw [hk]; simp [rootHead]
        · rw [if_neg hi2, Option.map_none, List.getElem?_eq_none]
          rw [rootHead_length, flat_length]; omega
  | err e =>
    right
    rw [htr] at href
    obtain ⟨p', he, hk⟩ := href
    simp only at hk
    cases e with
    | eof typ =>
      left
      refine ⟨typ, { d with arr := p'.nodes.take d.arr.length }, rfl, ?_, herr p' hk _ rfl⟩
      unfold Doc.parse; simp only; rw [he]
    | abort pos typ got want =>
      right
      refine ⟨pos, typ, got, want, { d with arr := p'.nodes.take d.arr.length }, rfl, ?_, herr p' hk _ rfl⟩
      unfold Doc.parse; simp only; rw [he]

/-! ## layout and representation -/

/-- `g` shows the nodes `ns` from `base` on. -/
def Shows (g : Nat → Option Cont) (base : Nat) (ns : List ANode) : Prop :=
  ∀ j a, ns[j]? = some a → g (base + j) = some a.cont

theorem Shows.left {g base ns ms} (h : Shows g base (ns ++ ms)) : Shows g base ns := by
  intro j a hj
  have : j < ns.length := by
    rcases Nat.lt_or_ge j ns.length with h | h
    · exact h
    · rw [List.getElem?_eq_none h] at hj; simp at hj
  exact h j a (by rw [List.getElem?_append_left this]; exact hj)

theorem Shows.right {g base ns ms} (h : Shows g base (ns ++ ms)) : Shows g (base + ns.length) ms := by
  intro j a hj
  have := h (ns.length + j) a (by rw [List.getElem?_append_right (by omega)]; simpa using hj)
  rwa [show base + ns.length + j = base + (ns.length + j) by omega]

theorem Shows.head {g base a ns} (h : Shows g base (a :: ns)) : g base = some a.cont := h 0 a rfl

theorem Shows.tail {g base a ns} (h : Shows g base (a :: ns)) : Shows g (base + 1) ns :=
  Shows.right (ns := [a]) h

theorem flat_reps_all : (∀ t : JVal, ∀ g base, Shows g base (flat base t) → Reps g t base) ∧
    (∀ xs, ∀ g base, Shows g base (flatElems base xs) → RepsElems g xs (elemRefs base xs)) ∧
    (∀ ms, ∀ g base, Shows g base (flatMembers base ms) → RepsMembers g ms (memberRefs base ms)) := by
  apply jval_ind
  · intro g base h; exact h.head
  · intro b g base h; cases b <;> exact h.head
  · intro r g base h; exact h.head
  · intro r g base h; exact h.head
  · intro xs ih g base h; exact ⟨_, h.head, ih g _ h.tail⟩
  · intro ms ih g base h; exact ⟨_, h.head, ih g _ h.tail⟩
  · intro g base h; rfl
  · intro x xs h1 h2 g base h
    have := h.right
    rw [flat_length] at this
    exact ⟨_, _, rfl, h1 g base h.left, h2 g _ this⟩
  · intro g base h; rfl
  · intro k x ms h1 h2 g base h
    have := h.right
    rw [flat_length] at this
    exact ⟨_, _, rfl, h1 g base h.left, h2 g _ this⟩

/-- A document whose visible nodes are `old ++ rootHead (flat old.length t)` represents `t` at `old.length`. -/
theorem view_reps {d : Doc} {old : List ANode} {t : JVal} {k : Nat} (hk : old.length = k)
    (h : d.view = old ++ rootHead (flat k t)) : Reps d.cont t k := by
  apply flat_reps_all.1
  intro j a hj
  have := rootHead_cont (flat k t) j
  rw [hj] at this
  rw [cont_eq_view, h, List.getElem?_append_right (by omega), show k + j - old.length = j by omega, this]
  rfl

/-! ## uniqueness -/

/-- the type of a tree's root node -/
def kindOf : JVal → Typ
  | .null => tNull
  | .bool _ => tBoolean
  | .num _ => tNumber
  | .str _ => tString
  | .arr _ => tArray
  | .obj _ => tObject

theorem reps_kind {g : Nat → Option Cont} {t : JVal} {id : Nat} (h : Reps g t id) :
    ∃ c, g id = some c ∧ c.typ = kindOf t := by
  cases t with
  | bool b => cases b <;> exact ⟨_, h, rfl⟩
  | arr xs => obtain ⟨vs, h, _⟩ := h; exact ⟨_, h, rfl⟩
  | obj xs => obtain ⟨vs, h, _⟩ := h; exact ⟨_, h, rfl⟩
  | _ => exact ⟨_, h, rfl⟩

theorem reps_kind_eq {g : Nat → Option Cont} {t t' : JVal} {id : Nat} (h : Reps g t id) (h' : Reps g t' id) :
    kindOf t = kindOf t' := by
  obtain ⟨c, h1, h2⟩ := reps_kind h
  obtain ⟨c', h1', h2'⟩ := reps_kind h'
  rw [h1] at h1'
  simp at h1'
  rw [← h2, ← h2', h1']

theorem reps_unique_all (g : Nat → Option Cont) : (∀ t : JVal, ∀ id t', Reps g t id → Reps g t' id → t = t') ∧
    (∀ xs, ∀ vs xs', RepsElems g xs vs → RepsElems g xs' vs → xs = xs') ∧
    (∀ ms, ∀ vs ms', RepsMembers g ms vs → RepsMembers g ms' vs → ms = ms') := by
  apply jval_ind
  · intro id t' h h'
    cases t' with
    | null => rfl
    | _ => exact absurd (reps_kind_eq h h') (by simp only [kindOf]; decide)
  · intro b id t' h h'
    cases t' with
    | bool b' => cases b <;> cases b' <;> simp [Reps] at h h' ⊢ <;> rw [h] at h' <;> simp at h'
    | _ => exact absurd (reps_kind_eq h h') (by simp only [kindOf]; decide)
  · intro r id t' h h'
    cases t' with
    | num r' => simp [Reps] at h h'; rw [h] at h'; simp at h'; rw [h']
    | _ => exact absurd (reps_kind_eq h h') (by simp only [kindOf]; decide)
  · intro r id t' h h'
    cases t' with
    | str r' => simp [Reps] at h h'; rw [h] at h'; simp at h'; rw [h']
    | _ => exact absurd (reps_kind_eq h h') (by simp only [kindOf]; decide)
  · intro xs ih id t' h h'
    cases t' with
    | arr xs' =>
      obtain ⟨vs, h1, h2⟩ := h
      obtain ⟨vs', h1', h2'⟩ := h'
      rw [h1] at h1'; simp at h1'; subst h1'
      rw [ih vs xs' h2 h2']
    | _ => exact absurd (reps_kind_eq h h') (by simp only [kindOf]; decide)
  · intro ms ih id t' h h'
    cases t' with
    | obj ms' =>
      obtain ⟨vs, h1, h2⟩ := h
      obtain ⟨vs', h1', h2'⟩ := h'
      rw [h1] at h1'; simp at h1'; subst h1'
      rw [ih vs ms' h2 h2']
    | _ => exact absurd (reps_kind_eq h h') (by simp only [kindOf]; decide)
  · intro vs xs' h h'
    simp only [RepsElems] at h; subst h
    cases xs' with
    | nil => rfl
    | cons x xs => obtain ⟨_, _, h, _⟩ := h'; simp at h
  · intro x xs ih1 ih2 vs xs' h h'
    obtain ⟨id, vs', rfl, h1, h2⟩ := h
    cases xs' with
    | nil => simp [RepsElems] at h'
    | cons x' xs' =>
      obtain ⟨id', vs'', he, h1', h2'⟩ := h'
      simp at he
      obtain ⟨rfl, rfl⟩ := he
      rw [ih1 _ _ h1 h1', ih2 _ _ h2 h2']
  · intro vs xs' h h'
    simp only [RepsMembers] at h; subst h
    cases xs' with
    | nil => rfl
    | cons x xs => obtain ⟨_, _, h, _⟩ := h'; simp at h
  · intro k x xs ih1 ih2 vs xs' h h'
    obtain ⟨id, vs', rfl, h1, h2⟩ := h
    cases xs' with
    | nil => simp [RepsMembers] at h'
    | cons kx' xs' =>
      obtain ⟨k', x'⟩ := kx'
      obtain ⟨id', vs'', he, h1', h2'⟩ := h'
      simp at he
      obtain ⟨⟨rfl, rfl⟩, rfl⟩ := he
      rw [ih1 _ _ h1 h1', ih2 _ _ h2 h2']

theorem reps_unique {g : Nat → Option Cont} {t t' : JVal} {id : Nat} (h : Reps g t id) (h' : Reps g t' id) : t = t' :=
  (reps_unique_all g).1 t id t' h h'

end Verif.Njson
