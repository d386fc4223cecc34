import Verif.Proofs.Lex
import Verif.Model.Parser

/-! # Bounds on the memory of the parser -/

namespace Verif.Njson
open Verif Verif.Spec

/-- The array of nodes has grown from `p` to `p'`, not beyond what the number of nodes needs. -/
def Grown (p p' : P) : Prop := p.n ≤ p'.n ∧ p.nodes.length ≤ p'.nodes.length ∧ p'.nodes.length ≤ max p.nodes.length (2 * p'.n - 1)

theorem Grown.refl (p : P) : Grown p p := ⟨Nat.le_refl _, Nat.le_refl _, Nat.le_max_left _ _⟩

theorem Grown.trans {p q r : P} (h1 : Grown p q) (h2 : Grown q r) : Grown p r := by
  obtain ⟨a1, a2, a3⟩ := h1
  obtain ⟨b1, b2, b3⟩ := h2
  refine ⟨by omega, by omega, ?_⟩
  omega

theorem Grown.set {p q : P} (h : Grown p q) (i : Nat) (f : NodeD → NodeD) : Grown p (q.setNode i f) := by
  obtain ⟨a1, a2, a3⟩ := h
  exact ⟨a1, by simpa [P.setNode] using a2, by simpa [P.setNode] using a3⟩

theorem node_grown {p p' : P} {o : Option Nat} (hp : p.n ≤ p.nodes.length) (h : p.node = (p', o)) :
    p'.n = p.n + 1 ∧ Grown p p' ∧ p'.n ≤ p'.nodes.length := by
  unfold P.node at h
  split at h
  · cases h
    exact ⟨rfl, ⟨by simp, by simp, by simp; omega⟩, by simp; omega⟩
  · dsimp only at h
    rw [if_pos (by simp; omega)] at h
    cases h
    refine ⟨rfl, ⟨by simp, by simp, ?_⟩, by simp; omega⟩
    simp
    omega

/-- What a parser function does with `rest`: it makes at most one node for each byte that it consumes. -/
def PRes.Bounded (p : P) (rest : Bytes) : PRes → Prop
  | .ok p' _ rest' => p'.n + rest'.length ≤ p.n + rest.length ∧ Grown p p' ∧ p'.n ≤ p'.nodes.length
  | .err p' _ => p'.n ≤ p.n + rest.length ∧ Grown p p' ∧ p'.n ≤ p'.nodes.length
  | .crash => True

theorem skipSpace_len : ∀ (pos : Nat) (s : Bytes), (skipSpace pos s).2.length ≤ s.length
  | _, [] => by simp [skipSpace]
  | pos, c :: r => by
    unfold skipSpace
    split
    · have := skipSpace_len (pos + 1) r
      simp
      omega
    · simp

theorem skipSpace_len' {pos pos' : Nat} {s r : Bytes} {c : UInt8} (h : skipSpace pos s = (pos', c :: r)) : r.length + 1 ≤ s.length := by
  have := skipSpace_len pos s
  rw [h] at this
  simpa using this

theorem bounded_err {p : P} {rest : Bytes} {e : PErr} (hp : p.n ≤ p.nodes.length) : PRes.Bounded p rest (.err p e) :=
  ⟨by omega, Grown.refl p, hp⟩

theorem scalar_bounded {p : P} (hp : p.n ≤ p.nodes.length) {typ : Typ} {raw : Bytes} {pos : Nat} {rest rest' : Bytes} (h : rest'.length + 1 ≤ rest.length) :
    PRes.Bounded p rest (p.scalar typ raw pos rest') := by
  unfold P.scalar
  generalize hn : p.node = q
  obtain ⟨p', o⟩ := q
  cases o with
  | none => trivial
  | some i =>
    obtain ⟨a1, a2, a3⟩ := node_grown hp hn
    refine ⟨?_, a2.set i _, ?_⟩
    · rw [setNode_n]; omega
    · rw [setNode_n]; simpa [P.setNode] using a3

theorem literal_bounded {p : P} (hp : p.n ≤ p.nodes.length) {typ : Typ} {lit : Bytes} (hl : lit ≠ []) {pos : Nat} {rest s : Bytes} (h : s.length ≤ rest.length) :
    PRes.Bounded p rest (p.literal typ lit pos s) := by
  unfold P.literal
  have : 0 < lit.length := List.length_pos_iff.2 hl
  split
  · split
    · exact scalar_bounded hp (by rw [List.length_drop]; omega)
    · exact bounded_err hp
  · exact bounded_err hp

theorem numberLen_pos {c : UInt8} {r : Bytes} (h : isNumberEnd c = false) : 1 ≤ numberLen (c :: r) := by
  unfold numberLen
  simp [h]

theorem number_first : ∀ c : UInt8, (isDigit c = true ∨ c = 45) → isNumberEnd c = false := forall_byte (by decide +kernel)

theorem bounded_mono {p : P} {rest rest' : Bytes} {r : PRes} (h : PRes.Bounded p rest' r) (hl : rest'.length ≤ rest.length) : PRes.Bounded p rest r := by
  cases r with
  | ok p' _ r' => exact ⟨by have := h.1; omega, h.2⟩
  | err p' _ => exact ⟨by have := h.1; omega, h.2⟩
  | crash => trivial

/-- `r` is what is done after `p` has become `q` by consuming bytes. -/
theorem bounded_trans {p q : P} {rest rest' : Bytes} {r : PRes} (hg : Grown p q) (hl : q.n + rest'.length ≤ p.n + rest.length) (h : PRes.Bounded q rest' r) :
    PRes.Bounded p rest r := by
  cases r with
  | ok p' _ r' => exact ⟨by have := h.1; omega, hg.trans h.2.1, h.2.2⟩
  | err p' _ => exact ⟨by have := h.1; omega, hg.trans h.2.1, h.2.2⟩
  | crash => trivial

theorem scanString_some {r : Bytes} {i : Nat} (_ : scanString r = some i) : (r.drop (i + 1)).length ≤ r.length := by
  simp

theorem parse_bounded : ∀ fuel : Nat,
    (∀ (p : P) (pos : Nat) (rest : Bytes), p.n ≤ p.nodes.length → PRes.Bounded p rest (parseValue fuel p pos rest)) ∧
    (∀ (p : P) (id : Nat) (nv : Slice) (vs : List V) (k pos : Nat) (rest : Bytes), p.n ≤ p.nodes.length →
      PRes.Bounded p rest (parseElems fuel p id nv vs k pos rest)) ∧
    (∀ (p : P) (id : Nat) (nv : Slice) (vs : List V) (k pos : Nat) (rest : Bytes), p.n ≤ p.nodes.length →
      PRes.Bounded p rest (parseMembers fuel p id nv vs k pos rest)) := by
  intro fuel
  induction fuel with
  | zero =>
    refine ⟨fun p pos rest _ => ?_, fun p id nv vs k pos rest _ => ?_, fun p id nv vs k pos rest _ => ?_⟩
    · rw [parseValue]; trivial
    · rw [parseElems]; trivial
    · rw [parseMembers]; trivial
  | succ fuel ih =>
    obtain ⟨ihV, ihE, ihM⟩ := ih
    refine ⟨fun p pos rest hp => ?_, fun p id nv vs k pos rest hp => ?_, fun p id nv vs k pos rest hp => ?_⟩
    · rw [parseValue]
      generalize hs : skipSpace pos rest = q
      obtain ⟨pos1, rest1⟩ := q
      cases rest1 with
      | nil => exact bounded_err hp
      | cons c r =>
        have hlen := skipSpace_len' hs
        simp only
        split
        · split
          · exact bounded_err hp
          · split
            · exact bounded_err hp
            · exact scalar_bounded hp (by rw [List.length_drop]; omega)
        · split
          · -- object
            generalize hn : p.node = q
            obtain ⟨p', o⟩ := q
            cases o with
            | none => trivial
            | some id =>
              obtain ⟨a1, a2, a3⟩ := node_grown hp hn
              dsimp only
              generalize hs2 : skipSpace (pos1 + 1) r = q
              obtain ⟨pos2, rest2⟩ := q
              have hset : ∀ f, (p'.setNode id f).n ≤ (p'.setNode id f).nodes.length := fun f => by simpa [P.setNode] using a3
              cases rest2 with
              | nil =>
                refine bounded_trans (rest' := r) (a2.set id _) (by rw [setNode_n]; omega) (bounded_err (hset _))
              | cons c2 r2 =>
                have hlen2 := skipSpace_len' hs2
                dsimp only
                split
                · refine ⟨by simp only [setNode_n]; omega, (a2.set id _).set id _, ?_⟩
                  simpa [P.setNode] using a3
                · split
                  · exact bounded_trans (rest' := r2) (a2.set id _) (by rw [setNode_n]; omega) (ihM _ _ _ _ _ _ _ (hset _))
                  · exact bounded_trans (rest' := r2) (a2.set id _) (by rw [setNode_n]; omega) (bounded_err (hset _))
          · split
            · generalize hn : p.node = q
              obtain ⟨p', o⟩ := q
              cases o with
              | none => trivial
              | some id =>
                obtain ⟨a1, a2, a3⟩ := node_grown hp hn
                dsimp only
                generalize hs2 : skipSpace (pos1 + 1) r = q
                obtain ⟨pos2, rest2⟩ := q
                have hset : ∀ f, (p'.setNode id f).n ≤ (p'.setNode id f).nodes.length := fun f => by simpa [P.setNode] using a3
                cases rest2 with
                | nil =>
                  refine bounded_trans (rest' := r) (a2.set id _) (by rw [setNode_n]; omega) (bounded_err (hset _))
                | cons c2 r2 =>
                  have hlen2 := skipSpace_len' hs2
                  dsimp only
                  split
                  · refine ⟨by simp only [setNode_n]; omega, (a2.set id _).set id _, ?_⟩
                    simpa [P.setNode] using a3
                  · exact bounded_trans (rest' := c2 :: r2) (a2.set id _) (by rw [setNode_n, List.length_cons]; omega) (ihE _ _ _ _ _ _ _ (hset _))
            · split
              · rename_i hd
                have := numberLen_pos (r := r) (number_first c (.inl hd))
                exact scalar_bounded hp (by rw [List.length_drop, List.length_cons]; omega)
              · split
                · exact literal_bounded hp (by decide) (by rw [List.length_cons]; omega)
                · split
                  · rename_i hd
                    have := numberLen_pos (r := r) (number_first c (.inr hd))
                    exact scalar_bounded hp (by rw [List.length_drop, List.length_cons]; omega)
                  · split
                    · exact literal_bounded hp (by decide) (by rw [List.length_cons]; omega)
                    · split
                      · exact literal_bounded hp (by decide) (by rw [List.length_cons]; omega)
                      · exact bounded_err hp
    · rw [parseElems]
      have h1 := ihV p pos rest hp
      generalize hv : parseValue fuel p pos rest = q at h1 ⊢
      cases q with
      | crash => trivial
      | err p' e => exact h1
      | ok p' pos' rest' =>
        obtain ⟨b1, b2, b3⟩ := h1
        simp only
        generalize hs2 : skipSpace pos' rest' = q
        obtain ⟨pos2, rest2⟩ := q
        cases rest2 with
        | nil => exact bounded_trans b2 b1 (bounded_err b3)
        | cons c2 r2 =>
          have hlen2 := skipSpace_len' hs2
          dsimp only
          split
          · exact bounded_trans (rest' := r2) b2 (by omega) (ihE _ _ _ _ _ _ _ b3)
          · split
            · refine ⟨by rw [setNode_n]; omega, b2.set id _, by simpa [P.setNode] using b3⟩
            · exact bounded_trans b2 b1 (bounded_err b3)
    · rw [parseMembers]
      split
      · exact bounded_err hp
      · rename_i i hi
        dsimp only
        generalize hs : skipSpace (pos + 1 + i) (rest.drop (i + 1)) = q
        obtain ⟨pos1, rest1⟩ := q
        cases rest1 with
        | nil => exact bounded_err hp
        | cons c r =>
          have hlen := skipSpace_len' hs
          rw [List.length_drop] at hlen
          dsimp only
          split
          · have h1 := ihV p (pos1 + 1) r hp
            generalize hv : parseValue fuel p (pos1 + 1) r = q at h1 ⊢
            cases q with
            | crash => trivial
            | err p' e => exact bounded_mono h1 (by omega)
            | ok p' pos' rest' =>
              obtain ⟨b1, b2, b3⟩ := h1
              simp only
              generalize hs2 : skipSpace pos' rest' = q
              obtain ⟨pos2, rest2⟩ := q
              cases rest2 with
              | nil => exact bounded_trans (rest' := rest') b2 (by omega) (bounded_err b3)
              | cons c2 r2 =>
                have hlen2 := skipSpace_len' hs2
                dsimp only
                split
                · generalize hs3 : skipSpace (pos2 + 1) r2 = q
                  obtain ⟨pos3, rest3⟩ := q
                  cases rest3 with
                  | nil => exact bounded_trans (rest' := rest') b2 (by omega) (bounded_err b3)
                  | cons c3 r3 =>
                    have hlen3 := skipSpace_len' hs3
                    dsimp only
                    split
                    · exact bounded_trans (rest' := r3) b2 (by omega) (ihM _ _ _ _ _ _ _ b3)
                    · exact bounded_trans (rest' := rest') b2 (by omega) (bounded_err b3)
                · split
                  · refine ⟨by rw [setNode_n]; omega, b2.set id _, by simpa [P.setNode] using b3⟩
                  · exact bounded_trans (rest' := rest') b2 (by omega) (bounded_err b3)
          · exact bounded_err hp

end Verif.Njson
