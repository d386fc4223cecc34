import Verif.Spec.Missing
import Verif.Props.Access
import Verif.Props.Noop

/-!
# Property C141: what is not found is empty, but keeps its document
-/

namespace Verif.Props
open Verif Verif.Spec Verif.Njson

theorem empty_of_dead {h : Heap} {n : Node} (hd : Dead h n) : EmptyNode h n := by
  have hg : n.get h = none := hd
  have hu : ∀ f, n.update h f = h := by intro f; unfold Node.update; rw [hg]
  constructor
  · simp [Node.raw, hg]
  · simp [Node.unescaped, hg]
  · simp [Node.data, hg]
  · simp [Node.typ, hg]
  · simp [Node.values, hg]
  · simp [Node.toBool, hg]
  · simp [NumJson.toFloat, hg]
  · simp [NumJson.toInt, hg]
  · simp [NumJson.toUint, hg]
  · intro F pf fuel; exact C35_dead pf h n hd fuel
  · intro fuel dst; simp [Node.appendJSON, hg]
  · intro fuel; simp [Node.printJSON, Node.appendJSON, hg]
  · intro fuel; simp [Node.wrapUnmarshalJSON, hg]
  · simp [Node.wrapUnmarshalText, hg]
  · intro fuel op hm
    have ht : n.typ h ≠ tObject ∧ n.typ h ≠ tArray := by simp [Node.typ, hg]; decide
    refine C114_misses h fuel op ?_
    cases op <;> simp only [Op.mutates] at hm <;> subst hm <;> simp [Op.Misses, ht, hd]

/-- **C141**: the node that `Get`, `Index` and `Lookup` return if they find nothing, whose `ID` is the largest uint, is empty in every state in which no document has
more than 2^64-1 nodes: also later, whatever is added to its document. So is the zero `Node`, whose `ID` is 0 and which has no document. -/
theorem C141_empty (h : Heap) (hlen : ∀ r, (h r).len ≤ maxUint) (n : Node) : EmptyNode h (n.with_ maxUint) ∧ (n.with_ maxUint).id = 2 ^ 64 - 1 ∧
    (∀ m : Node, m.doc = none → EmptyNode h m) ∧ Node.zero.document h = none ∧ Node.zero.id = 0 := by
  refine ⟨empty_of_dead ?_, rfl, fun m hm => empty_of_dead (dead_doc (by unfold Node.document; rw [hm])), rfl, rfl⟩
  cases hd : n.document h with
  | none => exact dead_doc (by rw [with_document, hd])
  | some r => exact dead_max hd (hlen r)

theorem findKey_first {k : Bytes} : ∀ {vs : List V} {id : Nat}, findKey k vs = some id ↔
    ∃ i : Nat, vs[i]? = some ⟨id, k⟩ ∧ ∀ (j : Nat) (v : V), j < i → vs[j]? = some v → v.key ≠ k
  | [], id => by simp [findKey]
  | v :: vs, id => by
    unfold findKey
    by_cases hk : v.key = k
    · rw [if_pos hk]
      constructor
      · intro h; simp at h
        exact ⟨0, by simp [← h, ← hk], fun j _ hj => by omega⟩
      · rintro ⟨i, h1, h2⟩
        cases i with
        | zero => simp at h1; simp [h1]
        | succ i => exact absurd hk (h2 0 v (by omega) (by simp))
    · rw [if_neg hk, findKey_first]
      constructor
      · rintro ⟨i, h1, h2⟩
        refine ⟨i + 1, by simpa using h1, fun j w hj hw => ?_⟩
        cases j with
        | zero => simp at hw; rw [← hw]; exact hk
        | succ j => exact h2 j w (by omega) (by simpa using hw)
      · rintro ⟨i, h1, h2⟩
        cases i with
        | zero => simp at h1; rw [h1] at hk; simp at hk
        | succ i => exact ⟨i, by simpa using h1, fun j w hj hw => h2 (j + 1) w (by omega) (by simpa using hw)⟩

/-- **C141**: `Get` returns the first child with the key, in the same document, if the node is an object with such a child, and the node with `ID` 2^64-1 otherwise,
whatever the node is. -/
theorem C141_get (h : Heap) (n : Node) (k : Bytes) :
    (∀ id, FindsKey h n k id → n.getKey h k = ⟨id, n.rev, n.doc⟩) ∧ ((∀ id, ¬ FindsKey h n k id) → n.getKey h k = ⟨2 ^ 64 - 1, n.rev, n.doc⟩) := by
  unfold Node.getKey FindsKey
  cases hg : n.get h with
  | none => exact ⟨fun id hf => absurd hf.1 (by simp [Node.typ, hg]; decide), fun _ => rfl⟩
  | some d =>
    simp only [typ_get hg, values_get hg, ← findKey_first]
    by_cases ht : d.typ = tObject
    · simp only [ht, if_true, true_and]
      cases hf : findKey k d.values.vis with
      | none => exact ⟨fun id h => by simp at h, fun _ => rfl⟩
      | some id => exact ⟨fun id' h => by simp at h; rw [h]; rfl, fun h => absurd rfl (h id)⟩
    · simp only [ht, if_false, false_and]
      exact ⟨fun _ h => h.elim, fun _ => rfl⟩

/-- **C141**: `Index` in the same way. -/
theorem C141_index (h : Heap) (n : Node) (i : Int) :
    (∀ id, FindsIndex h n i id → n.index h i = ⟨id, n.rev, n.doc⟩) ∧ ((∀ id, ¬ FindsIndex h n i id) → n.index h i = ⟨2 ^ 64 - 1, n.rev, n.doc⟩) := by
  unfold Node.index FindsIndex
  cases hg : n.get h with
  | none => exact ⟨fun id hf => absurd hf.1 (by simp [Node.typ, hg]; decide), fun _ => rfl⟩
  | some d =>
    simp only [typ_get hg, values_get hg]
    by_cases ht : d.typ = tArray ∧ 0 ≤ i ∧ i < d.values.vis.length
    · rw [if_pos ht]
      obtain ⟨h1, h2, h3⟩ := ht
      have h4 : i.toNat < d.values.vis.length := by omega
      rw [List.getElem?_eq_getElem h4]
      refine ⟨?_, fun hno => absurd ⟨h1, i.toNat, (d.values.vis[i.toNat]).key, by omega, by rw [List.getElem?_eq_getElem h4]⟩ (hno (d.values.vis[i.toNat]).id)⟩
      rintro id ⟨_, k, key, rfl, hk⟩
      have : d.values.vis[k]? = some d.values.vis[(k : Int).toNat] := List.getElem?_eq_getElem h4
      rw [hk] at this
      simp only [Option.some.injEq] at this
      rw [← this]; rfl
    · rw [if_neg ht]
      refine ⟨?_, fun _ => rfl⟩
      rintro id ⟨h1, k, key, rfl, hk⟩
      refine absurd ⟨h1, by omega, ?_⟩ ht
      have := (List.getElem?_eq_some_iff.1 hk).1
      omega

theorem lookup_get_max {g : Nat → Option NodeD} (hg : g maxUint = none) : ∀ (p : List Bytes), Njson.lookup g maxUint p = maxUint
  | [] => rfl
  | k :: p => by unfold Njson.lookup; rw [hg]

theorem lookup_append {g : Nat → Option NodeD} (hg : g maxUint = none) (q : List Bytes) : ∀ (p : List Bytes) (id : Nat),
    Njson.lookup g id (p ++ q) = Njson.lookup g (Njson.lookup g id p) q
  | [], id => rfl
  | k :: p, id => by
    have hq := (lookup_get_max hg q).symm
    rw [List.cons_append, Njson.lookup.eq_2 g id k (p ++ q), Njson.lookup.eq_2 g id k p]
    cases g id with
    | none => exact hq
    | some n =>
      dsimp only
      by_cases h1 : n.typ = tObject
      · rw [if_pos h1, if_pos h1]
        cases findKey k n.values.vis with
        | none => exact hq
        | some i => exact lookup_append hg q p i
      · rw [if_neg h1, if_neg h1]
        by_cases h2 : n.typ = tArray
        · rw [if_pos h2, if_pos h2]
          cases keyIndex k 0 with
          | none => exact hq
          | some i =>
            dsimp only
            by_cases h3 : i.toNat < 2 ^ 63
            · rw [if_pos h3, if_pos h3]
              cases n.values.vis[i.toNat]? with
              | none => exact hq
              | some v => exact lookup_append hg q p v.id
            · rw [if_neg h3, if_neg h3]; exact hq
        · rw [if_neg h2, if_neg h2]; exact hq

theorem getOf_max {h : Heap} (hlen : ∀ r, (h r).len ≤ maxUint) (d : Option Ref) : getOf h d maxUint = none := by
  cases d with
  | none => rfl
  | some r => show (h r).get maxUint = none; unfold Doc.get; rw [if_neg (by have := hlen r; omega)]

/-- **C141**: a path may be split anywhere: `Lookup(p..., q...)` is `Lookup(p...).Lookup(q...)`, whatever the node is and whether something is found or not. -/
theorem C141_split (h : Heap) (hlen : ∀ r, (h r).len ≤ maxUint) (n : Node) (p q : List Bytes) :
    n.lookup h (p ++ q) = (n.lookup h p).lookup h q ∧ n.lookup h [] = n := by
  refine ⟨?_, rfl⟩
  unfold Node.lookup
  rw [with_document, lookup_append (getOf_max hlen _)]
  rfl

/-- **C141**: `Lookup(k)` is `Get(k)` for every node that is no array. -/
theorem C141_lookup (h : Heap) (n : Node) (k : Bytes) (ha : n.typ h ≠ tArray) : n.lookup h [k] = n.getKey h k := by
  have e : getOf h (n.document h) n.id = n.get h := by
    unfold Node.get getOf
    cases n.document h <;> rfl
  unfold Node.lookup Njson.lookup Node.getKey
  rw [e]
  cases hg : n.get h with
  | none => rfl
  | some d =>
    rw [typ_get hg] at ha
    simp only [if_neg ha]
    split
    · split <;> rfl
    · rfl

/-- **C141**: a chain of calls never leaves the document, and once something is not found, nothing that comes after it in the chain is: the chain ends with the same
node as if it had been cut there. -/
theorem C141_chain (h : Heap) (hlen : ∀ r, (h r).len ≤ maxUint) (n : Node) (ss ts : List Nav) :
    (ss.foldl (Nav.run h) n).document h = n.document h ∧ (ss.foldl (Nav.run h) n).doc = n.doc ∧
    ((ss.foldl (Nav.run h) n).id = 2 ^ 64 - 1 → (ss ++ ts).foldl (Nav.run h) n = ss.foldl (Nav.run h) n) := by
  have hs : ∀ (m : Node) (s : Nav), (s.run h m).doc = m.doc ∧ (s.run h m).rev = m.rev := by
    intro m s
    cases s with
    | get k =>
      simp only [Nav.run, Node.getKey]
      split
      · split
        · split <;> exact ⟨rfl, rfl⟩
        · exact ⟨rfl, rfl⟩
      · exact ⟨rfl, rfl⟩
    | index i =>
      simp only [Nav.run, Node.index]
      split
      · split
        · split <;> exact ⟨rfl, rfl⟩
        · exact ⟨rfl, rfl⟩
      · exact ⟨rfl, rfl⟩
    | lookup p => exact ⟨rfl, rfl⟩
  have hf : ∀ (ss : List Nav) (m : Node), (ss.foldl (Nav.run h) m).doc = m.doc ∧ (ss.foldl (Nav.run h) m).rev = m.rev := by
    intro ss
    induction ss with
    | nil => exact fun m => ⟨rfl, rfl⟩
    | cons s ss ih => exact fun m => ⟨(ih _).1.trans (hs m s).1, (ih _).2.trans (hs m s).2⟩
  have hm : ∀ (ts : List Nav) (m : Node), m.id = maxUint → ts.foldl (Nav.run h) m = m := by
    intro ts
    induction ts with
    | nil => exact fun _ _ => rfl
    | cons t ts ih =>
      intro m he
      have hw : m.with_ maxUint = m := by rw [← he]; rfl
      have hg : m.get h = none := by
        have := (C141_empty h hlen m).1
        rw [hw] at this
        cases hd : m.document h with
        | none => exact dead_doc hd
        | some r => have := dead_max hd (hlen r); rw [hw] at this; exact this
      have : t.run h m = m := by
        cases t with
        | get k => simp only [Nav.run, Node.getKey, hg]; exact hw
        | index i => simp only [Nav.run, Node.index, hg]; exact hw
        | lookup p =>
          simp only [Nav.run, Node.lookup]
          rw [he, lookup_get_max (getOf_max hlen _)]; exact hw
      rw [List.foldl_cons, this]
      exact ih m he
  refine ⟨?_, (hf ss n).1, fun he => by rw [List.foldl_append]; exact hm ts _ he⟩
  unfold Node.document
  rw [(hf ss n).1, (hf ss n).2]

-- the array [7,8]: index 1 is found, index 2 and below are not; the bound on the length
example : ∀ r, (arrHeap r).len ≤ maxUint := fun _ => show (Doc.empty.parse b!"[7,8]").1.len ≤ maxUint by decide +kernel
example : FindsIndex arrHeap ⟨0, 0, some 0⟩ 1 2 := ⟨by decide +kernel, 1, [], rfl, by decide +kernel⟩
example : [Nav.index 2, Nav.get b!"a"].foldl (Nav.run arrHeap) ⟨0, 0, some 0⟩ = ⟨2 ^ 64 - 1, 0, some 0⟩ := by decide +kernel
example : FindsKey (fun _ => (Doc.empty.parse b!"{\"a\":1,\"b\":2,\"b\":3}").1) ⟨0, 0, some 0⟩ b!"b" 2 :=
  ⟨by decide +kernel, findKey_first.1 (by decide +kernel)⟩

end Verif.Props
