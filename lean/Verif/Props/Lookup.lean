import Verif.Props.Doc

/-!
# C19 and C32: what `Lookup` finds for every path
-/

namespace Verif.Props
open Verif Verif.Spec Verif.Njson

theorem keySelects_eq (k : Bytes) : (match keyIndex k 0 with
    | none => none
    | some i => if i.toNat < 2 ^ 63 then some i.toNat else none) = keySelects k := by
  have hall : (k.all (fun b => decide (48 ≤ b.toNat ∧ b.toNat ≤ 57)) = true) ↔ ∀ b ∈ k, IsDigitByte b := by
    simp [IsDigitByte]
  unfold keySelects
  by_cases hd : ∀ b ∈ k, IsDigitByte b
  · have hk : keyIndex k 0 = some (UInt64.ofNat (decVal k)) := keyIndex_digits k 0 hd
    rw [hk]
    simp only [UInt64.toNat_ofNat', hall.2 hd, true_and]
  · rw [keyIndex_none k 0 hd, if_neg (fun h => hd (hall.1 h.1))]

theorem lookup_find {h : Heap} {r : Ref} (hlen : (h r).len ≤ maxUint) : ∀ (p : List Bytes) (t : JVal) (id : Nat),
    Reps (h r).cont t id → match t.find p with
      | some t' => Reps (h r).cont t' (Njson.lookup (getOf h (some r)) id p)
      | none => Njson.lookup (getOf h (some r)) id p = maxUint
  | [], t, id, ht => by simpa [JVal.find, Njson.lookup] using ht
  | k :: p, t, id, ht => by
    have hscalar : ∀ (ty : Typ) (raw : Bytes), ty ≠ tObject → ty ≠ tArray → (h r).cont id = some ⟨ty, raw, []⟩ →
        Njson.lookup (getOf h (some r)) id (k :: p) = maxUint := by
      intro ty raw h1 h2 hc
      obtain ⟨d, hg, -⟩ := contOf_some ((congrFun (doc_cont (h r)) id).symm.trans hc)
      obtain ⟨e1, -, -⟩ := cont_get hc hg
      simp only at e1
      rw [Njson.lookup]
      simp only [getOf, hg]
      rw [e1, if_neg h1, if_neg h2]
    cases t with
    | null => exact hscalar _ _ (by decide) (by decide) ht
    | bool b => cases b <;> exact hscalar _ _ (by decide) (by decide) ht
    | num raw => exact hscalar _ _ (by decide) (by decide) ht
    | str raw => exact hscalar _ _ (by decide) (by decide) ht
    | obj ms =>
      obtain ⟨vs, hc, hms⟩ := ht
      obtain ⟨d, hg, -⟩ := contOf_some ((congrFun (doc_cont (h r)) id).symm.trans hc)
      obtain ⟨e1, -, e3⟩ := cont_get hc hg
      have hf := findKey_reps k hms
      have hl : Njson.lookup (getOf h (some r)) id (k :: p) =
          match findKey k vs with | some i => Njson.lookup (getOf h (some r)) i p | none => maxUint := by
        rw [Njson.lookup]
        simp only [getOf, hg]
        rw [if_pos e1, e3]
        rfl
      rw [hl]
      cases ha : assocGet ms k with
      | none =>
        rw [ha] at hf
        simp only at hf
        simp only [JVal.find, ha, hf]
      | some t' =>
        rw [ha] at hf
        obtain ⟨i, h1, h2⟩ := hf
        simp only [JVal.find, ha, h1]
        exact lookup_find hlen p t' i h2
    | arr xs =>
      obtain ⟨vs, hc, hxs⟩ := ht
      obtain ⟨d, hg, -⟩ := contOf_some ((congrFun (doc_cont (h r)) id).symm.trans hc)
      obtain ⟨e1, -, e3⟩ := cont_get hc hg
      simp only at e1 e3
      obtain ⟨h1, h2⟩ := repsElems_iff.1 hxs
      have hl : Njson.lookup (getOf h (some r)) id (k :: p) =
          match keySelects k with
          | some i => (match vs[i]? with | some v => Njson.lookup (getOf h (some r)) v.id p | none => maxUint)
          | none => maxUint := by
        rw [← keySelects_eq, Njson.lookup]
        simp only [getOf, hg]
        rw [if_neg (by rw [e1]; decide), if_pos e1, e3]
        cases keyIndex k 0 with
        | none => rfl
        | some i =>
          simp only
          by_cases hi : i.toNat < 2 ^ 63
          · rw [if_pos hi, if_pos hi]; rfl
          · rw [if_neg hi, if_neg hi]
      rw [hl]
      cases hk : keySelects k with
      | none => simp only [JVal.find, hk]
      | some i =>
        cases hx : xs[i]? with
        | none =>
          have : vs[i]? = none := by rw [List.getElem?_eq_none_iff] at hx ⊢; omega
          simp only [JVal.find, hk, hx, this]
        | some t' =>
          have hi : i < vs.length := by have := (List.getElem?_eq_some_iff.1 hx).1; omega
          have hv : vs[i]? = some vs[i] := List.getElem?_eq_getElem hi
          simp only [JVal.find, hk, hx, hv]
          exact lookup_find hlen p t' _ (h2 i t' _ hx hv).2

/-- **C19, Lookup for every path**: the node returned has the subtree at the end of the path, and is dead where there is
none. -/
theorem C19_lookup (h : Heap) (n : Node) (t : JVal) (p : List Bytes) (ht : Tree h n t) (hlen : ∀ r, (h r).len ≤ maxUint) :
    match t.find p with
    | some t' => Tree h (n.lookup h p) t'
    | none => Dead h (n.lookup h p) := by
  obtain ⟨r, hd, hr⟩ := ht
  have key := lookup_find (hlen r) p t n.id hr
  have he : n.lookup h p = n.with_ (Njson.lookup (getOf h (some r)) n.id p) := by unfold Node.lookup; rw [hd]
  rw [he]
  cases hf : t.find p with
  | none =>
    rw [hf] at key
    simp only at key ⊢
    rw [key]
    exact dead_max hd (hlen r)
  | some t' =>
    rw [hf] at key
    exact ⟨r, hd, key⟩

/-- **C32**, exactly, for every key: which element `Lookup(key)` selects. Keys of digits count modulo 2^64 and select
nothing from 2^63 on; the empty key counts as zero; all other keys select nothing. -/
theorem C32_exact (h : Heap) (n : Node) (xs : List JVal) (k : Bytes) (ht : Tree h n (.arr xs)) (hlen : ∀ r, (h r).len ≤ maxUint) :
    (∀ i, keySelects k = some i → n.lookup h [k] = n.index h i) ∧ (keySelects k = none → Dead h (n.lookup h [k])) := by
  refine ⟨fun i hi => ?_, fun hk => ?_⟩
  · obtain ⟨r, d, hd, _, hg, hg', vs, hc, hxs⟩ := tree_cont ht
    obtain ⟨e1, _, e3⟩ := cont_get hc hg'
    simp only at e1 e3
    have hsel := hi
    rw [← keySelects_eq] at hsel
    unfold Node.lookup Node.index
    rw [hg, hd, Njson.lookup]
    simp only [getOf, hg']
    rw [if_neg (by rw [e1]; decide), if_pos e1, e3]
    cases hki : keyIndex k 0 with
    | none => rw [hki] at hsel; simp at hsel
    | some j =>
      rw [hki] at hsel
      simp only at hsel ⊢
      split at hsel
      · rename_i hlt
        simp only [Option.some.injEq] at hsel
        rw [if_pos hlt, hsel]
        by_cases hl : i < vs.length
        · rw [if_pos ⟨e1, by omega, by omega⟩]
          simp only [Int.toNat_natCast, List.getElem?_eq_getElem hl]
          rfl
        · rw [if_neg (by omega), List.getElem?_eq_none (by omega)]
      · simp at hsel
  · have := C19_lookup h n _ [k] ht hlen
    simpa [JVal.find, hk] using this

example : keySelects b!"" = some 0 ∧ keySelects b!"012" = some 12 ∧ keySelects b!"18446744073709551617" = some 1 ∧
    keySelects b!"9223372036854775808" = none ∧ keySelects b!"-1" = none ∧ keySelects b!"1 " = none := by decide +kernel

-- a path through an object, an array and an object
example : (JVal.obj [(b!"a", .arr [.num b!"1", .obj [(b!"b", .str b!"x")]]), (b!"c", .null), (b!"a", .bool true)]).find
    [b!"a", b!"1", b!"b"] = some (.str b!"x") := by rfl
example : Tree parsedHeap (Node.lookup parsedHeap ⟨0, 0, some 0⟩ [b!"a", b!"1", b!"b"]) (.str b!"x") :=
  C19_lookup _ _ _ [b!"a", b!"1", b!"b"] parsed_tree (fun _ =>
    have h : (Doc.empty.parse b!"{\"a\":[1,{\"b\":\"x\"}],\"c\":null,\"a\":true}").1.len ≤ maxUint := by decide +kernel
    h)

end Verif.Props
