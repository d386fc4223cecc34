import Verif.Proofs.Target
import Verif.Props.Parse
import Verif.Props.StrJson
import Verif.Spec.Lookup

/-!
# Properties C18–C21, C26, C27, C31, C32: documents and nodes

A heap `h : Heap` holds all documents of the program, `h.Wf` says that every length is within its capacity.
`Tree h n t`: node `n` is live and has tree `t`.
-/

namespace Verif.Props
open Verif Verif.Spec Verif.Njson

/-! ## C18 -/

/-- **C18**: two heaps that agree on everything before the lengths of their documents (`Heap.Same`: leftovers in
spare node and value capacity are arbitrary, revision counters may be offset by `δ`) answer every call sequence
with the same results, and agree again afterwards. Nodes passed in and returned are compared up to the offset of
their revision. -/
theorem C18_reuse (δ : Ref → UInt64) (h h' : Heap) (hw : h.Wf) (hw' : h'.Wf) (hs : Heap.Same δ h h') (fuel : Nat) (ops : List Op) :
    (runOps fuel ops h = none ∧ runOps fuel (ops.map (Op.shift δ)) h' = none) ∨
    ∃ h1 h1' rs, runOps fuel ops h = some (h1, rs) ∧ runOps fuel (ops.map (Op.shift δ)) h' = some (h1', rs.map (Res.shift δ)) ∧
      Heap.Same δ h1 h1' := by
  rcases runOps_rel δ fuel ops h h' hw hw' ((same_abs δ hw hw').1 hs) with ⟨h1, h2⟩ | ⟨h1, h1', rs, e1, e2, e3⟩
  · exact Or.inl ⟨h2, h1⟩
  · exact Or.inr ⟨h1, h1', rs, e1, e2, (same_abs δ (runOps_wf hw e1) (runOps_wf hw' e2)).2 e3⟩

/-- **C18, after Reset**: resetting document `r`, whatever it was used for before, gives a heap in which every call
sequence behaves as in the heap with a new `Document{}` in its place (whose revision is 0 instead of `rev + 1`). -/
theorem C18_reset (h : Heap) (hw : h.Wf) (r : Ref) (fuel : Nat) (ops : List Op) :
    let δ : Ref → UInt64 := fun q => if q = r then 0 - ((h r).rev + 1) else 0
    let old := h.set r (h r).reset
    let new := h.set r Doc.empty
    (runOps fuel ops old = none ∧ runOps fuel (ops.map (Op.shift δ)) new = none) ∨
    ∃ h1 h1' rs, runOps fuel ops old = some (h1, rs) ∧ runOps fuel (ops.map (Op.shift δ)) new = some (h1', rs.map (Res.shift δ)) ∧
      Heap.Same δ h1 h1' := by
  intro δ old new
  refine C18_reuse δ old new (hw.set r (Nat.zero_le _)) (hw.set r (Nat.zero_le _)) ?_ fuel ops
  intro q
  by_cases hq : q = r
  · subst hq
    refine ⟨⟨?_, ?_⟩, ?_⟩
    · simp [old, new, Heap.set, Doc.reset, Doc.empty]
    · intro id; simp [old, new, Heap.set, Doc.reset, Doc.empty, Doc.get]
    · have : ∀ x : UInt64, 0 = x + (0 - x) := by
        intro x; rw [UInt64.add_comm, UInt64.sub_add_cancel]
      simp only [old, new, δ, Heap.set, Doc.reset, Doc.empty, if_true]
      exact this _
  · refine ⟨⟨?_, ?_⟩, ?_⟩
    · simp [old, new, Heap.set, hq]
    · intro id; simp [old, new, Heap.set, hq]
    · simp [old, new, δ, Heap.set, hq]

-- a reused document with dirty capacity, after Reset: parse, read, edit, read
example : (runOps 10 [.parse 0 b!"[1,{\"a\":2}]", .json ⟨0, 8, some 0⟩ b!"x", .remove ⟨0, 8, some 0⟩ 0, .json ⟨0, 8, some 0⟩ []]
      (fun _ => dirty.reset)).map (·.2) =
    some [.parsed ⟨0, 8, some 0⟩ (.ok 0 []), .json (b!"x[1,{\"a\":2}]", false), .unit, .json (b!"[{\"a\":2}]", false)] := by
  decide +kernel

/-! ## C19 -/

theorem tree_cont {h : Heap} {n : Node} {t : JVal} (ht : Tree h n t) :
    ∃ r d, n.document h = some r ∧ n.doc = some r ∧ n.get h = some d ∧ (h r).get n.id = some d ∧ Reps (h r).cont t n.id := by
  obtain ⟨r, hd, hr⟩ := ht
  obtain ⟨c, hc⟩ := reps_some hr
  rw [doc_cont] at hc
  obtain ⟨d, h1, _⟩ := contOf_some hc
  refine ⟨r, d, hd, document_heap hd, ?_, h1, hr⟩
  unfold Node.get; rw [hd]; exact h1

theorem with_document (h : Heap) (n : Node) (id : Nat) : (n.with_ id).document h = n.document h := rfl

theorem cont_get {d : Doc} {id : Nat} {c : Cont} {x : NodeD} (h : d.cont id = some c) (hx : d.get id = some x) :
    x.typ = c.typ ∧ x.raw = c.raw ∧ x.values.vis = c.vals := by
  rw [doc_cont] at h
  obtain ⟨y, h1, h2⟩ := contOf_some h
  rw [hx] at h1; simp at h1; subst h1; exact h2

/-- **C19, Values of an array**: one value per element, in order, with empty keys. -/
theorem C19_values_array (h : Heap) (n : Node) (xs : List JVal) (ht : Tree h n (.arr xs)) :
    (n.values h).length = xs.length ∧
    ∀ (i : Nat) (v : V) (x : JVal), (n.values h)[i]? = some v → xs[i]? = some x → v.key = [] ∧ Tree h (n.with_ v.id) x := by
  obtain ⟨r, d, hd, _, hg, hg', vs, hc, hxs⟩ := tree_cont ht
  have hv : n.values h = vs := by unfold Node.values; rw [hg]; exact (cont_get hc hg').2.2
  obtain ⟨h1, h2⟩ := repsElems_iff.1 hxs
  rw [hv]
  refine ⟨h1.symm, fun i v x e1 e2 => ?_⟩
  obtain ⟨a, b⟩ := h2 i x v e2 e1
  exact ⟨a, r, hd, b⟩

/-- **C19, Values of an object**: one value per member, in order, with the member's key. -/
theorem C19_values_object (h : Heap) (n : Node) (ms : List (Bytes × JVal)) (ht : Tree h n (.obj ms)) :
    (n.values h).length = ms.length ∧
    ∀ (i : Nat) (v : V) (m : Bytes × JVal), (n.values h)[i]? = some v → ms[i]? = some m → v.key = m.1 ∧ Tree h (n.with_ v.id) m.2 := by
  obtain ⟨r, d, hd, _, hg, hg', vs, hc, hms⟩ := tree_cont ht
  have hv : n.values h = vs := by unfold Node.values; rw [hg]; exact (cont_get hc hg').2.2
  obtain ⟨h1, h2⟩ := repsMembers_iff.1 hms
  rw [hv]
  refine ⟨h1.symm, fun i v x e1 e2 => ?_⟩
  obtain ⟨a, b⟩ := h2 i x v e2 e1
  exact ⟨a, r, hd, b⟩

theorem dead_max {h : Heap} {n : Node} {r : Ref} (hd : n.document h = some r) (hlen : (h r).len ≤ maxUint) : Dead h (n.with_ maxUint) := by
  unfold Dead Node.get
  rw [with_document, hd]
  show (h r).get maxUint = none
  unfold Doc.get
  rw [if_neg (by omega)]

theorem findKey_reps {g : Nat → Option Cont} (k : Bytes) : ∀ {ms : List (Bytes × JVal)} {vs : List V}, RepsMembers g ms vs →
    match assocGet ms k with
    | some t => ∃ id, findKey k vs = some id ∧ Reps g t id
    | none => findKey k vs = none
  | [], vs, h => by simp only [RepsMembers] at h; subst h; rfl
  | (k', x) :: ms, vs, h => by
    obtain ⟨i, vs', rfl, h1, h2⟩ := h
    by_cases hk : k' = k
    · simp only [assocGet, findKey, if_pos hk]; exact ⟨i, rfl, h1⟩
    · simp only [assocGet, findKey, if_neg hk]; exact findKey_reps k h2

/-- **C19, Get**: the first member with the key, or a dead node. (`maxUint` bounds the number of nodes that fit
in memory.) -/
theorem C19_get (h : Heap) (n : Node) (ms : List (Bytes × JVal)) (k : Bytes) (ht : Tree h n (.obj ms))
    (hlen : ∀ r, (h r).len ≤ maxUint) :
    match assocGet ms k with
    | some t => Tree h (n.getKey h k) t
    | none => Dead h (n.getKey h k) := by
  obtain ⟨r, d, hd, _, hg, hg', vs, hc, hms⟩ := tree_cont ht
  obtain ⟨e1, _, e3⟩ := cont_get hc hg'
  have hf := findKey_reps k hms
  unfold Node.getKey
  rw [hg]
  simp only
  rw [if_pos e1, e3]
  cases ha : assocGet ms k with
  | none => rw [ha] at hf; simp only at hf; rw [hf]; exact dead_max hd (hlen r)
  | some t =>
    rw [ha] at hf
    obtain ⟨id, h1, h2⟩ := hf
    rw [h1]
    exact ⟨r, hd, h2⟩

/-- **C19, Index**: the i-th element, or a dead node. -/
theorem C19_index (h : Heap) (n : Node) (xs : List JVal) (i : Int) (ht : Tree h n (.arr xs)) (hlen : ∀ r, (h r).len ≤ maxUint) :
    (∀ k x, i = Int.ofNat k → xs[k]? = some x → Tree h (n.index h i) x) ∧
    (i < 0 ∨ (xs.length : Int) ≤ i → Dead h (n.index h i)) := by
  obtain ⟨r, d, hd, _, hg, hg', vs, hc, hxs⟩ := tree_cont ht
  obtain ⟨e1, _, e3⟩ := cont_get hc hg'
  obtain ⟨h1, h2⟩ := repsElems_iff.1 hxs
  simp only at e3
  unfold Node.index
  rw [hg]
  simp only
  constructor
  · rintro k x rfl hx
    have hk : k < vs.length := by have := (List.getElem?_eq_some_iff.1 hx).1; omega
    rw [if_pos ⟨e1, by simp, by rw [e3]; simpa using hk⟩, e3]
    simp only [Int.ofNat_eq_natCast, Int.toNat_natCast, List.getElem?_eq_getElem hk]
    exact ⟨r, hd, (h2 k x _ hx (List.getElem?_eq_getElem hk)).2⟩
  · intro hi
    rw [if_neg (by rw [e3]; omega)]
    exact dead_max hd (hlen r)

theorem digit_iff : ∀ c : UInt8, ((c - 48).toNat ≤ 9 ↔ IsDigitByte c) ∧ (IsDigitByte c → (c - 48).toNat = c.toNat - 48) := by
  unfold IsDigitByte
  apply forall_byte
  decide +kernel

theorem keyIndex_digits : ∀ (s : Bytes) (a : Nat), (∀ b ∈ s, IsDigitByte b) →
    keyIndex s (UInt64.ofNat a) = some (UInt64.ofNat (s.foldl (fun a c => a * 10 + (c.toNat - 48)) a))
  | [], a, _ => rfl
  | c :: s, a, h => by
    have hc := h c (by simp)
    unfold keyIndex
    rw [if_pos ((digit_iff c).1.2 hc)]
    have : UInt64.ofNat a * 10 + (c - 48).toUInt64 = UInt64.ofNat (a * 10 + (c.toNat - 48)) := by
      apply UInt64.toNat_inj.1
      have := (digit_iff c).2 hc
      rw [UInt64.toNat_add, UInt64.toNat_mul, UInt8.toNat_toUInt64, this]
      simp
    rw [this]
    exact keyIndex_digits s _ fun b hb => h b (by simp [hb])

theorem keyIndex_none : ∀ (s : Bytes) (i : UInt64), (¬ ∀ b ∈ s, IsDigitByte b) → keyIndex s i = none
  | [], i, h => by simp at h
  | c :: s, i, h => by
    unfold keyIndex
    by_cases hc : IsDigitByte c
    · rw [if_pos ((digit_iff c).1.2 hc)]
      apply keyIndex_none
      intro h'
      apply h
      intro b hb
      rcases List.mem_cons.1 hb with rfl | hb
      · exact hc
      · exact h' b hb
    · rw [if_neg (fun e => hc ((digit_iff c).1.1 e))]

theorem lookup_max {h : Heap} {r : Ref} (hlen : (h r).len ≤ maxUint) : ∀ p, Njson.lookup (getOf h (some r)) maxUint p = maxUint
  | [] => rfl
  | k :: p => by
    have : getOf h (some r) maxUint = none := by
      show (h r).get maxUint = none
      unfold Doc.get
      rw [if_neg (by omega)]
    unfold Njson.lookup
    rw [this]

/-- **C19, Lookup on an object** starts with `Get`. -/
theorem C19_lookup_object (h : Heap) (n : Node) (ms : List (Bytes × JVal)) (k : Bytes) (p : List Bytes) (ht : Tree h n (.obj ms))
    (hlen : ∀ r, (h r).len ≤ maxUint) : n.lookup h [] = n ∧ n.lookup h (k :: p) = (n.getKey h k).lookup h p := by
  obtain ⟨r, d, hd, _, hg, hg', vs, hc, hms⟩ := tree_cont ht
  obtain ⟨e1, _, e3⟩ := cont_get hc hg'
  refine ⟨rfl, ?_⟩
  unfold Node.lookup Node.getKey
  rw [hg]
  simp only
  rw [if_pos e1, e3]
  cases hf : findKey k vs with
  | none =>
    simp only [with_document, hd]
    rw [show (n.with_ maxUint).id = maxUint from rfl, lookup_max (hlen r)]
    rw [Njson.lookup]
    simp only [getOf, hg']
    rw [if_pos e1, e3, hf]
    rfl
  | some id =>
    simp only [with_document, hd]
    rw [Njson.lookup]
    simp only [getOf, hg']
    rw [if_pos e1, e3, hf]
    rfl

/-- **C19, Lookup on an array** starts with `Index` of the decimal value of the key (below 2^63; see C32). -/
theorem C19_lookup_array (h : Heap) (n : Node) (xs : List JVal) (k : Bytes) (p : List Bytes) (ht : Tree h n (.arr xs))
    (hlen : ∀ r, (h r).len ≤ maxUint) (hdig : ∀ b ∈ k, IsDigitByte b) (hval : decVal k < 2 ^ 63) :
    n.lookup h (k :: p) = (n.index h (decVal k)).lookup h p := by
  obtain ⟨r, d, hd, _, hg, hg', vs, hc, hxs⟩ := tree_cont ht
  obtain ⟨e1, _, e3⟩ := cont_get hc hg'
  simp only at e3
  have hk : keyIndex k 0 = some (UInt64.ofNat (decVal k)) := keyIndex_digits k 0 hdig
  have hto : (UInt64.ofNat (decVal k)).toNat = decVal k := by simp; omega
  have hstep : Njson.lookup (getOf h (some r)) n.id (k :: p) =
      match vs[decVal k]? with | some v => Njson.lookup (getOf h (some r)) v.id p | none => maxUint := by
    rw [Njson.lookup]
    simp only [getOf, hg']
    rw [if_neg (by rw [e1]; simp; decide), if_pos e1, hk]
    simp only
    rw [hto, if_pos hval, e3]
    rfl
  unfold Node.lookup Node.index
  rw [hg]
  simp only
  rw [hd, hstep, e3]
  by_cases hlt : decVal k < vs.length
  · rw [if_pos ⟨e1, by omega, by omega⟩]
    simp only [Int.toNat_natCast, List.getElem?_eq_getElem hlt, with_document, hd]
    rfl
  · rw [if_neg (by omega), List.getElem?_eq_none (by omega)]
    simp only [with_document, hd]
    rw [show (n.with_ maxUint).id = maxUint from rfl, lookup_max (hlen r)]
    rfl

/-- a heap with one parsed document -/
def parsedHeap : Heap := fun _ => (Doc.empty.parse b!"{\"a\":[1,{\"b\":\"x\"}],\"c\":null,\"a\":true}").1

theorem parsed_tree : Tree parsedHeap ⟨0, 0, some 0⟩
    (.obj [(b!"a", .arr [.num b!"1", .obj [(b!"b", .str b!"x")]]), (b!"c", .null), (b!"a", .bool true)]) := by
  refine ⟨0, by decide +kernel, [⟨1, b!"a"⟩, ⟨5, b!"c"⟩, ⟨6, b!"a"⟩], by decide +kernel, 1, _, rfl,
    ⟨[⟨2, []⟩, ⟨3, []⟩], by decide +kernel, 2, _, rfl, by unfold Reps; decide +kernel, 3, _, rfl,
      ⟨[⟨4, b!"b"⟩], by decide +kernel, 4, _, rfl, by unfold Reps; decide +kernel, rfl⟩, rfl⟩,
    5, _, rfl, by unfold Reps; decide +kernel, 6, _, rfl, by unfold Reps; decide +kernel, rfl⟩

example : ∀ r, (parsedHeap r).len ≤ maxUint := fun _ =>
  have h : (Doc.empty.parse b!"{\"a\":[1,{\"b\":\"x\"}],\"c\":null,\"a\":true}").1.len ≤ maxUint := by decide +kernel
  h
-- Get takes the first duplicate, Lookup goes through arrays
example : (Node.getKey parsedHeap ⟨0, 0, some 0⟩ b!"a").id = 1 := by decide +kernel
example : (Node.lookup parsedHeap ⟨0, 0, some 0⟩ [b!"a", b!"1", b!"b"]).id = 4 := by decide +kernel

/-! ## C32 -/

/-- **C32 (partial)**: on an array, `Lookup(key)` is `Index` of the key's decimal value when the key is a non-empty
string of digits of value below 2^63, and a dead node when some byte is not a digit. Missing: the empty key, which
selects element 0, and values from 2^63 on, which wrap around (`C32_false`). -/
theorem C32_lookup_index_partial (h : Heap) (n : Node) (xs : List JVal) (k : Bytes) (ht : Tree h n (.arr xs))
    (hlen : ∀ r, (h r).len ≤ maxUint) (_hne : k ≠ []) (hval : decVal k < 2 ^ 63) :
    ((∀ b ∈ k, IsDigitByte b) → n.lookup h [k] = n.index h (decVal k)) ∧
    ((¬ ∀ b ∈ k, IsDigitByte b) → Dead h (n.lookup h [k])) := by
  constructor
  · intro hdig
    rw [C19_lookup_array h n xs k [] ht hlen hdig hval]; rfl
  · intro hdig
    obtain ⟨r, d, hd, _, hg, hg', vs, hc, hxs⟩ := tree_cont ht
    obtain ⟨e1, _, e3⟩ := cont_get hc hg'
    have : Njson.lookup (getOf h (some r)) n.id [k] = maxUint := by
      rw [Njson.lookup]
      simp only [getOf, hg']
      rw [if_neg (by rw [e1]; simp; decide), if_pos e1, keyIndex_none k 0 hdig]
    unfold Node.lookup
    rw [hd, this]
    exact dead_max hd (hlen r)

/-- a heap holding the array `[7,8]` -/
def arrHeap : Heap := fun _ => (Doc.empty.parse b!"[7,8]").1

theorem arr_tree : Tree arrHeap ⟨0, 0, some 0⟩ (.arr [.num b!"7", .num b!"8"]) :=
  ⟨0, by decide +kernel, [⟨1, []⟩, ⟨2, []⟩], by decide +kernel, 1, _, rfl, by unfold Reps; decide +kernel, 2, _, rfl,
    by unfold Reps; decide +kernel, rfl⟩

example : Node.lookup arrHeap ⟨0, 0, some 0⟩ [b!"1"] = ⟨2, 0, some 0⟩ := by decide +kernel
example : Dead arrHeap (Node.lookup arrHeap ⟨0, 0, some 0⟩ [b!"x"]) := by unfold Dead; decide +kernel

/-- **C32 is false** of the code: the empty key is no numeral and `18446744073709551616` is not below the length,
yet both select element 0 of `[7,8]`. -/
theorem C32_false : ¬ ∀ (h : Heap) (n : Node) (xs : List JVal) (k : Bytes), Tree h n (.arr xs) → (∀ r, (h r).len ≤ maxUint) →
    (¬ (k ≠ [] ∧ (∀ b ∈ k, IsDigitByte b) ∧ decVal k < xs.length)) → Dead h (n.lookup h [k]) := by
  intro hall
  have := hall arrHeap ⟨0, 0, some 0⟩ _ [] arr_tree (fun _ => show (Doc.empty.parse b!"[7,8]").1.len ≤ maxUint by decide +kernel) (by simp)
  revert this
  unfold Dead
  decide +kernel

theorem C32_wraps : ¬ Dead arrHeap (Node.lookup arrHeap ⟨0, 0, some 0⟩ [b!"18446744073709551616"]) ∧
    decVal b!"18446744073709551616" = 2 ^ 64 := by
  unfold Dead
  exact ⟨by decide +kernel, by decide +kernel⟩

/-! ## C20 -/

theorem dead_doc {h : Heap} {n : Node} (hd : n.document h = none) : n.get h = none := by unfold Node.get; rw [hd]

/-- **C20**: a node taken from document `r` before a call sequence that resets `r` at least once (and fewer than
2^64 times) is inert after it: reads give the zero result and mutations through it do nothing. -/
theorem C20_stale (h : Heap) (hw : h.Wf) (fuel : Nat) (ops : List Op) (h1 : Heap) (rs : List Res)
    (hrun : runOps fuel ops h = some (h1, rs)) (r : Ref) (n : Node) (hdoc : n.doc = some r) (hrev : n.rev = (h r).rev)
    (hpos : 0 < resets r ops) (hlt : resets r ops < 2 ^ 64) :
    n.raw h1 = [] ∧ n.unescaped h1 = [] ∧ n.data h1 = ([], tInvalid) ∧ n.toBool h1 = (false, false) ∧ n.typ h1 = tInvalid ∧
    n.values h1 = [] ∧ (∀ fuel dst, n.appendJSON h1 fuel dst = some ([], true)) ∧
    (∀ k, Dead h1 (n.getKey h1 k)) ∧ (∀ i, Dead h1 (n.index h1 i)) ∧ (∀ p, Dead h1 (n.lookup h1 p)) ∧
    ∀ (fuel : Nat) (op : Op), op.mutates n → op.run fuel h1 = some (h1, .unit) := by
  have hr := runOps_rev (q := r) hw hrun
  have hd : n.document h1 = none := by
    unfold Node.document
    rw [hdoc]
    simp only
    rw [if_neg]
    rw [hr, hrev]
    intro he
    have h2 := congrArg (fun x => x - (h r).rev) he
    have h3 : UInt64.ofNat (resets r ops) = 0 := by
      have e : (h r).rev + UInt64.ofNat (resets r ops) - (h r).rev = UInt64.ofNat (resets r ops) := by
        rw [UInt64.add_comm, UInt64.add_sub_cancel]
      simp only [e, UInt64.sub_self] at h2
      exact h2
    have h4 := congrArg UInt64.toNat h3
    simp at h4
    omega
  have hg := dead_doc hd
  have hwith : ∀ id, Dead h1 (n.with_ id) := fun id => dead_doc (n := n.with_ id) hd
  refine ⟨by simp [Node.raw, hg], by simp [Node.unescaped, hg], by simp [Node.data, hg], by simp [Node.toBool, hg],
    by simp [Node.typ, hg], by simp [Node.values, hg], by simp [Node.appendJSON, hg], ?_, ?_, ?_, ?_⟩
  · intro k; simp only [Node.getKey, hg]; exact hwith _
  · intro i; simp only [Node.index, hg]; exact hwith _
  · intro p; exact hwith _
  · intro fuel op hm
    have hu : ∀ f, n.update h1 f = h1 := by intro f; unfold Node.update; rw [hg]
    cases op <;> simp only [Op.mutates] at hm <;> subst hm <;>
      simp [Op.run, Node.set, Node.append, Node.replace, Node.slice, Node.remove, Node.del, Node.setScalar, Node.strip, hg, hd, hu]

-- a node of a parsed document, after Reset and a new Parse into the same slots
example : (runOps 10 [.parse 0 b!"[1]", .reset 0, .parse 0 b!"[2]"] (fun _ => Doc.empty)).isSome ∧
    resets 0 [.parse 0 b!"[1]", .reset 0, .parse 0 b!"[2]"] = 1 := by decide +kernel

/-! ## C21 -/

/-- **C21**: for every node with tree `t`, `AppendJSON(dst)` returns `dst` followed by the compact text of `t` and no
error (for every recursion budget from the size of the tree on). -/
theorem C21_appendJSON (h : Heap) (n : Node) (t : JVal) (dst : Bytes) (ht : Tree h n t) (fuel : Nat) (hf : t.size ≤ fuel) :
    n.appendJSON h fuel dst = some (dst ++ t.ser, false) := by
  obtain ⟨r, d, hd, hdoc, hg, hg', hr⟩ := tree_cont ht
  unfold Node.appendJSON
  rw [hg, hdoc]
  exact appendJSON_reps hr hf dst

example : Node.appendJSON parsedHeap 9 ⟨0, 0, some 0⟩ b!"> " =
    some (b!"> {\"a\":[1,{\"b\":\"x\"}],\"c\":null,\"a\":true}", false) := by decide +kernel

/-! ## C26 -/

/-- the setters, Set, Append, Replace, Slice, Remove and Del change one node and add others -/
theorem mutation_local {h : Heap} (hw : h.Wf) {fuel : Nat} {op : Op} {n : Node} (hop : op.mutates n) (hns : ∀ k, op ≠ .strip n k)
    {h1 : Heap} {res : Res} (hrun : op.run fuel h = some (h1, res)) :
    h1.abs = h.abs ∨ ∃ r, A.document h.abs n = some r ∧ Local h.abs h1.abs r n.id := by
  have part : ∀ {c : Option Heap} {a : Option AH}, Commutes c a → c.map (·, Res.unit) = some (h1, res) → a = some h1.abs := by
    intro c a hca he
    cases c with
    | none => simp at he
    | some x => simp at he; have := hca.1; rw [← this, ← he.1]; rfl
  have upd : ∀ {c : Heap} {f : ANode → ANode}, c.abs = A.update h.abs n f → c = h1 →
      h1.abs = h.abs ∨ ∃ r, A.document h.abs n = some r ∧ Local h.abs h1.abs r n.id := by
    intro c f e1 e2
    rw [← e2, e1]; exact local_update _ _ _
  cases op <;> simp only [Op.mutates] at hop
  case set k v => subst hop; exact local_nset (part (abs_nset hw fuel _ k v) hrun)
  case append vs => subst hop; exact local_append (part (abs_append hw fuel _ vs) hrun)
  case replace i v => subst hop; exact local_replace (part (abs_replace hw fuel _ i v) hrun)
  case slice i j => subst hop; simp [Op.run] at hrun; exact upd (abs_slice hw _ i j).2 hrun.1
  case remove i => subst hop; simp [Op.run] at hrun; exact upd (abs_remove hw _ i).2 hrun.1
  case strip k => subst hop; exact absurd rfl (hns k)
  case del k => subst hop; simp [Op.run] at hrun; exact upd (abs_del hw _ k).2 hrun.1
  case setScalar t b => subst hop; simp [Op.run] at hrun; exact upd (abs_setScalar hw _ t b).2 hrun.1

/-- **C26**: after any single mutation of node `n` (the setters, Set, Append, Replace, Slice, Remove, Del), every node
whose tree did not contain `n` has the tree it had before, in every document. -/
theorem C26_frame (h : Heap) (hw : h.Wf) (fuel : Nat) (op : Op) (n : Node) (hop : op.mutates n) (hns : ∀ k, op ≠ .strip n k)
    (h1 : Heap) (res : Res) (hrun : op.run fuel h = some (h1, res)) (m : Node) (t : JVal) (ht : Tree h m t)
    (hc : ¬ Contains h m n) : Tree h1 m t := by
  rw [tree_abs] at ht ⊢
  have key := mutation_local hw hop hns hrun
  rcases key with he | ⟨r, hd, hl⟩
  · rw [he]; exact ht
  · obtain ⟨q, hq, hr⟩ := ht
    refine ⟨q, by rw [hl.document, hq], hl.reps hr ?_⟩
    rintro rfl hreach
    apply hc
    exact ⟨q, by rw [abs_document]; exact hq, by rw [abs_document]; exact hd, by rw [abs_cont]; exact hreach⟩

/-- a heap with two documents: `[1,[2,3]]` in both, plus an orphan string `"s"` in document 0 -/
def twoHeap : Heap := fun r => if r = 0 then ((Doc.empty.parse b!"[1,[2,3]]").1.textRaw b!"s").1 else (Doc.empty.parse b!"[1,[2,3]]").1

-- mutating the inner array leaves the orphan and the other document alone, and changes its parent
example : (runOps 9 [.append ⟨2, 0, some 0⟩ [⟨0, 0, some 1⟩], .json ⟨0, 0, some 0⟩ [], .json ⟨5, 0, some 0⟩ [], .json ⟨0, 0, some 1⟩ []]
    twoHeap).map (·.2) = some [.unit, .json (b!"[1,[2,3,[1,[2,3]]]]", false), .json (b!"\"s\"", false), .json (b!"[1,[2,3]]", false)] := by
  decide +kernel

/-! ## C27 -/

/-- **C27**: whatever call sequence is executed on other documents, a document none of the calls is made on keeps every
node, so every tree in it is unchanged. With C22, C24 and C25, which place the inserted value's tree inside the
target's own document, this separates source and target of an insertion across documents in both directions. -/
theorem C27_documents_independent (h : Heap) (fuel : Nat) (ops : List Op) (h1 : Heap) (rs : List Res)
    (hrun : runOps fuel ops h = some (h1, rs)) (r : Ref) (hops : ∀ op ∈ ops, op.target ≠ some r) :
    h1 r = h r ∧ ∀ n t, n.doc = some r → (Tree h n t ↔ Tree h1 n t) := by
  have he := runOps_other hrun hops
  refine ⟨he, ?_⟩
  intro n t hn
  unfold Tree Node.document
  rw [hn]
  simp only [he]
  constructor
  · rintro ⟨q, h1', h2⟩
    split at h1'
    · simp at h1'; subst h1'; rename_i hr; exact ⟨r, by simp [hr], by rw [he]; exact h2⟩
    · simp at h1'
  · rintro ⟨q, h1', h2⟩
    split at h1'
    · simp at h1'; subst h1'; rename_i hr; exact ⟨r, by simp [hr], by rw [← he]; exact h2⟩
    · simp at h1'

-- insert document 1 into document 0, then destroy document 1
example : (runOps 9 [.append ⟨2, 0, some 0⟩ [⟨0, 0, some 1⟩], .setScalar ⟨2, 0, some 1⟩ tNull strNull, .reset 1, .json ⟨0, 0, some 0⟩ []]
    twoHeap).map (·.2) = some [.unit, .unit, .unit, .json (b!"[1,[2,3,[1,[2,3]]]]", false)] := by decide +kernel

/-! ## C31 -/

theorem setScalar_get {h : Heap} {n : Node} {d : NodeD} (hg : n.get h = some d) (typ : Typ) (raw : Bytes) :
    (n.get (n.setScalar h typ raw)) = some (d.reset typ d.root raw) ∧
    ∃ r, n.document (n.setScalar h typ raw) = some r ∧
      ((n.setScalar h typ raw) r).cont n.id = some ⟨typ, raw, []⟩ := by
  obtain ⟨r, hdoc, hrev, hd⟩ := get_doc hg
  have hu : n.setScalar h typ raw = h.set r ((h r).setNode n.id fun n => n.reset typ n.root raw) := by
    unfold Node.setScalar Node.update
    rw [hg, hdoc]
  have hdd : n.document (n.setScalar h typ raw) = some r := by
    rw [hu]; unfold Node.document; rw [hdoc]; simp [Heap.set, Doc.setNode, hrev]
  have hget : ((n.setScalar h typ raw) r).get n.id = some (d.reset typ d.root raw) := by
    rw [hu]
    unfold Doc.get at hd ⊢
    split at hd
    · rename_i hlt
      simp only [Heap.set, if_true, Doc.setNode]
      rw [if_pos hlt, modify_eq, hd]; rfl
    · simp at hd
  refine ⟨?_, r, hdd, ?_⟩
  · unfold Node.get; rw [hdd]; exact hget
  · rw [doc_cont]; unfold contOf; rw [hget]; simp [NodeD.reset, zeroVis_vis]

/-- **C31, SetString and SetStringHTML**: for valid UTF-8 the text is read back, the type is String, the children are
gone and the node serialises to the quoted escaped text. -/
theorem C31_setString (h : Heap) (n : Node) (d : NodeD) (hg : n.get h = some d) (s : Bytes) (hs : ValidUtf8 s) (html : Bool) :
    let h' := if html then n.setStringHTML h s else n.setString h s
    n.unescaped h' = s ∧ n.typ h' = tString ∧ n.values h' = [] ∧ Tree h' n (.str (StrJson.escaped s html false)) ∧
    ∀ dst fuel, 1 ≤ fuel → n.appendJSON h' fuel dst = some (dst ++ [34] ++ StrJson.escaped s html false ++ [34], false) := by
  intro h'
  have he : h' = n.setScalar h tString (StrJson.escaped s html false) := by cases html <;> rfl
  obtain ⟨h1, r, h2, h3⟩ := setScalar_get hg tString (StrJson.escaped s html false)
  rw [← he] at h1 h2 h3
  have ht : Tree h' n (.str (StrJson.escaped s html false)) := ⟨r, h2, h3⟩
  refine ⟨?_, ?_, ?_, ht, ?_⟩
  · unfold Node.unescaped
    rw [h1]
    simp only [NodeD.reset, if_true]
    exact C01_roundtrip s html hs
  · unfold Node.typ; rw [h1]; rfl
  · unfold Node.values; rw [h1]; simp [NodeD.reset, zeroVis_vis]
  · intro dst fuel hf
    rw [C21_appendJSON h' n _ dst ht fuel hf]
    simp [JVal.ser]

/-- **C31, SetTrue, SetFalse, SetNull**: the value is read back, the children are gone. -/
theorem C31_setLiteral (h : Heap) (n : Node) (d : NodeD) (hg : n.get h = some d) :
    n.toBool (n.setTrue h) = (true, true) ∧ n.toBool (n.setFalse h) = (false, true) ∧ n.typ (n.setNull h) = tNull ∧
    n.values (n.setTrue h) = [] ∧ n.values (n.setFalse h) = [] ∧ n.values (n.setNull h) = [] ∧
    Tree (n.setTrue h) n (.bool true) ∧ Tree (n.setFalse h) n (.bool false) ∧ Tree (n.setNull h) n .null := by
  obtain ⟨a1, r1, a2, a3⟩ := setScalar_get hg tBoolean strTrue
  obtain ⟨b1, r2, b2, b3⟩ := setScalar_get hg tBoolean strFalse
  obtain ⟨c1, r3, c2, c3⟩ := setScalar_get hg tNull strNull
  refine ⟨?_, ?_, ?_, ?_, ?_, ?_, ⟨r1, a2, a3⟩, ⟨r2, b2, b3⟩, ⟨r3, c2, c3⟩⟩
  · unfold Node.toBool Node.setTrue; rw [a1]; simp [NodeD.reset]
  · unfold Node.toBool Node.setFalse; rw [b1]; simp [NodeD.reset]; decide
  · unfold Node.typ Node.setNull; rw [c1]; rfl
  · unfold Node.values Node.setTrue; rw [a1]; simp [NodeD.reset, zeroVis_vis]
  · unfold Node.values Node.setFalse; rw [b1]; simp [NodeD.reset, zeroVis_vis]
  · unfold Node.values Node.setNull; rw [c1]; simp [NodeD.reset, zeroVis_vis]

/-- **C31, numbers**: after SetInt, SetUint or SetFloat the raw text is the formatted number. -/
theorem C31_setNumber (h : Heap) (n : Node) (d : NodeD) (hg : n.get h = some d) (raw : Bytes) :
    n.data (n.setNumber h raw) = (raw, tNumber) ∧ n.values (n.setNumber h raw) = [] ∧ Tree (n.setNumber h raw) n (.num raw) := by
  obtain ⟨a1, r1, a2, a3⟩ := setScalar_get hg tNumber raw
  refine ⟨?_, ?_, ⟨r1, a2, a3⟩⟩
  · unfold Node.data Node.setNumber; rw [a1]; rfl
  · unfold Node.values Node.setNumber; rw [a1]; simp [NodeD.reset, zeroVis_vis]

-- turning an object with children into a string
example : (Node.get parsedHeap ⟨0, 0, some 0⟩).isSome ∧
    Node.appendJSON (Node.setString parsedHeap ⟨0, 0, some 0⟩ b!"a\"\n") 5 ⟨0, 0, some 0⟩ [] = some (b!"\"a\\\"\\n\"", false) := by
  decide +kernel

/-- **C16**, the returned node: on success it is the new node, in the document and with its current revision; on failure it is the zero Node, which belongs to
no document. Other documents stay as they are. -/
theorem C16_node {h : Heap} {r : Ref} (hwf : (h r).Wf) (s : Bytes) :
    (∃ d' id j tail, Parses (h r) s d' id j tail ∧ h.parse r s = (h.set r d', ⟨id, (h r).rev, some r⟩, .ok id tail)) ∨
    ((¬ ∃ d' id j tail, Parses (h r) s d' id j tail) ∧ ∃ d' out, h.parse r s = (h.set r d', ⟨0, 0, none⟩, out) ∧ ∀ id tail, out ≠ .ok id tail) := by
  have hrev : ((h r).parse s).1.rev = (h r).rev := by
    unfold Doc.parse
    simp only
    split <;> rfl
  by_cases hp : ∃ d' id j tail, Parses (h r) s d' id j tail
  · obtain ⟨d', id, j, tail, hp⟩ := hp
    refine .inl ⟨d', id, j, tail, hp, ?_⟩
    rw [hp.1] at hrev
    unfold Heap.parse Heap.node
    rw [hp.1]
    simp only [Heap.set, if_true]
    rw [show d'.rev = (h r).rev from hrev]
  · refine .inr ⟨hp, ?_⟩
    cases hq : (h r).parse s with
    | mk d' out =>
      refine ⟨d', out, ?_, fun id tail ho => ?_⟩
      · unfold Heap.parse
        rw [hq]
        cases out with
        | ok id tail =>
          obtain ⟨t, pos, h1, h2, h3, h4, h5⟩ := parse_ok hwf hq
          subst h2
          exact absurd ⟨_, _, _, _, hq, view_reps (view_length hwf) h5⟩ hp
        | _ => rfl
      · subst ho
        obtain ⟨t, pos, h1, h2, h3, h4, h5⟩ := parse_ok hwf hq
        subst h2
        exact absurd ⟨_, _, _, _, hq, view_reps (view_length hwf) h5⟩ hp

-- both happen
example : (Heap.parse (fun _ => Doc.empty) 3 b!"[1]").2.1 = ⟨0, 0, some 3⟩ ∧ (Heap.parse (fun _ => Doc.empty) 3 b!"[1").2.1 = ⟨0, 0, none⟩ := by
  decide +kernel

end Verif.Props
