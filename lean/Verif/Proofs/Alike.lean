import Verif.Spec.Alike
import Verif.Props.Missing
import Verif.Props.Strip

/-!
# Lemmas for C143: two nodes with one tree, in lockstep
-/

namespace Verif.Props
open Verif Verif.Spec Verif.Njson

/-- two nodes, read through two documents, represent one tree -/
def Twin (g g' : Nat → Option NodeD) (id id' : Nat) : Prop := ∃ t, Reps (contOf g) t id ∧ Reps (contOf g') t id'

/-- the children of two nodes that represent one tree -/
inductive Twins (g g' : Nat → Option NodeD) : List V → List V → Prop
  | nil : Twins g g' [] []
  | cons {v v' : V} {vs vs' : List V} : v.key = v'.key ∧ Twin g g' v.id v'.id → Twins g g' vs vs' → Twins g g' (v :: vs) (v' :: vs')

theorem twins_elems {g g' : Nat → Option NodeD} : ∀ {xs : List JVal} {vs vs' : List V}, RepsElems (contOf g) xs vs → RepsElems (contOf g') xs vs' → Twins g g' vs vs'
  | [], vs, vs', h, h' => by simp only [RepsElems] at h h'; subst h h'; exact .nil
  | x :: xs, vs, vs', h, h' => by
    simp only [RepsElems] at h h'
    obtain ⟨id, ws, rfl, h1, h2⟩ := h
    obtain ⟨id', ws', rfl, h1', h2'⟩ := h'
    exact .cons ⟨rfl, x, h1, h1'⟩ (twins_elems h2 h2')

theorem twins_members {g g' : Nat → Option NodeD} : ∀ {ms : List (Bytes × JVal)} {vs vs' : List V}, RepsMembers (contOf g) ms vs → RepsMembers (contOf g') ms vs' →
    Twins g g' vs vs'
  | [], vs, vs', h, h' => by simp only [RepsMembers] at h h'; subst h h'; exact .nil
  | (k, x) :: xs, vs, vs', h, h' => by
    simp only [RepsMembers] at h h'
    obtain ⟨id, ws, rfl, h1, h2⟩ := h
    obtain ⟨id', ws', rfl, h1', h2'⟩ := h'
    exact .cons ⟨rfl, x, h1, h1'⟩ (twins_members h2 h2')

theorem twin_get {g g' : Nat → Option NodeD} {id id' : Nat} (h : Twin g g' id id') :
    ∃ d d', g id = some d ∧ g' id' = some d' ∧ d.typ = d'.typ ∧ d.raw = d'.raw ∧ Twins g g' d.values.vis d'.values.vis := by
  obtain ⟨t, h1, h2⟩ := h
  have key : ∀ (typ : Typ) (raw : Bytes) (vs vs' : List V), contOf g id = some ⟨typ, raw, vs⟩ → contOf g' id' = some ⟨typ, raw, vs'⟩ → Twins g g' vs vs' →
      ∃ d d', g id = some d ∧ g' id' = some d' ∧ d.typ = d'.typ ∧ d.raw = d'.raw ∧ Twins g g' d.values.vis d'.values.vis := by
    intro typ raw vs vs' e e' hv
    obtain ⟨d, a1, a2, a3, a4⟩ := contOf_some e
    obtain ⟨d', b1, b2, b3, b4⟩ := contOf_some e'
    exact ⟨d, d', a1, b1, by rw [a2, b2], by rw [a3, b3], by rw [a4, b4]; exact hv⟩
  cases t with
  | null => simp only [Reps] at h1 h2; exact key _ _ _ _ h1 h2 .nil
  | bool b => cases b <;> (simp only [Reps] at h1 h2; exact key _ _ _ _ h1 h2 .nil)
  | num r => simp only [Reps] at h1 h2; exact key _ _ _ _ h1 h2 .nil
  | str r => simp only [Reps] at h1 h2; exact key _ _ _ _ h1 h2 .nil
  | arr xs =>
    simp only [Reps] at h1 h2
    obtain ⟨vs, h1, h3⟩ := h1
    obtain ⟨vs', h2, h4⟩ := h2
    exact key _ _ _ _ h1 h2 (twins_elems h3 h4)
  | obj ms =>
    simp only [Reps] at h1 h2
    obtain ⟨vs, h1, h3⟩ := h1
    obtain ⟨vs', h2, h4⟩ := h2
    exact key _ _ _ _ h1 h2 (twins_members h3 h4)

theorem twin_append {g g' : Nat → Option NodeD} : ∀ (fuel : Nat) (dst : Bytes) (id id' : Nat), Twin g g' id id' →
    Njson.appendJSON g fuel dst id = Njson.appendJSON g' fuel dst id'
  | 0, _, _, _, _ => rfl
  | fuel + 1, dst, id, id', h => by
    obtain ⟨d, d', h1, h2, h3, h4, h5⟩ := twin_get h
    have he : ∀ (vs vs' : List V), Twins g g' vs vs' → ∀ (first : Bool) (dst : Bytes),
        appendElems (Njson.appendJSON g fuel) vs first dst = appendElems (Njson.appendJSON g' fuel) vs' first dst := by
      intro vs vs' hv
      induction hv with
      | nil => intro _ _; rfl
      | cons hx _ ih =>
        intro first dst
        unfold appendElems
        rw [twin_append fuel _ _ _ hx.2]
        simp only [ih]
    have hm : ∀ (vs vs' : List V), Twins g g' vs vs' → ∀ (first : Bool) (dst : Bytes),
        appendMembers (Njson.appendJSON g fuel) vs first dst = appendMembers (Njson.appendJSON g' fuel) vs' first dst := by
      intro vs vs' hv
      induction hv with
      | nil => intro _ _; rfl
      | cons hx _ ih =>
        intro first dst
        unfold appendMembers
        rw [hx.1, twin_append fuel _ _ _ hx.2]
        simp only [ih]
    rw [Njson.appendJSON, Njson.appendJSON, h1, h2]
    simp only [h3, h4, he _ _ h5, hm _ _ h5]

theorem twin_iface {F : Type} (pf : Bytes → Option F) {g g' : Nat → Option NodeD} : ∀ (fuel : Nat) (id id' : Nat), Twin g g' id id' →
    Njson.toInterface pf g fuel id = Njson.toInterface pf g' fuel id'
  | 0, _, _, _ => rfl
  | fuel + 1, id, id', h => by
    obtain ⟨d, d', h1, h2, h3, h4, h5⟩ := twin_get h
    have he : ∀ (vs vs' : List V), Twins g g' vs vs' → ∀ (x : List (GoVal F)),
        toInterfaceSlice (Njson.toInterface pf g fuel) vs x = toInterfaceSlice (Njson.toInterface pf g' fuel) vs' x := by
      intro vs vs' hv
      induction hv with
      | nil => intro _; rfl
      | cons hx _ ih =>
        intro x
        unfold toInterfaceSlice
        rw [twin_iface pf fuel _ _ hx.2]
        simp only [ih]
    have hm : ∀ (vs vs' : List V), Twins g g' vs vs' → ∀ (m : Bytes → Option (GoVal F)),
        toInterfaceMap (Njson.toInterface pf g fuel) vs m = toInterfaceMap (Njson.toInterface pf g' fuel) vs' m := by
      intro vs vs' hv
      induction hv with
      | nil => intro _; rfl
      | cons hx _ ih =>
        intro m
        unfold toInterfaceMap
        rw [hx.1, twin_iface pf fuel _ _ hx.2]
        simp only [ih]
    rw [Njson.toInterface, Njson.toInterface, h1, h2]
    simp only [h3, h4, he _ _ h5, hm _ _ h5]

theorem twin_find {g g' : Nat → Option NodeD} (k : Bytes) {vs vs' : List V} (h : Twins g g' vs vs') :
    (findKey k vs = none ∧ findKey k vs' = none) ∨ ∃ i i', findKey k vs = some i ∧ findKey k vs' = some i' ∧ Twin g g' i i' := by
  induction h with
  | nil => exact .inl ⟨rfl, rfl⟩
  | @cons v v' _ _ hx _ ih =>
    unfold findKey
    rw [hx.1]
    by_cases hk : v'.key = k
    · rw [if_pos hk, if_pos hk]; exact .inr ⟨_, _, rfl, rfl, hx.2⟩
    · rw [if_neg hk, if_neg hk]; exact ih

theorem twin_nth {g g' : Nat → Option NodeD} {vs vs' : List V} (h : Twins g g' vs vs') : ∀ (i : Nat),
    (vs[i]? = none ∧ vs'[i]? = none) ∨ ∃ v v', vs[i]? = some v ∧ vs'[i]? = some v' ∧ Twin g g' v.id v'.id := by
  induction h with
  | nil => intro i; exact .inl ⟨by simp, by simp⟩
  | @cons v v' _ _ hx _ ih =>
    intro i
    cases i with
    | zero => exact .inr ⟨v, v', by simp, by simp, hx.2⟩
    | succ i => simpa using ih i

theorem twin_lookup {g g' : Nat → Option NodeD} : ∀ (p : List Bytes) (id id' : Nat), Twin g g' id id' →
    (Njson.lookup g id p = maxUint ∧ Njson.lookup g' id' p = maxUint) ∨ Twin g g' (Njson.lookup g id p) (Njson.lookup g' id' p)
  | [], id, id', h => .inr h
  | k :: p, id, id', h => by
    obtain ⟨d, d', h1, h2, h3, h4, h5⟩ := twin_get h
    rw [Njson.lookup.eq_2 g id k p, Njson.lookup.eq_2 g' id' k p, h1, h2]
    dsimp only
    rw [h3]
    by_cases ho : d'.typ = tObject
    · rw [if_pos ho, if_pos ho]
      rcases twin_find k h5 with ⟨e1, e2⟩ | ⟨i, i', e1, e2, e3⟩
      · rw [e1, e2]; exact .inl ⟨rfl, rfl⟩
      · rw [e1, e2]; exact twin_lookup p i i' e3
    · rw [if_neg ho, if_neg ho]
      by_cases ha : d'.typ = tArray
      · rw [if_pos ha, if_pos ha]
        cases keyIndex k 0 with
        | none => exact .inl ⟨rfl, rfl⟩
        | some i =>
          dsimp only
          by_cases h6 : i.toNat < 2 ^ 63
          · rw [if_pos h6, if_pos h6]
            rcases twin_nth h5 i.toNat with ⟨e1, e2⟩ | ⟨v, v', e1, e2, e3⟩
            · rw [e1, e2]; exact .inl ⟨rfl, rfl⟩
            · rw [e1, e2]; exact twin_lookup p _ _ e3
          · rw [if_neg h6, if_neg h6]; exact .inl ⟨rfl, rfl⟩
      · rw [if_neg ha, if_neg ha]; exact .inl ⟨rfl, rfl⟩

/-- two nodes that are both empty, or have one tree -/
def BothAlike (h h' : Heap) (n n' : Node) : Prop := (Dead h n ∧ Dead h' n') ∨ ∃ t, Tree h n t ∧ Tree h' n' t

theorem alike_get {h h' : Heap} {n n' : Node} {t : JVal} (h1 : Tree h n t) (h2 : Tree h' n' t) :
    ∃ r r' d d', n.document h = some r ∧ n'.document h' = some r' ∧ n.doc = some r ∧ n'.doc = some r' ∧ n.get h = some d ∧ n'.get h' = some d' ∧
      d.typ = d'.typ ∧ d.raw = d'.raw ∧ Twin (h r).get (h' r').get n.id n'.id ∧ Twins (h r).get (h' r').get d.values.vis d'.values.vis := by
  obtain ⟨r, d, a1, a2, a3, a4, a5⟩ := tree_cont h1
  obtain ⟨r', d', b1, b2, b3, b4, b5⟩ := tree_cont h2
  rw [doc_cont] at a5 b5
  have ht : Twin (h r).get (h' r').get n.id n'.id := ⟨t, a5, b5⟩
  obtain ⟨e, e', c1, c2, c3, c4, c5⟩ := twin_get ht
  rw [a4] at c1; rw [b4] at c2
  simp only [Option.some.injEq] at c1 c2
  subst c1 c2
  exact ⟨r, r', d, d', a1, b1, a2, b2, a3, b3, c3, c4, ht, c5⟩

theorem twins_length {g g' : Nat → Option NodeD} {vs vs' : List V} (h : Twins g g' vs vs') : vs.length = vs'.length := by
  induction h with
  | nil => rfl
  | cons hx _ ih => simp [ih]

theorem twins_keys {g g' : Nat → Option NodeD} {vs vs' : List V} (h : Twins g g' vs vs') : vs.map (·.key) = vs'.map (·.key) := by
  induction h with
  | nil => rfl
  | cons hx _ ih => simp [hx.1, ih]

theorem reads_tree {h h' : Heap} {n n' : Node} {t : JVal} (h1 : Tree h n t) (h2 : Tree h' n' t) : ReadsSame h h' n n' := by
  obtain ⟨r, r', d, d', a1, b1, a2, b2, a3, b3, ht, hr, hw, hv⟩ := alike_get h1 h2
  have hl : d.values.vis.length = d'.values.vis.length := twins_length hv
  have happ : ∀ (fuel : Nat) (dst : Bytes), n.appendJSON h fuel dst = n'.appendJSON h' fuel dst := by
    intro fuel dst
    unfold Node.appendJSON
    rw [a3, b3, a2, b2]
    exact twin_append fuel dst _ _ hw
  constructor
  · simp [Node.raw, a3, b3, hr]
  · simp [Node.unescaped, a3, b3, hr, ht]
  · simp [Node.data, a3, b3, hr, ht]
  · simp [Node.typ, a3, b3, ht]
  · simp only [Node.values, a3, b3]; exact twins_keys hv
  · simp [Node.toBool, a3, b3, hr, ht]
  · simp [NumJson.toFloat, a3, b3, hr]
  · simp [NumJson.toInt, a3, b3, hr]
  · simp [NumJson.toUint, a3, b3, hr]
  · intro F pf fuel
    unfold Node.toInterface
    rw [a1, b1]
    exact twin_iface pf fuel _ _ hw
  · exact happ
  · intro fuel; unfold Node.printJSON; rw [happ]
  · intro fuel; unfold Node.wrapUnmarshalJSON; rw [a3, b3]; simp only [ht, hr, hl, happ]
  · simp [Node.wrapUnmarshalText, a3, b3, hr, ht]

theorem reads_alike {h h' : Heap} {n n' : Node} (ha : BothAlike h h' n n') : ReadsSame h h' n n' := by
  rcases ha with ⟨h1, h2⟩ | ⟨t, h1, h2⟩
  · have e1 := empty_of_dead h1
    have e2 := empty_of_dead h2
    have hg : n.get h = none := h1
    have hg' : n'.get h' = none := h2
    constructor
    · rw [e1.raw, e2.raw]
    · rw [e1.unescaped, e2.unescaped]
    · rw [e1.data, e2.data]
    · rw [e1.typ, e2.typ]
    · rw [e1.values, e2.values]
    · rw [e1.bool, e2.bool]
    · simp [NumJson.toFloat, hg, hg']
    · rw [e1.int, e2.int]
    · rw [e1.uint, e2.uint]
    · intro F pf fuel
      cases fuel with
      | zero => rfl
      | succ fuel => rw [e1.iface, e2.iface]
    · intro fuel dst; rw [e1.append, e2.append]
    · intro fuel; rw [e1.print, e2.print]
    · intro fuel; rw [e1.wrapJSON, e2.wrapJSON]
    · rw [e1.wrapText, e2.wrapText]
  · exact reads_tree h1 h2

theorem twin_tree {h h' : Heap} {n n' : Node} {r r' : Ref} (a : n.document h = some r) (b : n'.document h' = some r') {i i' : Nat}
    (ht : Twin (h r).get (h' r').get i i') : BothAlike h h' (n.with_ i) (n'.with_ i') := by
  obtain ⟨t, h1, h2⟩ := ht
  exact .inr ⟨t, ⟨r, a, by rw [doc_cont]; exact h1⟩, ⟨r', b, by rw [doc_cont]; exact h2⟩⟩

theorem dead_with_max {h : Heap} (hlen : ∀ r, (h r).len ≤ maxUint) (n : Node) : Dead h (n.with_ maxUint) := by
  cases hd : n.document h with
  | none => exact dead_doc (by rw [with_document, hd])
  | some r => exact dead_max hd (hlen r)

theorem alike_step {h h' : Heap} (hlen : ∀ r, (h r).len ≤ maxUint) (hlen' : ∀ r, (h' r).len ≤ maxUint) {n n' : Node} (ha : BothAlike h h' n n') (w : Walk) :
    BothAlike h h' (w.run h n) (w.run h' n') := by
  have hmax : BothAlike h h' (n.with_ maxUint) (n'.with_ maxUint) := .inl ⟨dead_with_max hlen n, dead_with_max hlen' n'⟩
  rcases ha with ⟨h1, h2⟩ | ⟨t, h1, h2⟩
  · have hg : n.get h = none := h1
    have hg' : n'.get h' = none := h2
    cases w with
    | child i =>
      simp only [Walk.run, Node.values, hg, hg', List.getElem?_nil]
      exact .inl ⟨rfl, rfl⟩
    | nav s =>
      cases s with
      | get k => simp only [Walk.run, Nav.run, Node.getKey, hg, hg']; exact hmax
      | index i => simp only [Walk.run, Nav.run, Node.index, hg, hg']; exact hmax
      | lookup p =>
        simp only [Walk.run, Nav.run]
        have key : ∀ (h : Heap) (n : Node), (∀ r, (h r).len ≤ maxUint) → n.get h = none → Dead h (n.lookup h p) := by
          intro h n hl hg
          have e : getOf h (n.document h) n.id = none := by
            rw [← hg]; unfold Node.get getOf; cases n.document h <;> rfl
          unfold Node.lookup
          cases p with
          | nil => exact hg
          | cons k p => rw [Njson.lookup.eq_2, e]; exact dead_with_max hl n
        exact .inl ⟨key h n hlen hg, key h' n' hlen' hg'⟩
  · obtain ⟨r, r', d, d', a1, b1, a2, b2, a3, b3, ht, hr, hw, hv⟩ := alike_get h1 h2
    cases w with
    | child i =>
      simp only [Walk.run, Node.values, a3, b3]
      rcases twin_nth hv i with ⟨e1, e2⟩ | ⟨v, v', e1, e2, e3⟩
      · rw [e1, e2]; exact .inl ⟨rfl, rfl⟩
      · rw [e1, e2]; exact twin_tree a1 b1 e3
    | nav s =>
      cases s with
      | get k =>
        simp only [Walk.run, Nav.run, Node.getKey, a3, b3, ht]
        by_cases ho : d'.typ = tObject
        · rw [if_pos ho, if_pos ho]
          rcases twin_find k hv with ⟨e1, e2⟩ | ⟨i, i', e1, e2, e3⟩
          · rw [e1, e2]; exact hmax
          · rw [e1, e2]; exact twin_tree a1 b1 e3
        · rw [if_neg ho, if_neg ho]; exact hmax
      | index i =>
        have hl : d.values.vis.length = d'.values.vis.length := twins_length hv
        simp only [Walk.run, Nav.run, Node.index, a3, b3, ht, hl]
        by_cases ho : d'.typ = tArray ∧ 0 ≤ i ∧ i < d'.values.vis.length
        · rw [if_pos ho, if_pos ho]
          rcases twin_nth hv i.toNat with ⟨e1, e2⟩ | ⟨v, v', e1, e2, e3⟩
          · rw [e1, e2]; exact hmax
          · rw [e1, e2]; exact twin_tree a1 b1 e3
        · rw [if_neg ho, if_neg ho]; exact hmax
      | lookup p =>
        simp only [Walk.run, Nav.run, Node.lookup, a1, b1]
        rcases twin_lookup p _ _ hw with ⟨e1, e2⟩ | e
        · have e1' : Njson.lookup (getOf h (some r)) n.id p = maxUint := e1
          have e2' : Njson.lookup (getOf h' (some r')) n'.id p = maxUint := e2
          rw [e1', e2']; exact hmax
        · exact twin_tree a1 b1 e

theorem walk_child {h : Heap} {n : Node} {i : Nat} {v : V} (hv : (n.values h)[i]? = some v) : (Walk.child i).run h n = n.with_ v.id := by
  simp only [Walk.run]; rw [hv]

/-- what iterations and `Data` show of two nodes -/
def LooksSame (h h' : Heap) (n n' : Node) : Prop := ∀ p : List Nat,
  (p.foldl (fun m i => (Walk.child i).run h m) n).data h = (p.foldl (fun m i => (Walk.child i).run h' m) n').data h' ∧
  ((p.foldl (fun m i => (Walk.child i).run h m) n).values h).map (·.key) = ((p.foldl (fun m i => (Walk.child i).run h' m) n').values h').map (·.key)

theorem data_tree {h : Heap} {n : Node} {t : JVal} (ht : Tree h n t) : match t with
    | .null => n.data h = (b!"null", tNull)
    | .bool b => n.data h = (if b then b!"true" else b!"false", tBoolean)
    | .num r => n.data h = (r, tNumber)
    | .str r => n.data h = (r, tString)
    | .arr _ => n.data h = ([], tArray)
    | .obj _ => n.data h = ([], tObject) := by
  obtain ⟨r, d, a1, a2, a3, a4, a5⟩ := tree_cont ht
  have key : ∀ {typ : Typ} {raw : Bytes} {vs : List V}, (h r).cont n.id = some ⟨typ, raw, vs⟩ → n.data h = (raw, typ) := by
    intro typ raw vs hc
    obtain ⟨e1, e2, _⟩ := cont_get hc a4
    simp only at e1 e2
    unfold Node.data; rw [a3]; simp [e1, e2]
  cases t with
  | null => simp only [Reps] at a5; exact key a5
  | bool b => cases b <;> (simp only [Reps] at a5; exact key a5)
  | num _ => simp only [Reps] at a5; exact key a5
  | str _ => simp only [Reps] at a5; exact key a5
  | arr _ => simp only [Reps] at a5; obtain ⟨_, a5, _⟩ := a5; exact key a5
  | obj _ => simp only [Reps] at a5; obtain ⟨_, a5, _⟩ := a5; exact key a5

theorem looks_child {h h' : Heap} {n n' : Node} (hl : LooksSame h h' n n') {i : Nat} {v v' : V} (hv : (n.values h)[i]? = some v) (hv' : (n'.values h')[i]? = some v') :
    LooksSame h h' (n.with_ v.id) (n'.with_ v'.id) := by
  intro p
  have := hl (i :: p)
  simp only [List.foldl_cons, walk_child hv, walk_child hv'] at this
  exact this

theorem looks_same_tree {h h' : Heap} : ∀ t : JVal, ∀ (n n' : Node) (t' : JVal), Tree h n t → Tree h' n' t' → LooksSame h h' n n' → t = t' := by
  suffices hs : (∀ t : JVal, ∀ (n n' : Node) (t' : JVal), Tree h n t → Tree h' n' t' → LooksSame h h' n n' → t = t') ∧
      (∀ xs : List JVal, ∀ x ∈ xs, ∀ (n n' : Node) (t' : JVal), Tree h n x → Tree h' n' t' → LooksSame h h' n n' → x = t') ∧
      (∀ ms : List (Bytes × JVal), ∀ m ∈ ms, ∀ (n n' : Node) (t' : JVal), Tree h n m.2 → Tree h' n' t' → LooksSame h h' n n' → m.2 = t') from hs.1
  apply jval_ind
  · intro n n' t' h1 h2 hl
    have e := (hl []).1
    have e1 := data_tree h1
    have e2 := data_tree h2
    simp only [List.foldl_nil] at e
    cases t' <;> simp only at e1 e2 <;> rw [e1, e2] at e <;> first | rfl | (exact absurd (Prod.mk.inj e).2 (by decide))
  · intro b n n' t' h1 h2 hl
    have e := (hl []).1
    have e1 := data_tree h1
    have e2 := data_tree h2
    simp only [List.foldl_nil] at e
    cases t' <;> simp only at e1 e2 <;> rw [e1, e2] at e <;> try (exact absurd (Prod.mk.inj e).2 (by decide))
    rename_i b'
    have := (Prod.mk.inj e).1
    cases b <;> cases b' <;> first | rfl | (exact absurd this (by decide))
  · intro r n n' t' h1 h2 hl
    have e := (hl []).1
    have e1 := data_tree h1
    have e2 := data_tree h2
    simp only [List.foldl_nil] at e
    cases t' <;> simp only at e1 e2 <;> rw [e1, e2] at e <;> try (exact absurd (Prod.mk.inj e).2 (by decide))
    rw [(Prod.mk.inj e).1]
  · intro r n n' t' h1 h2 hl
    have e := (hl []).1
    have e1 := data_tree h1
    have e2 := data_tree h2
    simp only [List.foldl_nil] at e
    cases t' <;> simp only at e1 e2 <;> rw [e1, e2] at e <;> try (exact absurd (Prod.mk.inj e).2 (by decide))
    rw [(Prod.mk.inj e).1]
  · intro xs ih n n' t' h1 h2 hl
    have e := (hl []).1
    have e1 := data_tree h1
    have e2 := data_tree h2
    simp only [List.foldl_nil] at e
    cases t' <;> simp only at e1 e2 <;> rw [e1, e2] at e <;> try (exact absurd (Prod.mk.inj e).2 (by decide))
    rename_i xs'
    obtain ⟨l1, c1⟩ := C19_values_array h n xs h1
    obtain ⟨l2, c2⟩ := C19_values_array h' n' xs' h2
    have hk := congrArg List.length (hl []).2
    simp only [List.foldl_nil, List.length_map] at hk
    congr 1
    apply List.ext_getElem (by omega)
    intro i i1 i2
    have v1 : i < (n.values h).length := by omega
    have v2 : i < (n'.values h').length := by omega
    have g1 := List.getElem?_eq_getElem v1
    have g2 := List.getElem?_eq_getElem v2
    exact ih _ (List.getElem_mem i1) _ _ _ (c1 i _ _ g1 (List.getElem?_eq_getElem i1)).2 (c2 i _ _ g2 (List.getElem?_eq_getElem i2)).2 (looks_child hl g1 g2)
  · intro ms ih n n' t' h1 h2 hl
    have e := (hl []).1
    have e1 := data_tree h1
    have e2 := data_tree h2
    simp only [List.foldl_nil] at e
    cases t' <;> simp only at e1 e2 <;> rw [e1, e2] at e <;> try (exact absurd (Prod.mk.inj e).2 (by decide))
    rename_i ms'
    obtain ⟨l1, c1⟩ := C19_values_object h n ms h1
    obtain ⟨l2, c2⟩ := C19_values_object h' n' ms' h2
    have hkk := (hl []).2
    simp only [List.foldl_nil] at hkk
    have hk := congrArg List.length hkk
    simp only [List.length_map] at hk
    congr 1
    apply List.ext_getElem (by omega)
    intro i i1 i2
    have v1 : i < (n.values h).length := by omega
    have v2 : i < (n'.values h').length := by omega
    have g1 := List.getElem?_eq_getElem v1
    have g2 := List.getElem?_eq_getElem v2
    obtain ⟨k1, s1⟩ := c1 i _ _ g1 (List.getElem?_eq_getElem i1)
    obtain ⟨k2, s2⟩ := c2 i _ _ g2 (List.getElem?_eq_getElem i2)
    have hki : ((n.values h)[i]).key = ((n'.values h')[i]).key := by
      have := congrArg (·[i]?) hkk
      simpa [g1, g2] using this
    exact Prod.ext (by rw [← k1, ← k2, hki]) (ih _ (List.getElem_mem i1) _ _ _ s1 s2 (looks_child hl g1 g2))
  · intro x hx; simp at hx
  · intro x xs hx hxs y hy
    rcases List.mem_cons.1 hy with rfl | hy
    · exact hx
    · exact hxs y hy
  · intro x hx; simp at hx
  · intro k x ms hx hms y hy
    rcases List.mem_cons.1 hy with rfl | hy
    · exact hx
    · exact hms y hy

end Verif.Props
