import Verif.Proofs.Stays
import Verif.Spec.Stays
import Verif.Props.Doc

/-! # Property C147: a Node is valid until its document is reset, and keeps its type and text until it is set -/

namespace Verif.Props
open Verif Verif.Spec Verif.Njson

theorem get_abs {h : Heap} {n : Node} {r : Ref} (hd : n.document h = some r) : (n.get h).map NodeD.abs = (h.abs r).nodes[n.id]? := by
  rw [abs_get]; unfold A.get; rw [← abs_document, hd]; rfl

theorem op_stays {h : Heap} (hw : h.Wf) {fuel : Nat} {op : Op} {h1 : Heap} {res : Res} (he : op.run fuel h = some (h1, res)) {n : Node} {r : Ref}
    (hd : n.document h = some r) (hr : op ≠ .reset r) (hl : ¬ Dead h n) :
    n.document h1 = some r ∧ ¬ Dead h1 n ∧ (¬ SetsNode r n.id op → n.data h1 = n.data h) := by
  have hrev := run_rev hw he r
  have hz : resets r [op] = 0 := by
    cases op <;> simp [resets]
    rename_i q
    rintro rfl; exact hr rfl
  rw [hz] at hrev
  have hd1 : n.document h1 = some r := by
    unfold Node.document at hd ⊢
    cases hn : n.doc with
    | none => rw [hn] at hd; simp at hd
    | some q =>
      rw [hn] at hd
      simp only at hd ⊢
      split at hd
      · rename_i hq
        simp only [Option.some.injEq] at hd
        subst hd
        rw [if_pos (by rw [hrev, ← hq]; simp)]
      · simp at hd
  have ha := abs_run hw he
  have e0 := get_abs hd
  have e1 := get_abs hd1
  obtain ⟨d, hg⟩ : ∃ d, n.get h = some d := by
    cases e : n.get h with
    | none => exact absurd e hl
    | some d => exact ⟨d, rfl⟩
  rw [hg] at e0
  simp only [Option.map_some] at e0
  have live : ∀ x, (h1.abs r).nodes[n.id]? = some x → ∃ d1, n.get h1 = some d1 ∧ d1.abs = x := by
    intro x hx
    rw [hx] at e1
    cases e : n.get h1 with
    | none => rw [e] at e1; simp at e1
    | some d1 => rw [e] at e1; simp at e1; exact ⟨d1, rfl, e1⟩
  have fin : ∀ x, (h1.abs r).nodes[n.id]? = some x → x.typ = d.typ → x.raw = d.raw → n.document h1 = some r ∧ ¬ Dead h1 n ∧ n.data h1 = n.data h := by
    intro x hx h2 h3
    obtain ⟨d1, g1, g2⟩ := live x hx
    refine ⟨hd1, by unfold Dead; rw [g1]; simp, ?_⟩
    unfold Node.data
    rw [g1, hg]
    subst g2
    simp only [NodeD.abs] at h2 h3
    simp only [h2, h3]
  by_cases hs : ∃ m t b, op = .setScalar m t b
  · obtain ⟨m, t, b, rfl⟩ := hs
    simp only [A.run, Option.some.injEq] at ha
    by_cases hm : m.doc = some r ∧ m.id = n.id
    · refine ⟨hd1, ?_, fun hno => absurd ⟨m, t, b, rfl, hm.1, hm.2⟩ hno⟩
      have hlen := update_len h.abs m (A.scalarF t b) r
      rw [ha] at hlen
      have hlt : n.id < (h1.abs r).nodes.length := by rw [hlen]; exact (List.getElem?_eq_some_iff.1 e0.symm).1
      obtain ⟨d1, g1, _⟩ := live _ (List.getElem?_eq_getElem hlt)
      unfold Dead; rw [g1]; simp
    · have := scalar_keeps (a := h.abs) (t := t) (b := b) hm
      rw [ha, ← e0] at this
      obtain ⟨f1, f2, f3⟩ := fin _ this rfl rfl
      exact ⟨f1, f2, fun _ => f3⟩
  · obtain ⟨x, k1, k2, k3⟩ := run_keeps ha r hr (fun m t b e => hs ⟨m, t, b, e⟩) n.id d.abs e0.symm
    obtain ⟨f1, f2, f3⟩ := fin x k1 k2 k3
    exact ⟨f1, f2, fun _ => f3⟩

/-- **C147**: after any number of calls that do not reset its document, whatever nodes and documents they are for, a valid `Node` is still valid and still
belongs to its document; if none of the calls was a setter for it, its type and its raw text are what they were. -/
theorem C147_stays (fuel : Nat) (n : Node) (r : Ref) : ∀ (ops : List Op) (h h1 : Heap) (rs : List Res), h.Wf → runOps fuel ops h = some (h1, rs) →
    n.document h = some r → ¬ Dead h n → resets r ops = 0 →
    n.document h1 = some r ∧ ¬ Dead h1 n ∧ ((∀ op ∈ ops, ¬ SetsNode r n.id op) → n.data h1 = n.data h)
  | [], h, h1, rs, _, hrun, hd, hl, _ => by
    simp only [runOps, Option.some.injEq, Prod.mk.injEq] at hrun
    rw [← hrun.1]; exact ⟨hd, hl, fun _ => rfl⟩
  | op :: ops, h, h1, rs, hw, hrun, hd, hl, hz => by
    simp only [runOps] at hrun
    cases hop : op.run fuel h with
    | none => rw [hop] at hrun; simp at hrun
    | some p =>
      rw [hop] at hrun
      simp only at hrun
      cases hops : runOps fuel ops p.1 with
      | none => rw [hops] at hrun; simp at hrun
      | some q =>
        rw [hops] at hrun
        simp only [Option.some.injEq, Prod.mk.injEq] at hrun
        rw [← hrun.1]
        rw [resets_cons] at hz
        have hne : op ≠ .reset r := by rintro rfl; simp [resets] at hz
        obtain ⟨a1, a2, a3⟩ := op_stays hw hop hd hne hl
        obtain ⟨b1, b2, b3⟩ := C147_stays fuel n r ops p.1 q.1 q.2 (run_wf hw hop) hops a1 a2 (by omega)
        exact ⟨b1, b2, fun ho => by rw [b3 fun o hm => ho o (by simp [hm]), a3 (ho op (by simp))]⟩

/-- **C147**: a valid `Node` is valid after a sequence of calls exactly if its document has not been reset meanwhile (2^64 times in a row apart, when
the revision numbers start again). -/
theorem C147_until (fuel : Nat) (n : Node) (r : Ref) (ops : List Op) (h h1 : Heap) (rs : List Res) (hw : h.Wf) (hrun : runOps fuel ops h = some (h1, rs))
    (hd : n.document h = some r) (hl : ¬ Dead h n) (hlt : resets r ops < 2 ^ 64) : ¬ Dead h1 n ↔ resets r ops = 0 := by
  constructor
  · intro hl1
    refine Classical.byContradiction fun hne => hl1 ?_
    have hdoc : n.doc = some r ∧ n.rev = (h r).rev := by
      unfold Node.document at hd
      cases hn : n.doc with
      | none => rw [hn] at hd; simp at hd
      | some q =>
        rw [hn] at hd
        simp only at hd
        split at hd
        · rename_i e; simp only [Option.some.injEq] at hd; subst hd; exact ⟨rfl, e.symm⟩
        · simp at hd
    have hrev := runOps_rev (q := r) hw hrun
    unfold Dead Node.get Node.document
    rw [hdoc.1]
    simp only
    rw [if_neg]
    rw [hrev, hdoc.2]
    intro e
    have h0 : UInt64.ofNat (resets r ops) = 0 := by
      have := congrArg (fun x : UInt64 => x - (h r).rev) e
      simp only [UInt64.sub_self] at this
      rw [UInt64.add_comm, UInt64.add_sub_cancel] at this
      exact this
    have h1 := congrArg UInt64.toNat h0
    rw [UInt64.toNat_ofNat'] at h1
    rw [Nat.mod_eq_of_lt hlt] at h1
    exact hne h1
  · intro hz
    exact (C147_stays fuel n r ops h h1 rs hw hrun hd hl hz).2.1

-- the string in the parsed document outlives the deletion of the object that holds it, another parse and edits elsewhere
example : (runOps 12 [.del ⟨0, 0, some 0⟩ b!"a", .parse 0 b!"[1,2]", .setScalar ⟨5, 0, some 0⟩ tNumber b!"1", .data ⟨4, 0, some 0⟩] parsedHeap).map (fun p => p.2.getLast?) =
    some (some (.data (b!"x", tString))) := by decide +kernel
example : resets 0 [.del ⟨0, 0, some 0⟩ b!"a", .parse 0 b!"[1,2]", .reset 1] = 0 := by decide

end Verif.Props
