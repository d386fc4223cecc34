import Verif.Proofs.Sim
import Verif.Proofs.Mut

/-! Which documents and revisions a call can change. -/

namespace Verif.Njson
open Verif Verif.Spec

theorem heap_set_ne (h : Heap) {r q : Ref} (d : Doc) (hq : q ≠ r) : (h.set r d) q = h q := by simp [Heap.set, hq]

theorem copyOrAdopt_other {h h' : Heap} {fuel : Nat} {r : Ref} {o : Option Ref} {id to id' : Nat}
    (he : copyOrAdopt h fuel r o id to = some (h', id')) {q : Ref} (hq : q ≠ r) : h' q = h q := by
  unfold copyOrAdopt at he
  split at he
  · simp at he; rw [← he.1]
  · split at he
    · simp at he; rw [← he.1, heap_set_ne _ _ hq]
    · simp only at he
      split at he
      · simp at he
      · simp at he; rw [← he.1, heap_set_ne _ _ hq]

theorem appendLoop_other {fuel : Nat} {r : Ref} {to : Nat} {q : Ref} (hq : q ≠ r) : ∀ {vs : List Node} {h h' : Heap} {vv vv' : Slice},
    appendLoop fuel r to vs h vv = some (h', vv') → h' q = h q
  | [], h, h', vv, vv', he => by simp [appendLoop] at he; rw [← he.1]
  | v :: vs, h, h', vv, vv', he => by
    unfold appendLoop at he
    split at he
    · simp at he
    · rename_i h1 id1 hc
      rw [appendLoop_other hq he, copyOrAdopt_other hc hq]

theorem update_other {h : Heap} {n : Node} {f : NodeD → NodeD} {q : Ref} (hq : n.doc ≠ some q) : (n.update h f) q = h q := by
  unfold Node.update
  cases hg : n.get h with
  | none => rfl
  | some x =>
    cases hd : n.doc with
    | none => rfl
    | some r => simp only; rw [heap_set_ne]; intro he; subst he; exact hq hd

theorem document_heap {h : Heap} {n : Node} {r : Ref} (hd : n.document h = some r) : n.doc = some r := by
  rw [abs_document] at hd; exact document_doc hd

theorem nset_other {h h' : Heap} {fuel : Nat} {n v : Node} {k : Bytes} (he : n.set h fuel k v = some h') {q : Ref} (hq : n.doc ≠ some q) :
    h' q = h q := by
  unfold Node.set at he
  cases hg : n.get h with
  | none => rw [hg] at he; simp at he; rw [← he]
  | some x =>
    cases hd : n.doc with
    | none => rw [hg, hd] at he; simp at he; rw [← he]
    | some r =>
      rw [hd] at hq
      have hqr : q ≠ r := fun e => hq (by rw [e])
      rw [hg, hd] at he
      simp only at he
      split at he
      · split at he
        · simp at he
        · rename_i h1 id1 hc
          split at he
          · simp at he; rw [← he, heap_set_ne _ _ hqr, copyOrAdopt_other hc hqr]
          · simp at he; rw [← he, copyOrAdopt_other hc hqr]
      · simp at he; rw [← he]

theorem nreplace_other {h h' : Heap} {fuel : Nat} {n v : Node} {i : Int} (he : n.replace h fuel i v = some h') {q : Ref}
    (hq : n.doc ≠ some q) : h' q = h q := by
  unfold Node.replace at he
  cases hg : n.get h with
  | none => rw [hg] at he; simp at he; rw [← he]
  | some x =>
    cases hd : n.doc with
    | none => rw [hg, hd] at he; simp at he; rw [← he]
    | some r =>
      rw [hd] at hq
      have hqr : q ≠ r := fun e => hq (by rw [e])
      rw [hg, hd] at he
      simp only at he
      split at he
      · split at he
        · simp at he
        · rename_i h1 id1 hc
          split at he
          · simp at he; rw [← he, heap_set_ne _ _ hqr, copyOrAdopt_other hc hqr]
          · simp at he; rw [← he, copyOrAdopt_other hc hqr]
      · simp at he; rw [← he]

theorem nappend_other {h h' : Heap} {fuel : Nat} {n : Node} {vs : List Node} (he : n.append h fuel vs = some h') {q : Ref}
    (hq : n.doc ≠ some q) : h' q = h q := by
  unfold Node.append at he
  split at he
  · simp at he; rw [← he]
  · cases hg : n.get h with
    | none => rw [hg] at he; simp at he; rw [← he]
    | some x =>
      cases hd : n.doc with
      | none => rw [hg, hd] at he; simp at he; rw [← he]
      | some r =>
        rw [hd] at hq
        have hqr : q ≠ r := fun e => hq (by rw [e])
        rw [hg, hd] at he
        simp only at he
        split at he
        · split at he
          · simp at he
          · rename_i h1 vv hc
            simp at he; rw [← he, heap_set_ne _ _ hqr, appendLoop_other hqr hc]
        · simp at he; rw [← he]

theorem nstrip_other {h h' : Heap} {fuel : Nat} {n : Node} {k : Bytes} (he : n.strip h fuel k = some h') {q : Ref} (hq : n.doc ≠ some q) :
    h' q = h q := by
  unfold Node.strip at he
  cases hd : n.document h with
  | none => rw [hd] at he; simp at he; rw [← he]
  | some r =>
    rw [hd] at he
    have hqr : q ≠ r := fun e => hq (by rw [e]; exact document_heap hd)
    simp only at he
    split at he
    · simp at he; rw [← he, heap_set_ne _ _ hqr]
    · simp at he

/-- a call changes only its target document -/
theorem run_other {fuel : Nat} {op : Op} {h h1 : Heap} {res : Res} (he : op.run fuel h = some (h1, res)) {q : Ref}
    (hq : op.target ≠ some q) : h1 q = h q := by
  have map_read : ∀ {α : Type} {c : Option α} {f : α → Res}, c.map (fun x => (h, f x)) = some (h1, res) → h1 q = h q := by
    intro α c f hc
    cases c with
    | none => simp at hc
    | some x => simp at hc; rw [← hc.1]
  have map_unit : ∀ {c : Option Heap}, (∀ h', c = some h' → h' q = h q) → c.map (·, Res.unit) = some (h1, res) → h1 q = h q := by
    intro c hc hm
    cases c with
    | none => simp at hm
    | some x => simp at hm; rw [← hm.1]; exact hc x rfl
  cases op with
  | parse r s =>
    have hqr : q ≠ r := fun e => hq (by rw [e]; rfl)
    simp only [Op.run, Heap.parse] at he
    cases ho : ((h r).parse s).2 <;> (rw [ho] at he; simp at he; rw [← he.1, heap_set_ne _ _ hqr])
  | reset r =>
    have hqr : q ≠ r := fun e => hq (by rw [e]; rfl)
    simp [Op.run] at he; rw [← he.1, heap_set_ne _ _ hqr]
  | add r t b =>
    have hqr : q ≠ r := fun e => hq (by rw [e]; rfl)
    simp [Op.run] at he; rw [← he.1, heap_set_ne _ _ hqr]
  | docJSON r dst => exact map_read he
  | json n dst => exact map_read he
  | set n k v => exact map_unit (fun h' e => nset_other e hq) he
  | append n vs => exact map_unit (fun h' e => nappend_other e hq) he
  | replace n i v => exact map_unit (fun h' e => nreplace_other e hq) he
  | strip n k => exact map_unit (fun h' e => nstrip_other e hq) he
  | slice n i j => simp [Op.run] at he; rw [← he.1]; exact update_other hq
  | remove n i => simp [Op.run] at he; rw [← he.1]; exact update_other hq
  | del n k => simp [Op.run] at he; rw [← he.1]; exact update_other hq
  | setScalar n t b => simp [Op.run] at he; rw [← he.1]; exact update_other hq
  | _ => simp [Op.run] at he; rw [← he.1]

theorem runOps_other {fuel : Nat} {q : Ref} : ∀ {ops : List Op} {h h1 : Heap} {rs : List Res}, runOps fuel ops h = some (h1, rs) →
    (∀ op ∈ ops, op.target ≠ some q) → h1 q = h q
  | [], h, h1, rs, he, _ => by simp [runOps] at he; rw [← he.1]
  | op :: ops, h, h1, rs, he, ho => by
    unfold runOps at he
    cases h2 : op.run fuel h with
    | none => rw [h2] at he; simp at he
    | some p =>
      rw [h2] at he
      simp only at he
      cases h3 : runOps fuel ops p.1 with
      | none => rw [h3] at he; simp at he
      | some x =>
        rw [h3] at he
        simp at he
        rw [← he.1, runOps_other h3 (fun o h => ho o (by simp [h])), run_other h2 (ho op (by simp))]

/-! ## revisions -/

theorem commutes_rev {h h' : Heap} {c : Option Heap} {a : Option AH} (hc : Commutes c a) (he : c = some h')
    (hr : ∀ a', a = some a' → ∀ q, (a' q).rev = (h.abs q).rev) (q : Ref) : (h' q).rev = (h q).rev := by
  have h1 := hc.1
  rw [he] at h1
  exact hr h'.abs h1.symm q

theorem local_rev {a a' : AH} {n : Node} (h : a' = a ∨ ∃ r, A.document a n = some r ∧ Local a a' r n.id) (q : Ref) :
    (a' q).rev = (a q).rev := by
  rcases h with rfl | ⟨r, _, hl⟩
  · rfl
  · by_cases hq : q = r
    · subst hq; exact hl.rev
    · rw [hl.other q hq]

theorem run_rev {fuel : Nat} {op : Op} {h h1 : Heap} {res : Res} (hw : h.Wf) (he : op.run fuel h = some (h1, res)) (q : Ref) :
    (h1 q).rev = (h q).rev + UInt64.ofNat (resets q [op]) := by
  have zero : UInt64.ofNat 0 = 0 := rfl
  have keep : (h1 q).rev = (h q).rev → (h1 q).rev = (h q).rev + UInt64.ofNat 0 := by intro e; rw [e, zero, UInt64.add_zero]
  have map_read : ∀ {α : Type} {c : Option α} {f : α → Res}, c.map (fun x => (h, f x)) = some (h1, res) → (h1 q).rev = (h q).rev := by
    intro α c f hc
    cases c with
    | none => simp at hc
    | some x => simp at hc; rw [← hc.1]
  have map_unit : ∀ {c : Option Heap}, (∀ h', c = some h' → (h' q).rev = (h q).rev) → c.map (·, Res.unit) = some (h1, res) →
      (h1 q).rev = (h q).rev := by
    intro c hc hm
    cases c with
    | none => simp at hm
    | some x => simp at hm; rw [← hm.1]; exact hc x rfl
  have upd : ∀ {c : Heap} {n : Node} {f : ANode → ANode}, c.abs = A.update h.abs n f → (c q).rev = (h q).rev := by
    intro c n f hc
    have := local_rev (local_update h.abs n f) q
    rw [← hc] at this
    exact this
  cases op with
  | parse r s =>
    apply keep
    obtain ⟨_, h2⟩ := abs_parse (hw r) s
    have hrev : ((h r).parse s).1.rev = (h r).rev := by
      have e := congrArg (fun p : AD × ParseOut => p.1.rev) h2
      simp only [Doc.abs] at e
      rw [e]
      unfold A.parse
      cases treeParse s with
      | ok t p rest => rfl
      | err e => cases e <;> rfl
      | crash => rfl
    have hset : ((h.set r ((h r).parse s).1) q).rev = (h q).rev := by
      unfold Heap.set
      split
      · rename_i e; subst e; exact hrev
      · rfl
    simp only [Op.run, Heap.parse] at he
    cases ho : ((h r).parse s).2 <;> (rw [ho] at he; simp at he; rw [← he.1]; exact hset)
  | reset r =>
    simp [Op.run] at he
    rw [← he.1]
    simp only [resets, Heap.set]
    by_cases hqr : q = r
    · subst hqr; simp [Doc.reset]
    · rw [if_neg hqr, if_neg (fun e => hqr e.symm)]; simp
  | add r t b =>
    apply keep
    simp [Op.run] at he
    rw [← he.1]
    simp only [Heap.set]
    split
    · rename_i e; subst e
      have := (abs_add (hw q) t b).2
      have e := congrArg (fun p : AD × Nat => p.1.rev) this
      exact e
    · rfl
  | docJSON r dst => exact keep (map_read he)
  | json n dst => exact keep (map_read he)
  | set n k v =>
    exact keep (map_unit (fun h' e => commutes_rev (abs_nset hw fuel n k v) e (fun a' ea q => local_rev (local_nset ea) q) q) he)
  | append n vs =>
    exact keep (map_unit (fun h' e => commutes_rev (abs_append hw fuel n vs) e (fun a' ea q => local_rev (local_append ea) q) q) he)
  | replace n i v =>
    exact keep (map_unit (fun h' e => commutes_rev (abs_replace hw fuel n i v) e (fun a' ea q => local_rev (local_replace ea) q) q) he)
  | strip n k =>
    refine keep (map_unit (fun h' e => commutes_rev (abs_nstrip hw fuel n k) e (fun a' ea q => ?_) q) he)
    unfold A.nstrip at ea
    split at ea
    · split at ea
      · simp at ea; rw [← ea]; unfold AH.set; split
        · rename_i e; subst e; rfl
        · rfl
      · simp at ea
    · simp at ea; rw [← ea]
  | slice n i j => simp [Op.run] at he; rw [← he.1]; exact keep' (upd (abs_slice hw n i j).2)
  | remove n i => simp [Op.run] at he; rw [← he.1]; exact keep' (upd (abs_remove hw n i).2)
  | del n k => simp [Op.run] at he; rw [← he.1]; exact keep' (upd (abs_del hw n k).2)
  | setScalar n t b => simp [Op.run] at he; rw [← he.1]; exact keep' (upd (abs_setScalar hw n t b).2)
  | _ => apply keep; simp [Op.run] at he; rw [← he.1]
where
  keep' {a b : UInt64} (e : a = b) : a = b + UInt64.ofNat 0 := by rw [e]; simp

theorem resets_cons (r : Ref) (op : Op) (ops : List Op) : resets r (op :: ops) = resets r [op] + resets r ops := by
  cases op <;> simp [resets]

theorem runOps_rev {fuel : Nat} {q : Ref} : ∀ {ops : List Op} {h h1 : Heap} {rs : List Res}, h.Wf → runOps fuel ops h = some (h1, rs) →
    (h1 q).rev = (h q).rev + UInt64.ofNat (resets q ops)
  | [], h, h1, rs, hw, he => by simp [runOps] at he; rw [← he.1]; simp [resets]
  | op :: ops, h, h1, rs, hw, he => by
    unfold runOps at he
    cases h2 : op.run fuel h with
    | none => rw [h2] at he; simp at he
    | some p =>
      rw [h2] at he
      simp only at he
      cases h3 : runOps fuel ops p.1 with
      | none => rw [h3] at he; simp at he
      | some x =>
        rw [h3] at he
        simp at he
        rw [← he.1, runOps_rev (run_wf hw h2) h3, run_rev hw h2 q, resets_cons q op ops, UInt64.ofNat_add, UInt64.add_assoc]

end Verif.Njson
