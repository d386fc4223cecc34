import Verif.Props.History
import Verif.Props.New
import Verif.Spec.Noop
import Mathlib.Data.Nat.Find

/-!
# Properties C28, C29, C30: the calls to avoid are exactly the harmful ones

The `_partial` theorems of Props/History.lean avoid three kinds of calls. Here: every such call does the harm. Linking an
orphan below itself makes `AppendJSON` of the target run forever, linking an orphan that has a parent gives it a second
one, and appending a dead node leaves an array that cannot be serialised.
-/

namespace Verif.Props
open Verif Verif.Spec Verif.Njson

/-- the node that a call inserting `p.2` under `p.1` edits is `p.1` -/
theorem inserted_mutates {op : Op} {p : Node × Node} (hp : p ∈ op.inserted) : op.mutates p.1 ∧ ∀ k, op ≠ .strip p.1 k := by
  cases op <;> simp [Op.inserted] at hp
  case set n k v => subst hp; exact ⟨rfl, by simp⟩
  case replace n i v => subst hp; exact ⟨rfl, by simp⟩
  case append n vs => obtain ⟨v, _, rfl⟩ := hp; exact ⟨rfl, by simp⟩

theorem getKey_mem {h : Heap} {n : Node} {k : Bytes} {id : Nat} (hg : (n.getKey h k).id = id) (hid : id ≠ maxUint) :
    n.typ h = tObject ∧ ∃ w ∈ n.values h, w.id = id := by
  have hf : ∀ (vs : List V) (j : Nat), findKey k vs = some j → ∃ w ∈ vs, w.id = j := by
    intro vs
    induction vs with
    | nil => intro j h; simp [findKey] at h
    | cons v vs ih =>
      intro j h
      unfold findKey at h
      split at h
      · simp at h; exact ⟨v, by simp, h⟩
      · obtain ⟨w, h1, h2⟩ := ih j h; exact ⟨w, by simp [h1], h2⟩
  unfold Node.getKey at hg
  unfold Node.typ Node.values
  cases hd : n.get h with
  | none => rw [hd] at hg; exact absurd hg.symm hid
  | some d =>
    rw [hd] at hg
    simp only at hg ⊢
    split at hg
    · rename_i ht
      split at hg
      · rename_i j hj; exact ⟨ht, by rw [← hg]; exact hf _ j hj⟩
      · exact absurd hg.symm hid
    · exact absurd hg.symm hid

theorem index_mem {h : Heap} {n : Node} {i : Int} {id : Nat} (hg : (n.index h i).id = id) (hid : id ≠ maxUint) :
    n.typ h = tArray ∧ ∃ w ∈ n.values h, w.id = id := by
  unfold Node.index at hg
  unfold Node.typ Node.values
  cases hd : n.get h with
  | none => rw [hd] at hg; exact absurd hg.symm hid
  | some d =>
    rw [hd] at hg
    simp only at hg ⊢
    split at hg
    · rename_i ht
      split at hg
      · rename_i v hv; exact ⟨ht.1, v, List.mem_of_getElem? hv, hg⟩
      · exact absurd hg.symm hid
    · exact absurd hg.symm hid

theorem live_typ {h : Heap} {n : Node} {t : Typ} (ht : n.typ h = t) (h0 : t ≠ 0) : ¬ Dead h n := by
  intro hd
  unfold Node.typ at ht
  rw [show n.get h = none from hd] at ht
  exact h0 ht.symm

/-- a call that applies and inserts an orphan makes that orphan a child of the target -/
theorem linked_child {h : Heap} (hw : h.Wf) (hlen : ∀ r, (h r).len < maxUint) {fuel : Nat} {op : Op} {h' : Heap} {res : Res}
    (hlive : LiveAppends h op) (hmiss : ¬ op.Misses h) (hrun : op.run fuel h = some (h', res)) {p : Node × Node} (hp : p ∈ op.inserted)
    (hv : ¬ Dead h p.2) (had : Adopted h p.1 p.2) :
    (p.1.typ h' = tObject ∨ p.1.typ h' = tArray) ∧ ∃ w ∈ p.1.values h', w.id = p.2.id := by
  have hid : p.2.id ≠ maxUint := by
    obtain ⟨r, d, _, _, _, _, hg, _⟩ := had
    have : p.2.id < (h r).len := by
      unfold Doc.get at hg
      split at hg
      · assumption
      · simp at hg
    have := hlen r
    omega
  cases op <;> simp [Op.inserted] at hp
  case set n k v =>
    subst hp
    simp only [Op.Misses, not_or, not_not] at hmiss
    simp only [Op.run, Option.map_eq_some_iff] at hrun
    obtain ⟨x, hs, he⟩ := hrun
    simp at he
    obtain ⟨rfl, _⟩ := he
    have h1 := (C111_set h hw fuel n v k (live_typ hmiss.1 (by decide)) hmiss.1 hv hlen _ hs).1 had
    obtain ⟨h2, h3⟩ := getKey_mem (h := x) (n := n) (k := k) (id := v.id) (by rw [h1]) hid
    exact ⟨Or.inl h2, h3⟩
  case replace n i v =>
    subst hp
    simp only [Op.Misses, not_or, not_not] at hmiss
    simp only [Op.run, Option.map_eq_some_iff] at hrun
    obtain ⟨x, hs, he⟩ := hrun
    simp at he
    obtain ⟨rfl, _⟩ := he
    obtain ⟨m1, m2, m3, _⟩ := hmiss
    obtain ⟨j, rfl⟩ : ∃ j : Nat, i = j := ⟨i.toNat, by omega⟩
    have h1 := (C111_replace h hw fuel n v j (live_typ m1 (by decide)) m1 hv (by omega) hlen _ hs).1 had
    obtain ⟨h2, h3⟩ := index_mem (h := x) (n := n) (i := j) (id := v.id) (by rw [h1]) hid
    exact ⟨Or.inr h2, h3⟩
  case append n vs =>
    obtain ⟨v, hm, rfl⟩ := hp
    simp only [Op.Misses, not_or, not_not] at hmiss
    simp only [Op.run, Option.map_eq_some_iff] at hrun
    obtain ⟨x, hs, he⟩ := hrun
    simp at he
    obtain ⟨rfl, _⟩ := he
    -- the first occurrence
    obtain ⟨i, hi, hfirst⟩ : ∃ i, vs[i]? = some v ∧ ∀ j, j < i → vs[j]? ≠ some v := by
      have hex : ∃ i, vs[i]? = some v := List.mem_iff_getElem?.1 hm
      classical
      exact ⟨Nat.find hex, Nat.find_spec hex, fun j hj => Nat.find_min hex hj⟩
    have h1 := (C111_append h hw fuel n vs (live_typ hmiss.1 (by decide)) hmiss.1 (hlive n vs rfl) _ hs i v hi).1 ⟨had, hfirst⟩
    obtain ⟨h2, h3⟩ := index_mem (h := x) (n := n) (id := v.id) (by rw [h1]) hid
    exact ⟨Or.inr h2, h3⟩

/-! ## C28 -/

/-- a set of containers each of which has a child in the set cannot be serialised -/
theorem loop_fails {get : Nat → Option NodeD} {S : Nat → Prop}
    (hS : ∀ i, S i → ∃ n, get i = some n ∧ (n.typ = tObject ∨ n.typ = tArray) ∧ ∃ w ∈ n.values.vis, S w.id) :
    ∀ (fuel : Nat) (dst out : Bytes) (i : Nat), S i → appendJSON get fuel dst i ≠ some (out, false) := by
  intro fuel
  induction fuel with
  | zero => intro dst out i _ h; simp [appendJSON] at h
  | succ fuel ih =>
    have helems : ∀ (vs : List V) (first : Bool) (dst out : Bytes), (∃ w ∈ vs, S w.id) → appendElems (appendJSON get fuel) vs first dst ≠ some (out, false) := by
      intro vs
      induction vs with
      | nil => rintro first dst out ⟨w, hw, _⟩; simp at hw
      | cons v vs ihv =>
        rintro first dst out ⟨w, hw, hs⟩ h
        unfold appendElems at h
        split at h
        · simp at h
        · simp at h
        · rename_i d hr
          rcases List.mem_cons.1 hw with rfl | hw
          · exact ih _ _ _ hs hr
          · exact ihv _ _ _ ⟨w, hw, hs⟩ h
    have hmembers : ∀ (vs : List V) (first : Bool) (dst out : Bytes), (∃ w ∈ vs, S w.id) → appendMembers (appendJSON get fuel) vs first dst ≠ some (out, false) := by
      intro vs
      induction vs with
      | nil => rintro first dst out ⟨w, hw, _⟩; simp at hw
      | cons v vs ihv =>
        rintro first dst out ⟨w, hw, hs⟩ h
        unfold appendMembers at h
        split at h
        · simp at h
        · simp at h
        · rename_i d hr
          rcases List.mem_cons.1 hw with rfl | hw
          · exact ih _ _ _ hs hr
          · exact ihv _ _ _ ⟨w, hw, hs⟩ h
    intro dst out i hi h
    obtain ⟨n, hn, ht, w, hw, hs⟩ := hS i hi
    unfold appendJSON at h
    rw [hn] at h
    simp only at h
    split at h
    · split at h
      · rename_i o hm; exact hmembers _ _ _ _ ⟨w, hw, hs⟩ hm
      · rename_i hne; exact hmembers _ _ _ _ ⟨w, hw, hs⟩ h
    · split at h
      · split at h
        · rename_i o hm; exact helems _ _ _ _ ⟨w, hw, hs⟩ hm
        · exact helems _ _ _ _ ⟨w, hw, hs⟩ h
      · rcases ht with ht | ht <;> contradiction

/-- the orphan that is linked below itself closes a loop through the target: its serialisation never succeeds -/
theorem linked_below_fails {h : Heap} (hw : h.Wf) (hlen : ∀ r, (h r).len < maxUint) {fuel : Nat} {op : Op} {h' : Heap} {res : Res}
    (hlive : LiveAppends h op) (hmiss : ¬ op.Misses h) (hrun : op.run fuel h = some (h', res)) {p : Node × Node} (hp : p ∈ op.inserted)
    {t : JVal} (ht : Tree h p.2 t) (hni : ¬ Insertable h p.1 p.2) :
    ∀ (fuel' : Nat) (dst out : Bytes), p.1.appendJSON h' fuel' dst ≠ some (out, false) := by
  have hni' : Adopted h p.1 p.2 ∧ Contains h p.2 p.1 := not_not.1 hni
  obtain ⟨had, q, hdv, hdn, hreach⟩ := hni'
  obtain ⟨r, hdv', hreps⟩ := ht
  rw [hdv] at hdv'
  simp only [Option.some.injEq] at hdv'
  subst hdv'
  have hv : ¬ Dead h p.2 := by
    intro hd
    obtain ⟨r', d, _, h2, _, _, hg, _⟩ := had
    unfold Dead Node.get at hd
    rw [h2] at hd
    simp only at hd
    rw [hg] at hd
    simp at hd
  obtain ⟨htyp, w, hwm, hwid⟩ := linked_child hw hlen hlive hmiss hrun hp hv had
  obtain ⟨hmut, hns⟩ := inserted_mutates hp
  rw [abs_document] at hdn
  rw [abs_cont] at hreach hreps
  have hloc := mutation_local hw hmut hns hrun
  have hold : ∀ j c, A.cont h.abs q j = some c → j ≠ p.1.id → A.cont h'.abs q j = some c := by
    intro j c hc hj
    rcases hloc with he | ⟨r', hd', hl⟩
    · rw [he]; exact hc
    · rw [hdn] at hd'
      simp only [Option.some.injEq] at hd'
      subst hd'
      rw [hl.old j (lcont_lt hc) hj]; exact hc
  have hdn' : A.document h'.abs p.1 = some q := by
    rcases hloc with he | ⟨r', hd', hl⟩
    · rw [he]; exact hdn
    · rw [hl.document]; exact hdn
  intro fuel' dst out hjs
  unfold Node.appendJSON at hjs
  cases hg : p.1.get h' with
  | none => rw [hg] at hjs; simp at hjs
  | some d =>
    rw [hg] at hjs
    simp only at hjs
    obtain ⟨r1, e1, e2, e3⟩ := get_doc hg
    have hq : r1 = q := by
      have : A.document h'.abs p.1 = some r1 := by
        unfold A.document; rw [e1]; simp only; rw [if_pos]; exact e2
      rw [hdn'] at this; simpa using this.symm
    subst hq
    rw [e1] at hjs
    refine loop_fails (get := (h' r1).get) (S := fun i => Reach (A.cont h.abs r1) p.2.id i ∧ Reach (A.cont h.abs r1) i p.1.id) ?_ fuel' dst out p.1.id
      ⟨hreach, .refl _⟩ hjs
    rintro i ⟨hi1, hi2⟩
    by_cases hin : i = p.1.id
    · subst hin
      refine ⟨d, e3, ?_, w, ?_, ?_⟩
      · unfold Node.typ at htyp; rw [hg] at htyp; exact htyp
      · unfold Node.values at hwm; rw [hg] at hwm; exact hwm
      · rw [hwid]; exact ⟨.refl _, hreach⟩
    · obtain ⟨t', ht', _, _⟩ := (reps_reach_all _).1 t _ hreps i hi1
      cases hi2 with
      | refl => exact absurd rfl hin
      | @step _ _ c u g1 g2 g3 =>
        have hc' := hold i c g1 hin
        rw [← abs_cont, doc_cont] at hc'
        obtain ⟨n, n1, n2, n3, n4⟩ := contOf_some hc'
        have htc : c.typ = tObject ∨ c.typ = tArray := by
          cases t' with
          | null => simp only [Reps] at ht'; rw [ht'] at g1; simp at g1; subst g1; simp at g2
          | bool b => cases b <;> (simp only [Reps] at ht'; rw [ht'] at g1; simp at g1; subst g1; simp at g2)
          | num b => simp only [Reps] at ht'; rw [ht'] at g1; simp at g1; subst g1; simp at g2
          | str b => simp only [Reps] at ht'; rw [ht'] at g1; simp at g1; subst g1; simp at g2
          | arr xs => simp only [Reps] at ht'; obtain ⟨vs, k1, _⟩ := ht'; rw [k1] at g1; simp at g1; subst g1; exact Or.inr rfl
          | obj xs => simp only [Reps] at ht'; obtain ⟨vs, k1, _⟩ := ht'; rw [k1] at g1; simp at g1; subst g1; exact Or.inl rfl
        refine ⟨n, n1, by rw [n2]; exact htc, u, by rw [n4]; exact g2, ?_, g3⟩
        -- the child is below the orphan too
        have trans : ∀ {a b : Nat}, Reach (A.cont h.abs r1) a b → ∀ {c : Cont} {u : V}, A.cont h.abs r1 b = some c → u ∈ c.vals →
            Reach (A.cont h.abs r1) a u.id := by
          intro a b hab
          induction hab with
          | refl => intro c u k1 k2; exact .step k1 k2 (.refl _)
          | step k1 k2 _ ih => intro c u k3 k4; exact .step k1 k2 (ih k3 k4)
        exact trans hi1 g1 g2

theorem runOps_snoc {fuel : Nat} {op : Op} {h' : Heap} {res : Res} : ∀ {ops : List Op} {h0 h : Heap} {rs : List Res},
    runOps fuel ops h0 = some (h, rs) → op.run fuel h = some (h', res) → runOps fuel (ops ++ [op]) h0 = some (h', rs ++ [res])
  | [], h0, h, rs, hr, he => by
    simp [runOps] at hr
    obtain ⟨rfl, rfl⟩ := hr
    simp [runOps, he]
  | o :: ops, h0, h, rs, hr, he => by
    unfold runOps at hr
    split at hr
    · simp at hr
    · rename_i h1 res1 e1
      split at hr
      · simp at hr
      · rename_i h2 rs2 e2
        simp at hr
        obtain ⟨rfl, rfl⟩ := hr
        have := runOps_snoc e2 he
        rw [List.cons_append]
        unfold runOps
        rw [e1]
        simp only
        rw [this]
        rfl

theorem allSteps_snoc {P : Heap → Op → Prop} {fuel : Nat} {op : Op} : ∀ {ops : List Op} {h0 h : Heap} {rs : List Res},
    AllSteps P fuel ops h0 → runOps fuel ops h0 = some (h, rs) → P h op → AllSteps P fuel (ops ++ [op]) h0
  | [], h0, h, rs, _, hr, hp => by
    simp [runOps] at hr
    obtain ⟨rfl, rfl⟩ := hr
    exact ⟨hp, fun _ _ _ => trivial⟩
  | o :: ops, h0, h, rs, hs, hr, hp => by
    refine ⟨hs.1, fun h1 res1 e1 => ?_⟩
    unfold runOps at hr
    rw [e1] at hr
    simp only at hr
    split at hr
    · simp at hr
    · rename_i h2 rs2 e2
      simp at hr
      obtain ⟨rfl, rfl⟩ := hr
      exact allSteps_snoc (hs.2 h1 res1 e1) e2 hp

/-- **C28, the other half**: after any sequence of calls starting from empty documents in which `Append` was never given a
dead node, a call that links an orphan below itself makes the target unserialisable for good: `AppendJSON` of the target
never returns, whatever budget the recursion gets. So the calls that `C28_no_cycles_partial` avoids are exactly the calls
that have to be avoided. -/
theorem C28_cycles (fuel : Nat) (ops : List Op) (h0 h : Heap) (rs : List Res) (hw : h0.Wf) (hb : Blank h0)
    (hs : AllSteps LiveAppends fuel ops h0) (hr : runOps fuel ops h0 = some (h, rs)) (hlen : ∀ r, (h r).len < maxUint)
    (op : Op) (hlive : LiveAppends h op) (hmiss : ¬ op.Misses h) (h' : Heap) (res : Res) (hrun : op.run fuel h = some (h', res))
    (n v : Node) (hp : (n, v) ∈ op.inserted) (t : JVal) (ht : Tree h v t) (hni : ¬ Insertable h n v) (fuel' : Nat) (dst : Bytes) :
    n.appendJSON h' fuel' dst = none := by
  have hwf : h.Wf := runOps_wf hw hr
  cases hj : n.appendJSON h' fuel' dst with
  | none => rfl
  | some x =>
    obtain ⟨out, err⟩ := x
    exfalso
    have hfail := linked_below_fails hwf hlen hlive hmiss hrun hp ht hni fuel' dst out
    have hv : ¬ Dead h v := by
      obtain ⟨r', d, _, h2, _, _, hg, _⟩ := (not_not.1 hni).1
      intro hd
      unfold Dead Node.get at hd
      rw [h2] at hd
      simp only at hd
      rw [hg] at hd
      simp at hd
    have hlin := (linked_child hwf hlen hlive hmiss hrun hp hv (not_not.1 hni).1).1
    have hn : ¬ Dead h' n := by
      rcases hlin with he | he
      · exact live_typ he (by decide)
      · exact live_typ he (by decide)
    have herr := C30_serialises_partial fuel (ops ++ [op]) h0 h' (rs ++ [res]) hw hb (allSteps_snoc hs hr hlive) (runOps_snoc hr hrun) n hn fuel' dst out err hj
    subst herr
    exact hfail hj

-- a call of the theorem: `[[]]` with node 1 made by a constructor, then the outer array appended to the inner one
example : (runOps 9 [.add 0 tNull b!"null", .add 0 tArray [], .add 0 tArray [], .append ⟨1, 0, some 0⟩ [⟨2, 0, some 0⟩],
      .append ⟨2, 0, some 0⟩ [⟨1, 0, some 0⟩], .json ⟨0, 0, some 0⟩ []] newHeap).map (·.2.getLast?) = some (some (.json (b!"null", false))) ∧
    runOps 40 [.add 0 tNull b!"null", .add 0 tArray [], .add 0 tArray [], .append ⟨1, 0, some 0⟩ [⟨2, 0, some 0⟩],
      .append ⟨2, 0, some 0⟩ [⟨1, 0, some 0⟩], .json ⟨2, 0, some 0⟩ []] newHeap = none := by
  constructor <;> decide +kernel
-- its hypotheses before the last insertion
example : ∃ h rs, runOps 9 [.add 0 tNull b!"null", .add 0 tArray [], .add 0 tArray [], .append ⟨1, 0, some 0⟩ [⟨2, 0, some 0⟩]] newHeap = some (h, rs) ∧
    ¬ (Op.append ⟨2, 0, some 0⟩ [⟨1, 0, some 0⟩]).Misses h ∧ Tree h ⟨1, 0, some 0⟩ (.arr [.arr []]) ∧ ¬ Insertable h ⟨2, 0, some 0⟩ ⟨1, 0, some 0⟩ := by
  refine ⟨_, _, rfl, ?_, ?_, ?_⟩
  · simp only [Op.Misses]; decide +kernel
  · refine ⟨0, by decide +kernel, [⟨2, []⟩], by decide +kernel, 2, [], rfl, ⟨[], by decide +kernel, rfl⟩, rfl⟩
  · intro hni
    apply hni
    refine ⟨⟨0, _, by decide +kernel, by decide +kernel, by decide, by decide, rfl, by decide +kernel⟩, 0, by decide +kernel, by decide +kernel, ?_⟩
    exact .step (c := ⟨tArray, [], [⟨2, []⟩]⟩) (v := ⟨2, []⟩) (by decide +kernel) (by simp) (.refl _)

/-! ## C29 -/

/-- **C29, the other half**: a call that links an orphan which has a parent already, other than the target itself, gives it a
second one. So apart from re-inserting a child into its own parent, the calls that `C29_no_sharing_partial` avoids are exactly
the calls that share. -/
theorem C29_shares (h : Heap) (hw : h.Wf) (hlen : ∀ r, (h r).len < maxUint) (fuel : Nat) (op : Op) (hlive : LiveAppends h op)
    (hmiss : ¬ op.Misses h) (h' : Heap) (res : Res) (hrun : op.run fuel h = some (h', res)) (n v : Node) (hp : (n, v) ∈ op.inserted)
    (had : Adopted h n v) (r : Ref) (hd : v.document h = some r) (i : Nat) (c : Cont) (w : V) (hc : (h r).cont i = some c) (hwc : w ∈ c.vals)
    (hid : w.id = v.id) (hi : i ≠ n.id) : ¬ NoSharing (h' r) := by
  obtain ⟨q, d, h1, h2, _, _, hg, _⟩ := had
  rw [hd] at h2
  simp only [Option.some.injEq] at h2
  subst h2
  have hv : ¬ Dead h v := by
    intro hdead
    unfold Dead Node.get at hdead
    rw [hd] at hdead
    simp only at hdead
    rw [hg] at hdead
    simp at hdead
  obtain ⟨htyp, u, hum, huid⟩ := linked_child hw hlen hlive hmiss hrun hp hv ⟨r, d, h1, hd, by assumption, by assumption, hg, by assumption⟩
  obtain ⟨hmut, hns⟩ := inserted_mutates hp
  rw [abs_document] at h1
  rw [abs_cont] at hc
  have hloc := mutation_local hw hmut hns hrun
  have hc' : A.cont h'.abs r i = some c := by
    rcases hloc with he | ⟨r', hd', hl⟩
    · rw [he]; exact hc
    · rw [h1] at hd'
      simp only [Option.some.injEq] at hd'
      subst hd'
      rw [hl.old i (lcont_lt hc) hi]; exact hc
  have hdn' : A.document h'.abs n = some r := by
    rcases hloc with he | ⟨r', hd', hl⟩
    · rw [he]; exact h1
    · rw [hl.document]; exact h1
  intro hns'
  have hlive' : ¬ Dead h' n := by
    rcases htyp with he | he
    · exact live_typ he (by decide)
    · exact live_typ he (by decide)
  obtain ⟨r1, x, e1, e2, _, _, _, e3⟩ := live_acont hlive'
  rw [hdn'] at e1
  simp only [Option.some.injEq] at e1
  subst e1
  simp only at hum
  rw [e3] at hum
  obtain ⟨a, ha⟩ := List.mem_iff_getElem?.1 hwc
  obtain ⟨b, hb⟩ := List.mem_iff_getElem?.1 hum
  rw [← abs_cont] at hc'
  have hcn : (h' r).cont n.id = some x.cont := by
    rw [abs_cont]; unfold A.cont lcont; rw [e2]; rfl
  exact hi (hns' i n.id c x.cont a b w u hc' hcn ha hb (by rw [hid, huid])).1

-- an array of another document is copied with its root flag into node 0 (the copy is node 2) and then linked below node 1
example : ∃ h rs, runOps 9 [.add 0 tArray [], .add 0 tArray [], .add 1 tArray [], .append ⟨0, 0, some 0⟩ [⟨0, 0, some 1⟩]] newHeap = some (h, rs) ∧ ¬ (Op.append ⟨1, 0, some 0⟩ [⟨2, 0, some 0⟩]).Misses h ∧
    Adopted h ⟨1, 0, some 0⟩ ⟨2, 0, some 0⟩ ∧ (h 0).cont 0 = some ⟨tArray, [], [⟨2, []⟩]⟩ := by
  refine ⟨_, _, rfl, ?_, ?_, by decide +kernel⟩
  · simp only [Op.Misses]; decide +kernel
  · exact ⟨0, _, by decide +kernel, by decide +kernel, by decide, by decide, rfl, by decide +kernel⟩

/-! ## C30 -/

theorem appendLoop_dead {fuel : Nat} {r : Ref} {to : Nat} : ∀ {vs : List Node} {a a' : AH} {vv vv' : List V},
    A.appendLoop fuel r to vs a vv = some (a', vv') → (∀ w ∈ vv, w ∈ vv') ∧ ∀ v ∈ vs, A.get a' v = none → ∃ w ∈ vv', w.id = maxUint
  | [], a, a', vv, vv', h => by
    simp [A.appendLoop] at h
    obtain ⟨rfl, rfl⟩ := h
    exact ⟨fun _ h => h, by simp⟩
  | v0 :: vs, a, a', vv, vv', h => by
    unfold A.appendLoop at h
    split at h
    · simp at h
    · rename_i a1 id1 hc
      obtain ⟨h1, h2⟩ := appendLoop_dead h
      refine ⟨fun w hw => h1 w (by simp [hw]), fun v hv hdead => ?_⟩
      rcases List.mem_cons.1 hv with rfl | hv
      · have hext := (copyOrAdopt_ext hc).trans (appendLoop_ext h)
        cases hg : A.get a v with
        | some x => obtain ⟨x', hx'⟩ := ext_get hext hg; rw [hdead] at hx'; simp at hx'
        | none =>
          unfold A.copyOrAdopt at hc
          unfold A.get at hg
          rw [hg] at hc
          simp at hc
          exact ⟨⟨id1, []⟩, h1 _ (by simp), hc.2.symm⟩
      · exact h2 v hv hdead

/-- **C30, the other half**: `Append` of a node that is dead (before and after the call) to an array leaves an array whose
serialisation never succeeds. So the calls that `C30_serialises_partial` avoids are exactly the harmful ones. -/
theorem C30_dangles (h : Heap) (hw : h.Wf) (fuel : Nat) (n : Node) (vs : List Node) (ht : n.typ h = tArray) (h' : Heap)
    (hs : n.append h fuel vs = some h') (hlen : ∀ r, (h' r).len ≤ maxUint) (v : Node) (hv : v ∈ vs) (hdead : Dead h' v)
    (fuel' : Nat) (dst out : Bytes) : n.appendJSON h' fuel' dst ≠ some (out, false) := by
  obtain ⟨r, x, hd, hx, hdoc, hg, htyp, hvals⟩ := live_acont (live_typ ht (by decide))
  have hcom := (abs_append hw fuel n vs).1
  rw [hs] at hcom
  simp only [Option.map_some] at hcom
  have hcom := hcom.symm
  have hwf' : h'.Wf := (abs_append hw fuel n vs).2 h' hs
  unfold A.append at hcom
  rw [if_neg (by intro h0; rw [List.length_eq_zero_iff.1 h0] at hv; simp at hv), hg, hdoc] at hcom
  simp only at hcom
  rw [if_pos (by rw [← htyp, ht])] at hcom
  split at hcom
  · simp at hcom
  · rename_i a1 vv hc
    simp only [Option.some.injEq] at hcom
    have hext := appendLoop_ext hc
    have hnlt := (List.getElem?_eq_some_iff.1 hx).1
    have hc0 : A.cont h.abs r n.id = some x.cont := by unfold A.cont lcont; rw [hx]; rfl
    have hc1 : A.cont a1 r n.id = some x.cont := by rw [hext.old _ hnlt, hc0]
    obtain ⟨x1, hx1, hxc1⟩ := acont_some hc1
    have hd' : A.document h'.abs n = some r := by rw [← hcom, modify_document, hext.document, hd]
    have hc' : A.cont h'.abs r n.id = some ⟨x1.typ, x1.raw, vv⟩ := by
      rw [← hcom, modify_cont_eq hx1]; rfl
    have hv1 : A.get a1 v = none := by
      have ha := abs_get h' v
      rw [show v.get h' = none from hdead, ← hcom] at ha
      unfold A.get at ha ⊢
      rw [modify_document] at ha
      cases hdv : A.document a1 v with
      | none => rfl
      | some q =>
        rw [hdv] at ha
        simp only [A.getOf, Option.map_none] at ha ⊢
        have ha := ha.symm
        rw [List.getElem?_eq_none_iff] at ha ⊢
        refine Nat.le_trans (Nat.le_of_eq ?_) ha
        unfold A.modify AH.set
        split
        · rename_i hq; subst hq; simp
        · rfl
    obtain ⟨w, hwm, hwid⟩ := (appendLoop_dead hc).2 v hv hv1
    intro hj
    unfold Node.appendJSON at hj
    cases hgn : n.get h' with
    | none => rw [hgn] at hj; simp at hj
    | some d =>
      rw [hgn] at hj
      simp only at hj
      obtain ⟨r1, e1, e2, e3⟩ := get_doc hgn
      have hq : r1 = r := by rw [hdoc] at e1; simpa using e1.symm
      subst hq
      rw [e1] at hj
      rw [← abs_cont, doc_cont] at hc'
      obtain ⟨d', f1, f2, f3, f4⟩ := contOf_some hc'
      simp only at f2 f4
      have hty : d'.typ = tArray := by
        have := congrArg Cont.typ hxc1
        rw [f2, show x1.typ = x.typ from this, ← htyp, ht]
      cases fuel' with
      | zero => simp [appendJSON] at hj
      | succ fuel' =>
        unfold appendJSON at hj
        rw [show getOf h' (some r1) n.id = some d' from f1] at hj
        simp only at hj
        rw [if_neg (by rw [hty]; decide), if_pos hty, f4] at hj
        have hnone : (h' r1).get maxUint = none := by
          have := hlen r1
          unfold Doc.get
          rw [if_neg (by omega)]
        have hel : ∀ (us : List V) (first : Bool) (dst out : Bytes), w ∈ us →
            appendElems (appendJSON (getOf h' (some r1)) fuel') us first dst ≠ some (out, false) := by
          intro us
          induction us with
          | nil => intro _ _ _ hw; simp at hw
          | cons u us ih =>
            intro first dst out hm hh
            unfold appendElems at hh
            split at hh
            · simp at hh
            · simp at hh
            · rename_i o hr
              rcases List.mem_cons.1 hm with rfl | hm
              · rw [hwid] at hr
                cases fuel' with
                | zero => simp [appendJSON] at hr
                | succ f =>
                  unfold appendJSON at hr
                  rw [show getOf h' (some r1) maxUint = none from hnone] at hr
                  simp at hr
              · exact ih _ _ _ hm hh
        split at hj
        · rename_i o hm; exact hel _ _ _ _ hwm hm
        · exact hel _ _ _ _ hwm hj

-- the zero Node appended to an array
example : (runOps 9 [.add 0 tArray [], .append ⟨0, 0, some 0⟩ [Node.zero], .json ⟨0, 0, some 0⟩ []] newHeap).map (·.2.getLast?) =
    some (some (.json (b!"[", true))) := by decide +kernel

end Verif.Props
