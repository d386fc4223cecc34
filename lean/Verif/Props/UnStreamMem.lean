import Verif.Spec.UnStreamMem
import Verif.Proofs.UnLine
import Verif.Proofs.Copy
import Verif.Props.Bound

/-! # The document of a LineDecoder (C107) -/

namespace Verif.Props
open Verif Verif.Float Verif.Spec Verif.Njson Verif.Unjson Verif.UnStream

/-- One call of `Decode` changes the document by at most one `Parse`. -/
theorem decode_doc {U : Univ} {fuel : Nat} {d : LineDec} {x : Option (Ty × GV)} {r : Out (Option (Ty × GV))} {d' : LineDec}
    (hd : d.doc.Wf) (h : d.decode U fuel x = some (r, d')) : d'.doc = d.doc ∨ ∃ s, d'.doc = (d.doc.parse s).1 := by
  unfold LineDec.decode at h
  cases hn : nextLine (d.r.pending + 2) d.r [] with
  | none => rw [hn] at h; cases h
  | some p =>
    obtain ⟨o, b⟩ := p
    rw [hn] at h
    cases o with
    | error e => cases h; exact .inl rfl
    | ok s =>
      simp only at h
      have hf := heap_parse_fst d.doc s
      rcases heap_parse hd s with ⟨d1, id, j, tail, hp, n, q1, q2, q3⟩ | ⟨q1, hp, n, out, q2, q3, q4⟩
      · rw [q2] at h hf
        simp only at h hf
        split at h
        · split at h
          · cases h
          · cases h; exact .inr ⟨s, hf⟩
        · cases h; exact .inr ⟨s, hf⟩
      · rw [q2] at h hf
        cases out with
        | ok id tail => exact absurd rfl (q4 _ _)
        | crash => exact absurd rfl q3
        | _ => cases h; exact .inr ⟨s, hf⟩

theorem parse_len_le {d : Doc} (hd : d.Wf) (s : Bytes) : d.len ≤ (d.parse s).1.len := by
  cases hp : d.parse s with
  | mk d' out =>
    by_cases hq : ∃ id r, out = .ok id r
    · obtain ⟨id, r, rfl⟩ := hq
      exact ((C16_parse_total d hd s).2 d' id r hp).2.1.le
    · have := (C17_parse_frame d hd s).2.1 (by rw [hp]; exact fun id r h => hq ⟨id, r, h⟩)
      rw [hp] at this
      exact this.ge

/-- **C107** (documents): whatever the calls do, the revision of the document stays and no node of it changes. -/
theorem C107_frame {U : Univ} {fuel : Nat} {d d' : LineDec} {xs : List (Option (Ty × GV))} (h : AfterLines U fuel d xs d') (hd : d.doc.Wf) :
    d'.doc.Wf ∧ d'.doc.rev = d.doc.rev ∧ d.doc.len ≤ d'.doc.len ∧ ∀ id, id < d.doc.len → d'.doc.cont id = d.doc.cont id := by
  induction h with
  | nil => exact ⟨hd, rfl, Nat.le_refl _, fun _ _ => rfl⟩
  | @call d x xs r d1 d2 h1 _ ih =>
    rcases decode_doc hd h1 with h2 | ⟨s, h2⟩
    · rw [← h2] at hd ⊢
      exact ih hd
    · obtain ⟨g1, _, g3⟩ := C17_parse_frame d.doc hd s
      have g4 := parse_len_le hd s
      have g5 := parse_wf hd s
      rw [← h2] at g1 g3 g4 g5
      obtain ⟨i1, i2, i3, i4⟩ := ih g5
      exact ⟨i1, i2.trans g3, by omega, fun id hid => (i4 id (by omega)).trans (g1 id hid)⟩

/-- **C107** (nodes): a node of an earlier line that a decoder has kept still has its tree after any number of calls of `Decode`. -/
theorem C107_alive {U : Univ} {fuel : Nat} {d d' : LineDec} {xs : List (Option (Ty × GV))} (h : AfterLines U fuel d xs d') (hd : d.doc.Wf)
    (n : Node) (t : JVal) (ht : Tree (fun _ => d.doc) n t) : Tree (fun _ => d'.doc) n t := by
  obtain ⟨_, h2, _, h4⟩ := C107_frame h hd
  obtain ⟨r, g1, g2⟩ := ht
  refine ⟨r, ?_, reps_congr g2 fun j hj => ?_⟩
  · unfold Node.document at g1 ⊢
    cases hdoc : n.doc with
    | none => rw [hdoc] at g1; cases g1
    | some q =>
      rw [hdoc] at g1
      simp only at g1 ⊢
      rw [h2]
      exact g1
  · obtain ⟨t', ht', _⟩ := reps_reach g2 hj
    obtain ⟨c, hc⟩ := reps_some ht'
    refine h4 j ?_
    rw [cont_eq_view] at hc
    rw [← view_length hd]
    by_contra hlt
    rw [List.getElem?_eq_none (Nat.le_of_not_lt hlt)] at hc
    cases hc

theorem decode_line_len {U : Univ} {fuel : Nat} {d : LineDec} {x : Option (Ty × GV)} {l c : Bytes} (hg : Good d.r (l ++ 10 :: c)) (hl : 10 ∉ l)
    (hd : d.doc.Wf) {r : Out (Option (Ty × GV))} {d' : LineDec} (h : d.decode U fuel x = some (r, d')) : d'.doc = (d.doc.parse (strip l)).1 := by
  have hlen := good_pending hg
  simp only [List.length_append, List.length_cons] at hlen
  obtain ⟨b, hn, hg'⟩ := nextLine_line (d.r.pending + 2) d.r [] l c hg hl (by omega)
  unfold LineDec.decode at h
  rw [hn] at h
  simp only [List.nil_append] at h
  have hf := heap_parse_fst d.doc (strip l)
  rcases heap_parse hd (strip l) with ⟨d1, id, j, tail, hp, n, q1, q2, q3⟩ | ⟨q1, hp, n, out, q2, q3, q4⟩
  · rw [q2] at h hf
    simp only at h hf
    split at h
    · split at h
      · cases h
      · cases h; exact hf
    · cases h; exact hf
  · rw [q2] at h hf
    cases out with
    | ok id tail => exact absurd rfl (q4 _ _)
    | crash => exact absurd rfl q3
    | _ => cases h; exact hf

theorem parse_values {d : Doc} (hd : d.Wf) (l : Bytes) : ∃ k, (d.parse l).1.len = d.len + k ∧ ∀ ls n, Values ls n → Values (l :: ls) (k + n) := by
  by_cases hp : ∃ d' id j tail, Parses d l d' id j tail
  · obtain ⟨d', id, j, tail, hp⟩ := hp
    obtain ⟨_, _, hp'⟩ := (parses_any hd empty_wf).1 ⟨_, _, hp⟩
    refine ⟨j.size, ?_, fun ls n h => .value hp' h⟩
    rw [hp.1]
    exact (C101_nodes d hd l d' id j tail hp).1
  · refine ⟨0, ?_, fun ls n h => ?_⟩
    · refine (C17_parse_frame d hd l).2.1 fun id r h => hp ?_
      rcases heap_parse hd l with ⟨d1, id, j, tail, _, _, q1, _⟩ | ⟨_, _, _, out, q2, _, q4⟩
      · exact ⟨_, _, _, _, q1⟩
      · unfold Heap.parse at q2
        cases hq : d.parse l with
        | mk d1 o =>
          rw [hq] at h q2
          subst h
          simp only [Prod.mk.injEq] at q2
          exact absurd q2.2.2.symm (q4 _ _)
    · rw [Nat.zero_add]
      refine .wrong ?_ h
      rintro ⟨d', id, j, tail, h⟩
      obtain ⟨_, _, h⟩ := (parses_any empty_wf hd).1 ⟨_, _, h⟩
      exact hp ⟨_, _, _, _, h⟩

theorem grows {U : Univ} {fuel : Nat} {d d' : LineDec} {xs : List (Option (Ty × GV))} (h : AfterLines U fuel d xs d') :
    ∀ (c : Bytes) (ls : List Bytes), Good d.r c → Lines c ls → d.doc.Wf → ∃ n, Values (ls.take xs.length) n ∧ d'.doc.len = d.doc.len + n := by
  induction h with
  | nil => intro c ls _ _ _; exact ⟨0, by simpa using Values.nil, rfl⟩
  | @call d x xs r d1 d2 h1 _ ih =>
    intro c ls hg hl hd
    cases ls with
    | nil =>
      cases hl
      obtain ⟨d'', e1, e2, e3, e4⟩ := decode_eof (U := U) (fuel := fuel) (x := x) hg
      rw [h1] at e1
      cases e1
      obtain ⟨n, g1, g2⟩ := ih [] [] e2 .nil (by rw [e4]; exact hd)
      rw [List.take_nil] at g1
      exact ⟨n, by rw [List.take_nil]; exact g1, by rw [g2, e4]⟩
    | cons l ls =>
      obtain ⟨l', c', rfl, h10, hs, hl'⟩ := lines_first hl
      obtain ⟨_, _, e3, e4⟩ := decode_line hg h10 hd h1
      have e5 := decode_line_len hg h10 hd h1
      rw [hs] at e5
      obtain ⟨k, k1, k2⟩ := parse_values hd l
      obtain ⟨n, g1, g2⟩ := ih c' ls e3 hl' e4
      refine ⟨k + n, ?_, ?_⟩
      · rw [List.length_cons, List.take_succ_cons]
        exact k2 _ _ g1
      · rw [g2, e5, k1]; omega

/-- **C107** (memory), what happens: the document holds exactly the values of all the lines read so far. -/
theorem C107_grows {U : Univ} {fuel : Nat} {src : Src} {c : Bytes} {ls : List Bytes} (hL : Lines c ls) (hD : Delivers src c) (hN : NoStall src)
    {size : Nat} (hs : 2 ≤ size) (dec : Option TypeDecoder) (xs : List (Option (Ty × GV))) (d' : LineDec)
    (h : AfterLines U fuel { LineDec.new size src with dec := dec } xs d') : Values (ls.take xs.length) d'.doc.len := by
  obtain ⟨n, h1, h2⟩ := grows h c ls ⟨hs, Nat.zero_le _, hN, .inl ⟨rfl, c, hD, rfl⟩⟩ hL empty_wf
  have : (0 : Nat) + n = n := Nat.zero_add n
  rw [h2]
  exact (show Values (ls.take xs.length) (0 + n) by rw [this]; exact h1)

theorem decode_none {U : Univ} {fuel : Nat} {d : LineDec} {l c : Bytes} (hg : Good d.r (l ++ 10 :: c)) (hl : 10 ∉ l) (hd : d.doc.Wf) (hdec : d.dec = none) :
    ∃ r d', d.decode U fuel none = some (r, d') := by
  have hlen := good_pending hg
  simp only [List.length_append, List.length_cons] at hlen
  obtain ⟨b, hn, hg'⟩ := nextLine_line (d.r.pending + 2) d.r [] l c hg hl (by omega)
  unfold LineDec.decode
  rw [hn]
  simp only [List.nil_append, hdec]
  rcases heap_parse hd (strip l) with ⟨d1, id, j, tail, hp, n, q1, q2, q3⟩ | ⟨q1, hp, n, out, q2, q3, q4⟩
  · rw [q2]
    simp only
    split
    · exact ⟨_, _, rfl⟩
    · exact ⟨_, _, rfl⟩
  · rw [q2]
    cases out with
    | ok id tail => exact absurd rfl (q4 _ _)
    | crash => exact absurd rfl q3
    | _ => exact ⟨_, _, rfl⟩

theorem after_none {U : Univ} {fuel : Nat} : ∀ (k : Nat) (d : LineDec) (c : Bytes) (ls : List Bytes), Good d.r c → Lines c ls → d.doc.Wf → d.dec = none →
    ls.length = k → ∃ d', AfterLines U fuel d (List.replicate k none) d' := by
  intro k
  induction k with
  | zero => intro d c ls _ _ _ _ _; exact ⟨d, .nil d⟩
  | succ k ih =>
    intro d c ls hg hl hd hdec hk
    cases ls with
    | nil => cases hk
    | cons l ls =>
      obtain ⟨l', c', rfl, h10, hs, hl'⟩ := lines_first hl
      obtain ⟨r, d1, h1⟩ := decode_none (U := U) (fuel := fuel) hg h10 hd hdec
      obtain ⟨_, e2, e3, e4⟩ := decode_line hg h10 hd h1
      obtain ⟨d', h2⟩ := ih d1 c' ls e3 hl' e4 (by rw [e2, hdec]) (by simpa using hk)
      exact ⟨d', .call h1 h2⟩

/-- The content of `k` lines `[]` -/
def emptyLines : Nat → Bytes
  | 0 => []
  | k + 1 => b!"[]" ++ 10 :: emptyLines k

theorem emptyLines_lines : ∀ k, Lines (emptyLines k) (List.replicate k b!"[]")
  | 0 => .nil
  | k + 1 => .lf (by decide) (by decide) (emptyLines_lines k)

theorem empty_parses : Parses Doc.empty b!"[]" (Doc.empty.parse b!"[]").1 0 (.arr []) [] := by
  refine ⟨?_, ?_⟩
  · decide +kernel
  · refine ⟨[], ?_, rfl⟩
    decide +kernel

theorem emptyLines_values {n : Nat} : ∀ k, Values (List.replicate k b!"[]") n → n = k := by
  intro k
  induction k generalizing n with
  | zero => intro h; cases h; rfl
  | succ k ih =>
    intro h
    cases h with
    | @value _ _ j m _ _ _ h1 h2 =>
      have e := ih h2
      obtain ⟨p1, q1⟩ := (parses_iff empty_wf).1 ⟨_, _, h1⟩
      obtain ⟨p2, q2⟩ := (parses_iff empty_wf).1 ⟨_, _, empty_parses⟩
      rw [q1] at q2
      cases q2
      subst e
      rw [Nat.add_comm]
      rfl
    | wrong h1 _ => exact absurd ⟨_, _, _, _, empty_parses⟩ h1

/-- **C107** (memory): there is no bound on the document in terms of the longest line. For every number there is a stream of
lines of two bytes after which the document holds more nodes than that. -/
theorem C107_unbounded (U : Univ) (fuel B : Nat) : ∃ (src : Src) (c : Bytes) (ls : List Bytes) (xs : List (Option (Ty × GV))) (d' : LineDec),
    Lines c ls ∧ Delivers src c ∧ NoStall src ∧ (∀ l ∈ ls, l.length = 2) ∧ AfterLines U fuel (LineDec.new 4096 src) xs d' ∧ B < d'.doc.len := by
  have hL := emptyLines_lines (B + 1)
  have hD : Delivers [(emptyLines (B + 1), none)] (emptyLines (B + 1)) := ⟨[], by simp, rfl⟩
  have hN : NoStall [(emptyLines (B + 1), none)] := by
    intro pre mid post h _
    have := congrArg List.length h
    simp at this
    omega
  obtain ⟨d', h⟩ := after_none (U := U) (fuel := fuel) (B + 1) (LineDec.new 4096 [(emptyLines (B + 1), none)]) _ _
    ⟨by show 2 ≤ 4096; omega, Nat.zero_le _, hN, .inl ⟨rfl, _, hD, rfl⟩⟩ hL empty_wf rfl (by simp)
  refine ⟨_, _, _, _, d', hL, hD, hN, ?_, h, ?_⟩
  · intro l hl
    rw [List.eq_of_mem_replicate hl]
    rfl
  · have := C107_grows hL hD hN (by omega : 2 ≤ 4096) none _ d' h
    rw [List.length_replicate, List.take_of_length_le (by simp)] at this
    rw [emptyLines_values _ this]
    omega

-- two lines: an array with a number, then garbage
example : Values [b!"[1]", b!"{"] 2 := by
  have h1 : Parses Doc.empty b!"[1]" (Doc.empty.parse b!"[1]").1 0 (.arr [.num b!"1"]) [] := by
    refine ⟨by decide +kernel, ⟨[⟨1, []⟩], by decide +kernel, 1, [], rfl, by unfold Reps; decide +kernel, rfl⟩⟩
  exact .value h1 (.wrong (by
    rintro ⟨d', id, j, tail, h, _⟩
    have : (Doc.empty.parse b!"{").2 = .ok id tail := by rw [h]
    revert this
    rw [show (Doc.empty.parse b!"{").2 = .eof tObject b!"{" by decide +kernel]
    simp) .nil)

end Verif.Props
