import Verif.Spec.InTurn
import Verif.Proofs.Copy

/-! # Values that stand one after another in a text are read one after another (C152) -/

namespace Verif.Props
open Verif Verif.Spec Verif.Njson

theorem cont_below {d : Doc} {i : Nat} {c : Cont} (h : d.cont i = some c) : i < d.len := by
  unfold Doc.cont Doc.get at h
  split at h
  · assumption
  · cases h

/-- **C152**: calls of `Parse`, each with the tail of the one before, read exactly the values that stand there, however often the document has been used. -/
theorem C152_language (s : Bytes) (ts : List JVal) (r : Bytes) : ∀ (d : Doc), d.Wf →
    ((∃ d' l, ParsesAll d s d' l r ∧ l.map Prod.snd = ts) ↔ Stands s ts r) := by
  intro d hd
  constructor
  · rintro ⟨d', l, h, rfl⟩
    induction h with
    | nil => exact .nil
    | @cons d s d1 id t s1 d2 l r' hp _ ih =>
      obtain ⟨w, v, rfl, hw, hv, hn⟩ := (C11_language d hd s t s1).1 ⟨_, _, hp⟩
      exact .cons hw hv hn (ih (((C16_parse_total d hd _).2 _ _ _ hp.1).2.2.1))
  · intro h
    induction h generalizing d with
    | nil => exact ⟨d, [], .nil, rfl⟩
    | @cons w v s t ts r hw hv hn _ ih =>
      obtain ⟨d1, id, hp⟩ := (C11_language d hd _ t s).2 ⟨w, v, rfl, hw, hv, hn⟩
      obtain ⟨d2, l, h1, h2⟩ := ih d1 (((C16_parse_total d hd _).2 _ _ _ hp.1).2.2.1)
      exact ⟨d2, (id, t) :: l, .cons hp h1, by simp [h2]⟩

/-- **C152**: afterwards all these nodes have their trees, with ids that go up, and all nodes that were there before are unchanged. -/
theorem C152_kept {d d' : Doc} (hd : d.Wf) {s r : Bytes} {l : List (Nat × JVal)} (h : ParsesAll d s d' l r) :
    d'.Wf ∧ d'.rev = d.rev ∧ d.len ≤ d'.len ∧ (∀ i, i < d.len → d'.cont i = d.cont i) ∧ (∀ p ∈ l, d.len ≤ p.1 ∧ Reps d'.cont p.2 p.1) ∧
      (l.map Prod.fst).Pairwise (· < ·) := by
  induction h with
  | nil => exact ⟨hd, rfl, Nat.le_refl _, fun _ _ => rfl, by simp, by simp⟩
  | @cons d s d1 id t s1 d2 l r' hp _ ih =>
    obtain ⟨h1, h2, h3, -⟩ := (C16_parse_total d hd _).2 _ _ _ hp.1
    obtain ⟨f1, -, f3⟩ := C17_parse_frame d hd s
    rw [hp.1] at f1 f3
    obtain ⟨i1, i2, i3, i4, i5, i6⟩ := ih h3
    refine ⟨i1, i2.trans f3, by omega, fun i hi => (i4 i (by omega)).trans (f1 i hi), fun p hm => ?_, ?_⟩
    · rcases List.mem_cons.1 hm with rfl | hm
      · refine ⟨by omega, reps_congr hp.2 fun j hj => ?_⟩
        obtain ⟨u, hu⟩ := reps_reach hp.2 hj
        obtain ⟨c, hc⟩ := reps_some hu.1
        exact i4 j (cont_below hc)
      · exact ⟨by have := (i5 p hm).1; omega, (i5 p hm).2⟩
    · rw [List.map_cons, List.pairwise_cons]
      refine ⟨fun i hi => ?_, i6⟩
      obtain ⟨p, hm, rfl⟩ := List.mem_map.1 hi
      have := (i5 p hm).1
      dsimp only
      omega

/-- White space stands where a number may end. -/
theorem numFollow_ws {t : JVal} {w s : Bytes} (hw : IsWs w) (hn : w ≠ []) : NumFollow t (w ++ s) := by
  cases t with
  | num raw =>
    cases w with
    | nil => exact absurd rfl hn
    | cons b w =>
      refine Or.inr ⟨b, w ++ s, rfl, ?_⟩
      have := hw b (by simp)
      unfold NumberEnd
      rcases this with h | h | h | h <;> simp [h]
  | _ => trivial

/-- **C152 (partial)**: RFC 8259 values whose strings end well, with white space between them (which may be missing if none of the values is a number), are
all read, with the right trees, and nothing is left.
Missing from the full claim: strings that do not end well, which `Parse` misreads (`C10_exact`), and so do repeated calls (`C152_false`). -/
theorem C152_rfc_partial (d : Doc) (hd : d.Wf) (ps : List (Bytes × Bytes × JVal)) (hp : ∀ p ∈ ps, IsWs p.1 ∧ RfcValue p.2.1 p.2.2 ∧ StringsEndWell p.2.2)
    (hs : (∀ p ∈ ps, p.1 ≠ []) ∨ ∀ p ∈ ps, ∀ raw, p.2.2 ≠ .num raw) :
    ∃ d' l, ParsesAll d (ps.flatMap fun p => p.1 ++ p.2.1) d' l [] ∧ l.map Prod.snd = ps.map fun p => p.2.2 := by
  rw [C152_language _ _ _ d hd]
  induction ps with
  | nil => exact .nil
  | cons p ps ih =>
    rw [List.forall_mem_cons] at hp
    obtain ⟨w, v, t⟩ := p
    obtain ⟨⟨hw, hv, hg⟩, hp⟩ := hp
    have hl : LenientValue v t := gval_mono (fun s h => escBody_lenient (rfcBody_escBody h.1) h.2)
      (fun s h => rfcBody_escBody h.1) (fun s h => rfcNumber_lenient h.1) (gval_and hv hg)
    rw [List.flatMap_cons, List.map_cons]
    refine .cons hw hl ?_ (ih hp ?_)
    · rcases hs with hs | hs
      · cases ps with
        | nil => cases t <;> first | trivial | exact Or.inl rfl
        | cons q ps =>
          rw [List.flatMap_cons, List.append_assoc]
          exact numFollow_ws (hp q (by simp)).1 (hs q (by simp))
      · have := hs (w, v, t) (by simp)
        cases t with
        | num raw => exact absurd rfl (this raw)
        | _ => trivial
    · rcases hs with hs | hs
      · exact .inl fun q hq => hs q (by simp [hq])
      · exact .inr fun q hq => hs q (by simp [hq])

/-- The hypotheses of C152 are met: `[1]{}"a"` and, with white space, ` 1 2` -/
example : Stands b!"[1]{}\"a\" x" [.arr [.num b!"1"], .obj [], .str b!"a"] b!" x" :=
  (C152_language _ _ _ Doc.empty empty_wf).1 (by
    obtain ⟨d1, i1, h1⟩ := (parses_iff (s := b!"[1]{}\"a\" x") (t := .arr [.num b!"1"]) (r := b!"{}\"a\" x") empty_wf).2 ⟨_, rfl⟩
    have w1 := ((C16_parse_total _ empty_wf _).2 _ _ _ h1.1).2.2.1
    obtain ⟨d2, i2, h2⟩ := (parses_iff (s := b!"{}\"a\" x") (t := .obj []) (r := b!"\"a\" x") w1).2 ⟨_, rfl⟩
    have w2 := ((C16_parse_total _ w1 _).2 _ _ _ h2.1).2.2.1
    obtain ⟨d3, i3, h3⟩ := (parses_iff (s := b!"\"a\" x") (t := .str b!"a") (r := b!" x") w2).2 ⟨_, rfl⟩
    exact ⟨d3, [(i1, _), (i2, _), (i3, _)], .cons h1 (.cons h2 (.cons h3 .nil)), rfl⟩)

/-- Numbers without white space between them are one number. -/
theorem C152_numbers : Stands b!"12" [.num b!"12"] [] ∧ ¬ Stands b!"12" [.num b!"1", .num b!"2"] [] := by
  have h1 : Stands b!"12" [.num b!"12"] [] := (C152_language _ _ _ Doc.empty empty_wf).1 (by
    obtain ⟨d1, i1, h1⟩ := (parses_iff (s := b!"12") (t := .num b!"12") (r := []) empty_wf).2 ⟨_, rfl⟩
    exact ⟨d1, [(i1, _)], .cons h1 .nil, rfl⟩)
  refine ⟨h1, fun h => ?_⟩
  obtain ⟨d', l, hl, he⟩ := (C152_language _ _ _ Doc.empty empty_wf).2 h
  cases hl with
  | cons hp _ =>
    obtain ⟨p1, q1⟩ := (parses_iff (d := Doc.empty) empty_wf).1 ⟨_, _, hp⟩
    have q2 : treeParse b!"12" = .ok (.num b!"12") 2 [] := rfl
    rw [q2] at q1
    cases q1
    cases he

/-- C152 is false of the strings `"\\"` and `","`: the first call takes them for one string. -/
theorem C152_false : RfcValue b!"\"\\\\\"" (.str b!"\\\\") ∧ RfcValue b!"\",\"" (.str b!",") ∧
    ∃ d' id, Parses Doc.empty b!"\"\\\\\"\",\"" d' id (.str b!"\\\\\"") b!",\"" := by
  refine ⟨?_, ?_, (parses_iff empty_wf).2 ⟨_, rfl⟩⟩
  · exact GVal.str (raw := b!"\\\\") (.short (e := 92) (v := 92) (by decide) .nil)
  · exact GVal.str (raw := b!",") (RfcBody.char ',' (by unfold Unescapable; decide) .nil)

end Verif.Props
