import Verif.Proofs.ErrPos
import Verif.Props.Parse

/-!
# C94: what a ParseError says about the text

`Parse` is called on any document `d` with any text `s`.
-/

namespace Verif.Props
open Verif Verif.Spec Verif.Njson

/-- **C94**: the position of a `ParseError` is where the token that was found stands in the text; type, found and wanted token are one of nine
combinations. -/
theorem C94_token (d : Doc) (hwf : d.Wf) (s : Bytes) (pos : Nat) (typ : Typ) (got : Got) (want : Want) (r : Bytes)
    (h : (d.parse s).2 = .err pos typ got want r) :
    ErrShape typ got want ∧ gotBytes got ≠ [] ∧ gotBytes got <+: s.drop pos ∧ pos + (gotBytes got).length ≤ s.length := by
  obtain ⟨e1, _⟩ := parse_err hwf (eta h)
  obtain ⟨h1, pre, tl, h2, h3, _⟩ := (err_all _).1 _ _ _ e1
  rw [Nat.zero_add] at h3
  refine ⟨h1, shape_ne h1, ⟨tl, ?_⟩, ?_⟩
  · rw [h2, h3, List.drop_left]
  · rw [h2, h3]; simp

/-- **C94**: everything that was wanted can stand there: for each of the wanted bytes, the wanted literal, or each of the values, the text up
to the position followed by it can be completed to a text that `Parse` accepts as a whole. -/
theorem C94_wanted (d : Doc) (hwf : d.Wf) (s : Bytes) (pos : Nat) (typ : Typ) (got : Got) (want : Want) (r : Bytes)
    (h : (d.parse s).2 = .err pos typ got want r) (y : Bytes) (hy : Meets want y) :
    ∃ x d' id t, Parses d (s.take pos ++ y ++ x) d' id t [] := by
  obtain ⟨e1, _⟩ := parse_err hwf (eta h)
  obtain ⟨h1, pre, tl, h2, h3, h4, _⟩ := (err_all _).1 _ _ _ e1
  rw [Nat.zero_add] at h3
  obtain ⟨x, w, v, t, hx, hw, hv⟩ := h4 y hy
  refine ⟨x, ?_⟩
  have : ∃ d' id, Parses d (s.take pos ++ y ++ x) d' id t [] := by
    rw [C11_language d hwf]
    refine ⟨w, v, ?_, hw, hv, ?_⟩
    · rw [h2, h3, List.take_left, List.append_assoc, hx, List.append_nil]
    · cases t <;> first | trivial | exact .inl rfl
  obtain ⟨d', id, hp⟩ := this
  exact ⟨d', id, t, hp⟩

/-- **C94**: the token that was found cannot stand there: a text that begins like this one, up to the end of the token, fails with the same
error, whatever follows and in whatever document. -/
theorem C94_found (d : Doc) (hwf : d.Wf) (s : Bytes) (pos : Nat) (typ : Typ) (got : Got) (want : Want) (r : Bytes)
    (h : (d.parse s).2 = .err pos typ got want r) (e : Doc) (hwe : e.Wf) (y : Bytes) :
    (e.parse (s.take (pos + (gotBytes got).length) ++ y)).2 = .err pos typ got want [] := by
  obtain ⟨e1, _⟩ := parse_err hwf (eta h)
  obtain ⟨h1, pre, tl, h2, h3, _, h5⟩ := (err_all _).1 _ _ _ e1
  rw [Nat.zero_add] at h3
  obtain ⟨F, hF⟩ := h5 y
  have ht : treeParse (s.take (pos + (gotBytes got).length) ++ y) = .err (.abort pos typ got want) := by
    have hs : s.take (pos + (gotBytes got).length) ++ y = pre ++ (gotBytes got ++ y) := by
      rw [h2, h3, ← List.append_assoc, show pre.length + (gotBytes got).length = (pre ++ gotBytes got).length by simp, List.take_left]
      simp
    rw [hs, ← treeParse_eq (by rw [hF]; simp), hF]
  rcases parse_cases hwe (s.take (pos + (gotBytes got).length) ++ y) with ⟨_, _, _, d1, e1, e2, _⟩ | ⟨_, d1, e1, e2, _⟩ | ⟨_, _, _, _, d1, e1, e2, _⟩
  · rw [ht] at e1; simp at e1
  · rw [ht] at e1; simp at e1
  · rw [ht] at e1
    simp at e1
    obtain ⟨rfl, rfl, rfl, rfl⟩ := e1
    rw [e2]

/-- **C94**: so the position is the end of the longest beginning of the text that some accepted text has, when the token is one byte. -/
theorem C94_longest (d : Doc) (hwf : d.Wf) (s : Bytes) (pos : Nat) (typ : Typ) (c : UInt8) (want : Want) (r : Bytes)
    (h : (d.parse s).2 = .err pos typ (.byte c) want r) (n : Nat) :
    (∃ x d' id t, Parses d (s.take n ++ x) d' id t []) ↔ n ≤ pos := by
  obtain ⟨hsh, _, _, hlen⟩ := C94_token d hwf s pos typ _ want r h
  simp only [gotBytes, List.length_singleton] at hlen
  constructor
  · rintro ⟨x, d', id, t, hp, _⟩
    by_cases hle : n ≤ pos
    · exact hle
    · have hb := C94_found d hwf s pos typ _ want r h d hwf ((s.drop (pos + 1)).take (n - (pos + 1)) ++ x)
      simp only [gotBytes, List.length_singleton] at hb
      have he : s.take (pos + 1) ++ ((s.drop (pos + 1)).take (n - (pos + 1)) ++ x) = s.take n ++ x := by
        rw [← List.append_assoc, ← List.take_add, Nat.add_sub_cancel' (by omega)]
      rw [he, hp] at hb
      simp at hb
  · intro hle
    have hy : ∃ y, Meets want y := by
      cases hsh with
      | value => exact ⟨b!"null", .inl ⟨rfl, .null, .null⟩⟩
      | elems => exact ⟨[44], 44, by simp, rfl⟩
      | object => exact ⟨[34], 34, by simp, rfl⟩
      | colon => exact ⟨[58], 58, by simp, rfl⟩
      | members => exact ⟨[44], 44, by simp, rfl⟩
      | key => exact ⟨[34], 34, by simp, rfl⟩
    obtain ⟨y, hy⟩ := hy
    obtain ⟨x, d', id, t, hp⟩ := C94_wanted d hwf s pos typ _ want r h y hy
    refine ⟨(s.drop n).take (pos - n) ++ (y ++ x), d', id, t, ?_⟩
    rw [← List.append_assoc, ← List.take_add, Nat.add_sub_cancel' hle, ← List.append_assoc]
    exact hp

/-- **C94**: the token that was found is none of the wanted ones. -/
theorem C94_differs (d : Doc) (hwf : d.Wf) (s : Bytes) (pos : Nat) (typ : Typ) (got : Got) (want : Want) (r : Bytes)
    (h : (d.parse s).2 = .err pos typ got want r) : ¬ Meets want (gotBytes got) := by
  intro hm
  obtain ⟨x, d', id, t, hp, _⟩ := C94_wanted d hwf s pos typ got want r h _ hm
  obtain ⟨_, _, ⟨tl, ht⟩, _⟩ := C94_token d hwf s pos typ got want r h
  have hb := C94_found d hwf s pos typ got want r h d hwf x
  have he : s.take (pos + (gotBytes got).length) = s.take pos ++ gotBytes got := by
    rw [List.take_add, ← ht, List.take_left]
  rw [he, hp] at hb
  simp at hb

/-- **C94**: an `UnexpectedEOF` names one of the six kinds of values that can be incomplete. -/
theorem C94_eof (d : Doc) (hwf : d.Wf) (s : Bytes) (typ : Typ) (r : Bytes) (h : (d.parse s).2 = .eof typ r) :
    typ ∈ [tAnyValue, tString, tObject, tArray, tNull, tBoolean] := by
  obtain ⟨e1, _⟩ := parse_eof hwf (eta h)
  exact ((err_all _).1 _ _ _ e1).1

/-! ## C14, exactly -/

theorem eof_of_tree {d : Doc} (hwf : d.Wf) {s : Bytes} {typ : Typ} (h : treeParse s = .err (.eof typ)) : (d.parse s).2 = .eof typ s := by
  rcases parse_cases hwf s with ⟨_, _, _, d1, e1, e2, _⟩ | ⟨_, d1, e1, e2, _⟩ | ⟨_, _, _, _, d1, e1, e2, _⟩
  · rw [h] at e1; simp at e1
  · rw [h] at e1
    simp only [TR.err.injEq, PErr.eof.injEq] at e1
    subst e1
    rw [e2]
  · rw [h] at e1; simp at e1

theorem err_of_tree {d : Doc} (hwf : d.Wf) {s : Bytes} {pos : Nat} {typ : Typ} {got : Got} {want : Want}
    (h : treeParse s = .err (.abort pos typ got want)) : (d.parse s).2 = .err pos typ got want [] := by
  rcases parse_cases hwf s with ⟨_, _, _, d1, e1, e2, _⟩ | ⟨_, d1, e1, e2, _⟩ | ⟨_, _, _, _, d1, e1, e2, _⟩
  · rw [h] at e1; simp at e1
  · rw [h] at e1; simp at e1
  · rw [h] at e1
    simp only [TR.err.injEq, PErr.abort.injEq] at e1
    obtain ⟨rfl, rfl, rfl, rfl⟩ := e1
    rw [e2]

/-- **C14**, exactly: when `Parse` reports `UnexpectedEOF`, there is a continuation that it accepts, or the text ends in a mistyped literal of
the reported type, shorter than the literal; in the second case every continuation fails, with `UnexpectedEOF` as long as the mistyped literal
is shorter than the right one, then with a `ParseError` at its beginning. -/
theorem C14_exact (d : Doc) (hwf : d.Wf) (s : Bytes) (typ : Typ) (r : Bytes) (h : (d.parse s).2 = .eof typ r) :
    (∃ x d' id t, Parses d (s ++ x) d' id t []) ∨
    ∃ pre tl lit, s = pre ++ tl ∧ ((typ = tNull ∧ lit = b!"null") ∨ (typ = tBoolean ∧ (lit = b!"true" ∨ lit = b!"false"))) ∧
      tl ≠ [] ∧ tl.head? = lit.head? ∧ tl.length < lit.length ∧ ¬ tl <+: lit ∧
      ∀ (e : Doc), e.Wf → ∀ x, (e.parse (s ++ x)).2 =
        if (tl ++ x).length < lit.length then .eof typ (s ++ x) else .err pre.length typ (.str ((tl ++ x).take lit.length)) (.str lit) [] := by
  obtain ⟨e1, _⟩ := parse_eof hwf (eta h)
  have hE := (err_all _).1 _ _ _ e1
  obtain ⟨_, hb | hc⟩ := C14_eof_partial d hwf s typ r h
  · obtain ⟨_, _, _, lit', _, hb, _⟩ := hb
    obtain ⟨pre, tl, lit, ⟨l1, l2, l3, l4⟩, h2, ⟨x, hx⟩, h3, h4⟩ := hE.2 (by rcases hb with ⟨h, _⟩ | ⟨h, _⟩; exact .inl h; exact .inr h)
    by_cases hp : tl <+: lit
    · obtain ⟨q, hq⟩ := hp
      left
      obtain ⟨w, v, t, hx, hw, hv⟩ := hx
      refine ⟨q ++ x, ?_⟩
      have : ∃ d' id, Parses d (s ++ (q ++ x)) d' id t [] := by
        rw [C11_language d hwf]
        refine ⟨w, v, ?_, hw, hv, ?_⟩
        · rw [List.append_nil, ← hx, h2, ← hq]; simp
        · cases t <;> first | trivial | exact .inl rfl
      obtain ⟨d', id, hp⟩ := this
      exact ⟨d', id, t, hp⟩
    · right
      refine ⟨pre, tl, lit, h2, l1, l2, l3, l4, hp, fun e he x => ?_⟩
      have hs : s ++ x = pre ++ (tl ++ x) := by rw [h2, List.append_assoc]
      by_cases hl : (tl ++ x).length < lit.length
      · rw [if_pos hl]
        obtain ⟨F, hF⟩ := h3 x hl
        rw [← hs] at hF
        rw [treeParse_eq (by rw [hF]; simp)] at hF
        exact eof_of_tree he hF
      · rw [if_neg hl]
        have hne : (tl ++ x).take lit.length ≠ lit := by
          intro hc
          apply hp
          rw [← hc, List.take_append]
          rw [List.take_of_length_le (by omega)]
          exact List.prefix_append _ _
        obtain ⟨F, hF⟩ := h4 x (by omega) hne
        rw [← hs, Nat.zero_add] at hF
        rw [treeParse_eq (by rw [hF]; simp)] at hF
        exact err_of_tree he hF
  · exact .inl hc

-- a text in a string that looks like a mistyped literal does not matter
example : (dirty.parse b!"[\"f\",f").2 = .eof tBoolean b!"[\"f\",f" ∧ (dirty.parse b!"[\"f\",false]").2 = .ok 1 [] ∧
    (dirty.parse b!"[\"f\",fx").2 = .eof tBoolean b!"[\"f\",fx" ∧ (dirty.parse b!"[\"f\",fx   ").2 = .err 5 tBoolean (.str b!"fx   ") (.str b!"false") [] := by
  decide +kernel

-- an error of each kind
example : (dirty.parse b!"{\"a\":[1,2}").2 = .err 9 tArray (.byte 125) (.oneOf [44, 93]) [] := by decide +kernel
example : (dirty.parse b!"[nulx]").2 = .err 1 tNull (.str b!"nulx") (.str b!"null") [] := by decide +kernel
example : (dirty.parse b!" {\"a\" 1}").2 = .err 6 tObject (.byte 49) (.oneOf [58]) [] := by decide +kernel

end Verif.Props
