import Verif.Props.Parse
import Mathlib.Data.List.Induction
import Verif.Spec.Njsontest

/-! # Test cases of package `njsontest` (C100) -/

namespace Verif.Njsontest
open Verif Verif.Njson Verif.Props

theorem contains_iff : ∀ (t s : Bytes), contains t s = true ↔ ∃ p q, t = p ++ s ++ q := by
  intro t s
  induction t with
  | nil =>
    simp only [contains, List.isPrefixOf_iff_prefix]
    constructor
    · rintro ⟨q, h⟩
      exact ⟨[], q, by simpa using h.symm⟩
    · rintro ⟨p, q, h⟩
      simp at h
      simp [h]
  | cons c t ih =>
    simp only [contains, Bool.or_eq_true, List.isPrefixOf_iff_prefix, ih]
    constructor
    · rintro (⟨q, h⟩ | ⟨p, q, h⟩)
      · exact ⟨[], q, by simpa using h.symm⟩
      · exact ⟨c :: p, q, by simp [h]⟩
    · rintro ⟨p, q, h⟩
      cases p with
      | nil => exact .inl ⟨q, by simpa using h.symm⟩
      | cons d p =>
        simp only [List.cons_append, List.cons.injEq] at h
        exact .inr ⟨p, q, h.2⟩

theorem check_iff {a : ErrArg} (ha : a ≠ .other) (r : Option Err) : checkError r (a.check.getD none) = false ↔ a.Accepts r := by
  cases a with
  | nil => cases r <;> simp [ErrArg.check, checkError, ErrArg.Accepts]
  | err e =>
    cases r with
    | none => simp [ErrArg.check, checkError, ErrArg.Accepts]
    | some x =>
      by_cases h : x = e <;> simp [ErrArg.check, checkError, ErrArg.Accepts, h]
  | fn f => cases f <;> cases r <;> simp [ErrArg.check, checkError, ErrArg.Accepts]
  | str s =>
    by_cases hs : s = []
    · cases r <;> simp [ErrArg.check, checkError, ErrArg.Accepts, hs]
    · cases r with
      | none => simp [ErrArg.check, checkError, ErrArg.Accepts, hs]
      | some x =>
        have := contains_iff x.text s
        by_cases h : contains x.text s = true
        · simp [ErrArg.check, checkError, ErrArg.Accepts, hs, h]
          simpa using this.1 h
        · have h' := mt this.2 h
          simp [ErrArg.check, checkError, ErrArg.Accepts, hs, h]
          simpa using h'
  | regexp m =>
    cases m with
    | none => cases r <;> simp [ErrArg.check, checkError, ErrArg.Accepts]
    | some m =>
      cases r with
      | none => simp [ErrArg.check, checkError, ErrArg.Accepts]
      | some x => by_cases h : m x.text = true <;> simp [ErrArg.check, checkError, ErrArg.Accepts, h]
  | bool b => cases b <;> cases r <;> simp [ErrArg.check, checkError, ErrArg.Accepts]
  | other => exact absurd rfl ha

theorem noError_iff {a : ErrArg} (ha : a ≠ .other) : (a.check.getD none).isNone = true ↔ a.NoError := by
  cases a with
  | nil => simp [ErrArg.check, ErrArg.NoError]
  | err e => simp [ErrArg.check, ErrArg.NoError]
  | fn f => cases f <;> simp [ErrArg.check, ErrArg.NoError]
  | str s => by_cases h : s = [] <;> simp [ErrArg.check, ErrArg.NoError, h]
  | regexp m => cases m <;> simp [ErrArg.check, ErrArg.NoError]
  | bool b => cases b <;> simp [ErrArg.check, ErrArg.NoError]
  | other => exact absurd rfl ha

theorem lastOf_concat {V α : Type} (p : Opt V → Option α) (opts : List (Opt V)) (o : Opt V) (d : α) :
    lastOf p (opts ++ [o]) d = (p o).getD (lastOf p opts d) := by
  unfold lastOf
  cases h : p o <;> simp [h]

theorem newT_eq {V : Type} (G : Program V) (x : Arg V) (opts : List (Opt V)) :
    newT G x opts = ⟨startValue opts, (wantedError opts).check.getD none, (wantedJSON x opts).get G, lastOf Opt.name opts []⟩ := by
  unfold newT
  induction opts using List.reverseRecOn with
  | nil => rfl
  | append_singleton opts o ih =>
    rw [List.foldl_append, ih]
    unfold startValue wantedError wantedJSON
    simp only [lastOf_concat]
    cases o <;> rfl

theorem wantedError_ne {V : Type} {opts : List (Opt V)} (h : ∀ a, Opt.error a ∈ opts → a ≠ .other) : wantedError opts ≠ .other := by
  induction opts using List.reverseRecOn with
  | nil => simp [wantedError, lastOf]
  | append_singleton opts o ih =>
    unfold wantedError at ih ⊢
    rw [lastOf_concat]
    cases o with
    | error a => exact h a (by simp)
    | _ => exact ih fun a ha => h a (by simp [ha])

theorem gives_iff {V : Type} (G : Program V) (n : Nat) (j : JSONArg V) (s : Bytes) : j.Gives G n s ↔ j.get G n = .ok s := by
  constructor
  · intro h
    cases h <;> first | rfl | assumption
  · intro h
    cases j with
    | fn => exact .fn h
    | bytes => cases h; exact .bytes
    | str => cases h; exact .str
    | reader => exact .reader h
    | nil => cases h; exact .null
    | value => exact .value h

theorem methodName_eq {V : Type} (opts : List (Opt V)) (default : Bytes) :
    (if lastOf Opt.name opts [] ≠ [] then lastOf Opt.name opts [] else default) = methodName opts default := by
  unfold methodName
  dsimp only
  by_cases h : lastOf Opt.name opts [] = []
  · rw [if_neg (by simpa using h), if_pos h]
  · rw [if_pos h, if_neg h]

end Verif.Njsontest

namespace Verif.Props
open Verif Verif.Njson Verif.Njsontest

/-- **C100 (partial)**: a test case for `AppendJSON` passes *exactly* when the value has a method with the name and the type, the JSON data are there, and the method
returns what the options ask for: no error and these data, or an error of this kind.
Missing from the full claim: a test that does not pass may panic instead of failing (`C100_false`). -/
theorem C100_append_partial {V : Type} (G : Program V) (x : Arg V) {opts : List (Opt V)} (ho : ∀ a, Opt.error a ∈ opts → a ≠ .other) (n : Nat) :
    testAppend G x opts n = .pass ↔ x ≠ .nil ∧ ∃ expect out err, (wantedJSON x opts).Gives G n expect ∧
      G.append x (methodName opts b!"AppendJSON") = .ok (some (out, err)) ∧ (wantedError opts).Accepts err ∧
      ((wantedError opts).NoError → out = expect) := by
  simp only [gives_iff]
  have hne := wantedError_ne ho
  by_cases hx : x = .nil
  · subst hx
    simp [testAppend, Arg.isNil]
  have hx' : x.isNil = false := by cases x <;> first | rfl | exact absurd rfl hx
  unfold testAppend
  rw [newT_eq, if_neg (by simp [hx'])]
  dsimp only
  rw [methodName_eq]
  simp only [ne_eq, hx, not_false_eq_true, true_and]
  cases hJ : (wantedJSON x opts).get G n with
  | panic => simp
  | err => simp
  | ok expect =>
    cases hM : G.append x (methodName opts b!"AppendJSON") with
    | missing => simp
    | wrong p => cases p <;> simp
    | ok f =>
      cases f with
      | none => simp
      | some r =>
        obtain ⟨out, err⟩ := r
        have h1 := check_iff hne err
        have h2 := noError_iff hne
        simp only [Data.ok.injEq, Meth.ok.injEq, Option.some.injEq, Prod.mk.injEq, Bool.false_eq_true, if_false]
        constructor
        · intro h
          split at h
          · cases h
          · rename_i hc
            split at h
            · cases h
            · rename_i hn
              refine ⟨expect, out, err, rfl, ⟨rfl, rfl⟩, h1.1 (by simpa using hc), fun h3 => ?_⟩
              exact Classical.byContradiction fun h4 => hn ⟨h2.2 h3, h4⟩
        · rintro ⟨_, _, _, rfl, ⟨rfl, rfl⟩, h3, h4⟩
          rw [if_neg (by simp [h1.2 h3]), if_neg]
          rintro ⟨h5, h6⟩
          exact h6 (h4 (h2.1 h5))

/-- **C100 (partial)**: a test case for `UnmarshalNodeJSON` passes *exactly* when the variable has a method with the name and the type, the JSON data are there and begin
with a value, the method returns what the options ask for, and if this is no error, the variable holds what is expected (which is not a nil pointer) afterwards. -/
theorem C100_unmarshal_partial {V : Type} (G : Program V) (x : Arg V) {opts : List (Opt V)} (ho : ∀ a, Opt.error a ∈ opts → a ≠ .other) {d : Doc} (hd : d.Wf) (n : Nat) :
    testUnmarshal G x opts d n = .pass ↔ x ≠ .nil ∧ ∃ v, (startValue opts = .nil ∧ v = .ptr (G.zero x) ∨ startValue opts ≠ .nil ∧ v = startValue opts) ∧
      ∃ f data d' id j tail y err, G.unmarshal v (methodName opts b!"UnmarshalNodeJSON") = .ok f ∧ (wantedJSON x opts).Gives G n data ∧
      Parses d data d' id j tail ∧ f d' id = some (y, err) ∧ (wantedError opts).Accepts err ∧
      ((wantedError opts).NoError → ∃ o c, x.Content o ∧ v = .ptr c ∧ G.deepEq o y = true) := by
  simp only [gives_iff]
  have hne := wantedError_ne ho
  by_cases hx : x = .nil
  · subst hx
    simp [testUnmarshal, Arg.isNil]
  have hx' : x.isNil = false := by cases x <;> first | rfl | exact absurd rfl hx
  have hv : ∀ w, (startValue opts = .nil ∧ w = .ptr (G.zero x) ∨ startValue opts ≠ .nil ∧ w = startValue opts) ↔ w = Arg.orNew G x (startValue opts) := by
    intro w
    cases startValue opts <;> simp [Arg.orNew]
  have hO : ∀ y, x.Content y ↔ x.original = some y := by
    intro y
    cases x <;> simp [Arg.Content, Arg.original, eq_comm]
  have h2 := noError_iff hne
  unfold testUnmarshal
  rw [newT_eq, if_neg (by simp [hx'])]
  dsimp only
  rw [methodName_eq]
  simp only [hv, hO, ne_eq, hx, not_false_eq_true, true_and, exists_eq_left]
  generalize Arg.orNew G x (startValue opts) = v
  cases hM : G.unmarshal v (methodName opts b!"UnmarshalNodeJSON") with
  | missing => simp
  | wrong p => simp
  | ok f =>
    simp only [Meth.ok.injEq]
    cases hJ : (wantedJSON x opts).get G n with
    | panic => simp
    | err => simp
    | ok data =>
      simp only [Data.ok.injEq]
      unfold call
      rcases parse_cases hd data with ⟨t', pos, r', d1, e1, e2, _, _, e3⟩ | ⟨typ, d1, e1, e2, _⟩ | ⟨_, _, _, _, d1, e1, e2, _⟩
      · rw [e2]
        simp only
        have hp : Parses d data d1 d.len t' r' := ⟨e2, view_reps (view_length hd) e3⟩
        cases hf : f d1 d.len with
        | none =>
          simp only [reduceCtorEq, false_iff, not_exists]
          rintro _ _ d' id j tail y err ⟨rfl, rfl, hp', hfy, -⟩
          have := hp'.1.symm.trans e2
          simp only [Prod.mk.injEq, ParseOut.ok.injEq] at this
          obtain ⟨rfl, rfl, rfl⟩ := this
          rw [hf] at hfy
          cases hfy
        | some r =>
          obtain ⟨y, err⟩ := r
          have h1 := check_iff hne err
          simp only
          constructor
          · intro h
            unfold verdict at h
            split at h
            · cases h
            · rename_i hc
              refine ⟨f, data, d1, d.len, t', r', y, err, rfl, rfl, hp, hf, h1.1 (by simpa using hc), fun h3 => ?_⟩
              rw [if_pos (h2.2 h3)] at h
              split at h
              · rename_i a c ho'
                split at h
                · rename_i hde
                  exact ⟨a, c, ho', rfl, hde⟩
                · cases h
              · cases h
          · rintro ⟨_, _, d', id, j, tail, y', err', rfl, rfl, hp', hfy, h3, h4⟩
            have := hp'.1.symm.trans e2
            simp only [Prod.mk.injEq, ParseOut.ok.injEq] at this
            obtain ⟨rfl, rfl, rfl⟩ := this
            rw [hf] at hfy
            cases hfy
            unfold verdict
            rw [if_neg (by simp [h1.2 h3])]
            by_cases h5 : (wantedError opts).NoError
            · obtain ⟨a, c, ho', hv', hde⟩ := h4 h5
              rw [if_pos (h2.2 h5), ho', hv']
              simp [hde]
            · rw [if_neg fun h => h5 (h2.1 h)]
      · rw [e2]
        simp only [reduceCtorEq, false_iff, not_exists]
        rintro _ _ d' id j tail y err ⟨rfl, rfl, hp', -⟩
        have := hp'.1.symm.trans e2
        simp at this
      · rw [e2]
        simp only [reduceCtorEq, false_iff, not_exists]
        rintro _ _ d' id j tail y err ⟨rfl, rfl, hp', -⟩
        have := hp'.1.symm.trans e2
        simp at this

/-- A program with one type: its variables hold bytes, its `AppendJSON` appends them, and its `UnmarshalNodeJSON` stores `1`, whatever the node. -/
def exProgram (append : Arg Bytes → Bytes → Meth (Option (Bytes × Option Err))) : Program Bytes where
  zero := fun _ => []
  marshal := fun | .plain x => .ok x | .ptr x => .ok x | _ => .ok b!"null"
  append := append
  unmarshal := fun _ name => if name = b!"UnmarshalNodeJSON" then .ok fun _ _ => some (b!"1", none) else .missing
  deepEq := fun a b => a = b

/-- C100 is false of the code: a value without the method makes the test panic, instead of failing; so does nil. -/
theorem C100_false {V : Type} (G : Program V) :
    (∀ x opts n expect, x ≠ .nil → (wantedJSON x opts).Gives G n expect → G.append x (methodName opts b!"AppendJSON") = .missing → testAppend G x opts n = .panic) ∧
    (∀ opts n, testAppend G .nil opts n = .panic) ∧ ∀ opts d n, testUnmarshal G .nil opts d n = .panic := by
  refine ⟨fun x opts n expect hx hj hm => ?_, fun _ _ => rfl, fun _ _ _ => rfl⟩
  rw [gives_iff] at hj
  unfold testAppend
  rw [newT_eq]
  dsimp only
  rw [methodName_eq]
  cases x with
  | nil => exact absurd rfl hx
  | _ => simp only [hj, hm, Arg.isNil, Bool.false_eq_true, if_false]

/-- And a test whose data come from a reader cannot be run twice: the second run reads nothing. -/
theorem C100_false_again :
    let G := exProgram fun x _ => match x with | .plain s => .ok (some (s, none)) | _ => .missing
    let opts := [Opt.json (.reader fun n => .ok (if n = 0 then b!"1" else []))]
    testAppend G (.plain b!"1") opts 0 = .pass ∧ testAppend G (.plain b!"1") opts 1 = .fail ∧
    testUnmarshal G (.plain b!"1") opts Doc.empty 0 = .pass ∧ testUnmarshal G (.plain b!"1") opts Doc.empty 1 = .fail := by
  decide +kernel

/-- What follows the value in the data is not looked at. -/
theorem C100_tail :
    let G := exProgram fun _ _ => .missing
    testUnmarshal G (.plain b!"1") [.json (.str b!"1 and so on")] Doc.empty 0 = .pass := by
  decide +kernel

/-- The example for errors: a method that returns an error passes with the options that ask for it, and only with them. -/
example :
    let e : Err := ⟨3, b!"out of range"⟩
    let G := exProgram fun _ _ => .ok (some ([], some e))
    testAppend G (.plain b!"1") [.error (.err e)] 0 = .pass ∧ testAppend G (.plain b!"1") [.error (.str b!"range")] 0 = .pass ∧
    testAppend G (.plain b!"1") [.error (.str b!"ranges")] 0 = .fail ∧ testAppend G (.plain b!"1") [.error (.bool true), .error .nil] 0 = .fail ∧
    testAppend G (.plain b!"1") [] 0 = .fail := by
  decide +kernel

end Verif.Props
