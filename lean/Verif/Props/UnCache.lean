import Verif.Proofs.UnCache

/-! # The codec cache under concurrency (C55) -/

namespace Verif.Props
open Verif Verif.Unjson Verif.UnCache

/-- **C55**: whatever the interleaving, two calls of one method for one type return the same object or the same error; the
object was made by that method for that type. -/
theorem C55_same {fails : Kind → Ty → Option UErr} {s : St} (h : Reach fails s) :
    (∀ k t r r', (k, t, r) ∈ s.log → (k, t, r') ∈ s.log → r = r') ∧
    (∀ k t v, (k, t, .ok v) ∈ s.log → s.made[v]? = some (k, t) ∧ fails k t = none) ∧
    (∀ k t e, (k, t, .error e) ∈ s.log → fails k t = some e) := by
  have hi := (inv_run h (inv_init fails)).1
  refine ⟨?_, fun k t v hm => hi.table k t v (hi.ok k t v hm), hi.err⟩
  intro k t r r' h1 h2
  cases r with
  | ok v =>
    cases r' with
    | ok v' =>
      have a := hi.ok k t v h1
      rw [hi.ok k t v' h2] at a; cases a; rfl
    | error e =>
      have a := (hi.table k t v (hi.ok k t v h1)).2
      rw [hi.err k t e h2] at a; cases a
  | error e =>
    cases r' with
    | ok v =>
      have a := (hi.table k t v (hi.ok k t v h2)).2
      rw [hi.err k t e h1] at a; cases a
    | error e' =>
      have a := hi.err k t e h1
      rw [hi.err k t e' h2] at a; cases a; rfl

/-- **C55**: an entry of the cache is never replaced or removed. -/
theorem C55_stable {fails : Kind → Ty → Option UErr} {s s' : St} (h : Reach fails s) (h' : Run fails s s') (k : Kind) (t : Ty) (v : Nat)
    (hv : lookup (s.table k) t = some v) : lookup (s'.table k) t = some v :=
  (inv_run h' (inv_run h (inv_init fails)).1).2.1 k t v hv

/-- No data race: while a goroutine is about to write one of the maps no other is about to read or write it; and no write
to a nil map. -/
theorem C55_race_free {fails : Kind → Ty → Option UErr} {s : St} (h : Reach fails s) (i j : Nat) :
    (∀ k, (s.pcs i).writes = some k → (s.pcs j).writes = some k ∨ (s.pcs j).reads = some k → i = j) ∧ s.pcs i ≠ .panicked := by
  have hi := (inv_run h (inv_init fails)).1
  have a := hi.pcs i
  have b := hi.pcs j
  refine ⟨fun k h1 h2 => ?_, fun hp => by rw [hp] at a; exact a⟩
  have wi : s.writer = some i := by
    cases hp : s.pcs i <;> rw [hp] at h1 a <;> simp [PC.writes] at h1
    · exact a.2.1
    · exact a.2.1
  have hr := hi.excl (by rw [wi]; simp)
  rcases h2 with h2 | h2
  · cases hp : s.pcs j <;> rw [hp] at h2 b <;> simp [PC.writes] at h2
    · have := b.2.1; rw [wi] at this; cases this; rfl
    · have := b.2.1; rw [wi] at this; cases this; rfl
  · cases hp : s.pcs j <;> rw [hp] at h2 b <;> simp [PC.reads] at h2
    · have := b.1; rw [hr] at this; cases this
    · have := b.2.1; rw [wi] at this; cases this; rfl

/-- A step that is not the start of a new call. -/
def Works (fails : Kind → Ty → Option UErr) (s : St) (i : Nat) : Prop := s.pcs i ≠ .idle ∧ ∃ s', Step fails i s s'

/-- No deadlock: while a call is under way some goroutine that is in a call can take a step. -/
theorem C55_progress {fails : Kind → Ty → Option UErr} {s : St} (h : Reach fails s) (i : Nat) (hb : s.pcs i ≠ .idle) : ∃ j, Works fails s j := by
  have hi := (inv_run h (inv_init fails)).1
  have holder : ∀ j, s.writer = some j → Works fails s j := by
    intro j hw
    have a := hi.pcs j
    cases hp : s.pcs j <;> rw [hp] at a
    case idle => exact absurd hw a.2
    case start => exact absurd hw a.2
    case reading => exact absurd hw a.2
    case read => exact absurd hw a.2.1
    case checked => exact absurd hw a.2.1
    case built => exact absurd hw a.2.1
    case locked k t v =>
      refine ⟨by rw [hp]; simp, ?_⟩
      cases hl : lookup (s.table k) t with
      | none => exact ⟨_, .miss hp hl⟩
      | some d => exact ⟨_, .recheck hp hl⟩
    case found => exact ⟨by rw [hp]; simp, _, .leave hp⟩
    case making => exact ⟨by rw [hp]; simp, _, .make hp⟩
    case storing k t v =>
      refine ⟨by rw [hp]; simp, ?_⟩
      cases hl : s.table k with
      | none => exact absurd hl a.2.2.2.2.1
      | some f => exact ⟨_, .store hp hl⟩
    case stored => exact ⟨by rw [hp]; simp, _, .unlock hp⟩
    case panicked => exact a.elim
  cases hw : s.writer with
  | some j => exact ⟨j, holder j hw⟩
  | none =>
    cases hr : s.readers with
    | cons j l =>
      refine ⟨j, ?_⟩
      have a := hi.pcs j
      have hm : j ∈ s.readers := by rw [hr]; simp
      cases hp : s.pcs j <;> rw [hp] at a
      case reading => exact ⟨by rw [hp]; simp, _, .get hp⟩
      case read => exact ⟨by rw [hp]; simp, _, .runlock hp⟩
      case panicked => exact a.elim
      all_goals exact absurd hm a.1
    | nil =>
      refine ⟨i, hb, ?_⟩
      have a := hi.pcs i
      cases hp : s.pcs i <;> rw [hp] at a
      case idle => exact absurd hp hb
      case start => exact ⟨_, .rlock hp hw⟩
      case reading => exact ⟨_, .get hp⟩
      case read => exact ⟨_, .runlock hp⟩
      case checked k t v =>
        cases v with
        | some v => exact ⟨_, .hit hp⟩
        | none =>
          cases hf : fails k t with
          | none => exact ⟨_, .build hp hf⟩
          | some e => exact ⟨_, .fail hp hf⟩
      case built => exact ⟨_, .lock hp hw hr⟩
      case panicked => exact a.elim
      all_goals (have := a.2.1; rw [hw] at this; cases this)

/-- A race that is met: goroutines 0 and 1 both find nothing, both make a decoder for `bool`; both calls return the
decoder of goroutine 1, which stored first. -/
example : ∃ s, Reach (fun _ _ => none) s ∧ s.log = [(.dec, .bool, .ok 1), (.dec, .bool, .ok 1)] ∧ s.made = [(.dec, .bool), (.dec, .bool)] := by
  refine ⟨_, .step (i := 0) (.step (i := 0) (.step (i := 0) (.step (i := 1) (.step (i := 1) (.step (i := 1) (.step (i := 1) (.step (i := 1)
    (.step (i := 1) (.step (i := 0) (.step (i := 0) (.step (i := 1) (.step (i := 1) (.step (i := 0) (.step (i := 1) (.step (i := 0)
    (.step (i := 1) (.step (i := 0) .refl
    (.call .dec .bool rfl)) (.call .dec .bool rfl)) (.rlock rfl rfl)) (.rlock rfl rfl)) (.get rfl)) (.get rfl)) (.runlock rfl)) (.runlock rfl))
    (.build rfl rfl)) (.build rfl rfl)) (.lock rfl rfl rfl)) (.miss rfl rfl)) (.make rfl)) (.store rfl rfl)) (.unlock rfl))
    (.lock rfl rfl rfl)) (.recheck (d := 1) rfl rfl)) (.leave rfl), rfl, rfl⟩

end Verif.Props
