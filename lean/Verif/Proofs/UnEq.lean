import Verif.Model.UnRun

/-! # Comparing values and results by computation (used for concrete examples only) -/

namespace Verif.Unjson

mutual
def GV.beq : GV → GV → Bool
  | .bool a, .bool b => a == b
  | .int a, .int b => decide (a = b)
  | .uint a, .uint b => a == b
  | .float a, .float b => decide (a = b)
  | .str a, .str b => decide (a = b)
  | .nilPtr, .nilPtr => true
  | .ptr a, .ptr b => GV.beq a b
  | .nilSlice, .nilSlice => true
  | .slice a n, .slice b m => GV.beqL a b && n == m
  | .array a, .array b => GV.beqL a b
  | .nilMap, .nilMap => true
  | .map a, .map b => GV.beqM a b
  | .nilIface, .nilIface => true
  | .iface t a, .iface u b => decide (t = u) && GV.beq a b
  | .struct a, .struct b => GV.beqL a b
  | .opaque, .opaque => true
  | _, _ => false
def GV.beqL : List GV → List GV → Bool
  | [], [] => true
  | a :: as, b :: bs => GV.beq a b && GV.beqL as bs
  | _, _ => false
def GV.beqM : List (GV × GV) → List (GV × GV) → Bool
  | [], [] => true
  | (a, a') :: as, (b, b') :: bs => GV.beq a b && GV.beq a' b' && GV.beqM as bs
  | _, _ => false
end

mutual
theorem GV.eq_of_beq : ∀ a b : GV, GV.beq a b = true → a = b
  | .bool a, b, h => by cases b <;> simp_all [GV.beq]
  | .int a, b, h => by cases b <;> simp_all [GV.beq]
  | .uint a, b, h => by cases b <;> simp_all [GV.beq]
  | .float a, b, h => by cases b <;> simp_all [GV.beq]
  | .str a, b, h => by cases b <;> simp_all [GV.beq]
  | .nilPtr, b, h => by cases b <;> simp_all [GV.beq]
  | .ptr a, b, h => by cases b <;> simp [GV.beq] at h; rw [GV.eq_of_beq _ _ h]
  | .nilSlice, b, h => by cases b <;> simp_all [GV.beq]
  | .slice a n, b, h => by cases b <;> simp [GV.beq] at h; rw [GV.eq_of_beqL _ _ h.1, h.2]
  | .array a, b, h => by cases b <;> simp [GV.beq] at h; rw [GV.eq_of_beqL _ _ h]
  | .nilMap, b, h => by cases b <;> simp_all [GV.beq]
  | .map a, b, h => by cases b <;> simp [GV.beq] at h; rw [GV.eq_of_beqM _ _ h]
  | .nilIface, b, h => by cases b <;> simp_all [GV.beq]
  | .iface t a, b, h => by cases b <;> simp [GV.beq] at h; rw [h.1, GV.eq_of_beq _ _ h.2]
  | .struct a, b, h => by cases b <;> simp [GV.beq] at h; rw [GV.eq_of_beqL _ _ h]
  | .opaque, b, h => by cases b <;> simp_all [GV.beq]
theorem GV.eq_of_beqL : ∀ a b : List GV, GV.beqL a b = true → a = b
  | [], b, h => by cases b <;> simp_all [GV.beqL]
  | a :: as, b, h => by
    cases b <;> simp [GV.beqL] at h
    rw [GV.eq_of_beq _ _ h.1, GV.eq_of_beqL _ _ h.2]
theorem GV.eq_of_beqM : ∀ a b : List (GV × GV), GV.beqM a b = true → a = b
  | [], b, h => by cases b <;> simp_all [GV.beqM]
  | (a, a') :: as, b, h => by
    cases b <;> simp [GV.beqM] at h
    rename_i p _
    obtain ⟨⟨h1, h2⟩, h3⟩ := h
    have e1 := GV.eq_of_beq _ _ h1
    have e2 := GV.eq_of_beq _ _ h2
    rw [GV.eq_of_beqM _ _ h3, e1, e2]
end

/-- Compare a result of a decoding call with an expected one. -/
def sameV (x : Option (Out GV)) (v : GV) (e : Option UErr) : Bool :=
  match x with
  | some (.done w f) => GV.beq w v && decide (f = e)
  | _ => false

theorem eq_of_sameV {x : Option (Out GV)} {v : GV} {e : Option UErr} (h : sameV x v e = true) : x = some (.done v e) := by
  unfold sameV at h
  split at h
  · simp at h; rw [GV.eq_of_beq _ _ h.1, h.2]
  · simp at h

/-- Compare a result of `Unmarshal` with an expected one. -/
def sameX (x : Option (Out (Option (Ty × GV)))) (t : Ty) (v : GV) (e : Option UErr) : Bool :=
  match x with
  | some (.done (some (u, w)) f) => decide (u = t) && GV.beq w v && decide (f = e)
  | _ => false

theorem eq_of_sameX {x : Option (Out (Option (Ty × GV)))} {t : Ty} {v : GV} {e : Option UErr} (h : sameX x t v e = true) :
    x = some (.done (some (t, v)) e) := by
  unfold sameX at h
  split at h
  · simp at h; rw [h.1.1, GV.eq_of_beq _ _ h.1.2, h.2]
  · simp at h

def isPanic {α : Type} : Option (Out α) → Bool
  | some .panic => true
  | _ => false

theorem eq_of_isPanic {α : Type} {x : Option (Out α)} (h : isPanic x = true) : x = some .panic := by
  unfold isPanic at h
  split at h
  · rfl
  · simp at h

/-- Compare a result of an encoding call with an expected one. -/
def sameB (x : Option (Out Bytes)) (b : Bytes) (e : Option UErr) : Bool :=
  match x with
  | some (.done c f) => decide (c = b) && decide (f = e)
  | _ => false

theorem eq_of_sameB {x : Option (Out Bytes)} {b : Bytes} {e : Option UErr} (h : sameB x b e = true) : x = some (.done b e) := by
  unfold sameB at h
  split at h
  · simp at h; rw [h.1, h.2]
  · simp at h

end Verif.Unjson
