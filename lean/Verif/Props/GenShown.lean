import Verif.Proofs.GenShown
import Verif.Props.GenAppend

/-! # A generated AppendJSON sees only what it writes (C150) -/

namespace Verif.Props
open Verif Verif.Float Verif.Spec Verif.Njson Verif.Unjson Verif.Gen

/-- A block for a struct without marshal methods is not a call of a method. -/
theorem runAppender_struct {E : Env} {o : GenOptions} {fuel : Nat} {j : Nat} {b : ABlock} (h : typeAppender E o (fuel + 1) (.struct j) [] = .ok b)
    (hm : NoMarshal E.U (.struct j)) (fs : List GV) (out : Bytes) :
    runAppender E.U o b (.struct j) (.ptr (.struct fs)) out = some (b.run E.U (.ptr (.struct j)) (.ptr (.struct fs)) out) := by
  rw [typeAppender_plain hm] at h
  unfold runAppender
  rw [if_neg (by simp [GV.isNil])]
  cases b <;> first | rfl | skip
  simp only [plainBlock, Univ.base] at h
  cases hq : pickFields E o (typeAppender E o fuel) (.struct j) (appendPicks E o j) <;> rw [hq] at h <;> cases h

/-- **C150**: the generated `AppendJSON` of a struct type does the same for two values that differ only in what is not written: it returns the same bytes and
the same error, or it panics on both. The fields that take part may differ in the same way (`SameWritten`). -/
theorem C150_append {E : Env} (hE : E.Ok) {o : GenOptions} {fuel : Nat} {j : Nat} {b : ABlock} (h : typeAppender E o fuel (.struct j) [] = .ok b)
    (hm : NoMarshal E.U (.struct j)) {fs fs' : List GV} (hv : HasTy E.U (.struct j) (.struct fs)) (hv' : HasTy E.U (.struct j) (.struct fs'))
    (h1 : ∀ p ∈ appendPicks E o j, look (.struct fs) p.field.path = none ↔ look (.struct fs') p.field.path = none)
    (h2 : ∀ p ∈ appendPicks E o j, ∀ x y, look (.struct fs) p.field.path = some x → look (.struct fs') p.field.path = some y →
      SameWritten E o p.field.typ x y) (out : Bytes) :
    runAppender E.U o b (.struct j) (.ptr (.struct fs)) out = runAppender E.U o b (.struct j) (.ptr (.struct fs')) out := by
  cases fuel with
  | zero => cases h
  | succ fuel =>
    rw [runAppender_struct h hm, runAppender_struct h hm,
      struct_written hE (T := .ptr (.struct j)) (.inr rfl) hm (.ptr rfl hv) (.ptr rfl hv') (by simp) (by simp) (look_ptr fs) (look_ptr fs')
        (fun h => written_run hE fuel h) h h1 h2 out]

/-- **C150**: a field through which no field that takes part is reached can have any value. -/
theorem C150_field {E : Env} (hE : E.Ok) {o : GenOptions} {fuel : Nat} {j : Nat} {b : ABlock} (h : typeAppender E o fuel (.struct j) [] = .ok b)
    (hm : NoMarshal E.U (.struct j)) {fs : List GV} (hv : HasTy E.U (.struct j) (.struct fs)) {i : Nat} {f : Field} (hi : (E.U.fields j)[i]? = some f)
    {x : GV} (hx : HasTy E.U f.typ x) (hn : ∀ p ∈ appendPicks E o j, p.field.path.head? ≠ some i) (out : Bytes) :
    runAppender E.U o b (.struct j) (.ptr (.struct (fs.set i x))) out = runAppender E.U o b (.struct j) (.ptr (.struct fs)) out := by
  have same : ∀ p ∈ appendPicks E o j, look (.struct (fs.set i x)) p.field.path = look (.struct fs) p.field.path := by
    intro p hp
    have hne := hE.nonempty j _ (mem_appendPicks hp).1
    have := hn p hp
    cases hq : p.field.path with
    | nil => exact absurd hq hne
    | cons k is =>
      rw [hq] at this
      have hk : i ≠ k := fun h => this (by rw [h]; rfl)
      rw [look, look, List.getElem?_set_ne hk]
  have hv' : HasTy E.U (.struct j) (.struct (fs.set i x)) := by
    obtain ⟨fs', he, hl, hall⟩ := hv.inv_struct rfl
    cases he
    refine .struct rfl (by simpa using hl) ?_
    intro k g y hg hy
    by_cases hk : i = k
    · subst hk
      rw [hi] at hg; cases hg
      rw [List.getElem?_set] at hy
      split at hy
      · split at hy
        · cases hy; exact hx
        · cases hy
      · contradiction
    · rw [List.getElem?_set_ne hk] at hy
      exact hall k g y hg hy
  refine C150_append hE h hm hv' hv (fun p hp => by rw [same p hp]) (fun p hp y z hy hz => ?_) out
  rw [same p hp, hz] at hy
  cases hy
  exact .same

/-- In `type T struct { A int "x"; B string "x" }` the field B has a name that A has: its value does not matter. -/
theorem C150_hidden (s s' out : Bytes) (i : Int) (hi : HasTy genU (.int .std) (.int i)) : ∃ b, typeAppender genE {} 10 (.struct 16) [] = .ok b ∧
    appenderCompiles genE b (.struct 16) = true ∧
    runAppender genE.U {} b (.struct 16) (.ptr (.struct [.int i, .str s])) out = runAppender genE.U {} b (.struct 16) (.ptr (.struct [.int i, .str s'])) out := by
  obtain ⟨b, h1, h2⟩ := genOk_iff (E := genE) (o := {}) (t := .struct 16) (P := fun b => appenderCompiles genE b (.struct 16)) (by decide +kernel)
  refine ⟨b, h1, h2, ?_⟩
  have hv : HasTy genE.U (.struct 16) (.struct [.int i, .str s']) := by
    refine .struct rfl rfl ?_
    intro k f v hf hv
    match k with
    | 0 => cases hf; cases hv; exact hi
    | 1 => cases hf; cases hv; exact .str rfl
    | k + 2 => cases hf
  exact C150_field genE_ok h1 (noM (by simp)) hv (i := 1) (f := _) (by rfl) (x := .str s) (.str rfl) (by decide +kernel) out

/-- A slice that is nil is written like one that is empty, whatever is behind its length. -/
theorem C150_spare (arr : List GV) (hs : HasTy genU (.slice (.int .std)) (.slice arr 0)) (out : Bytes) : ∃ b, typeAppender genE {} 10 (.struct 17) [] = .ok b ∧
    appenderCompiles genE b (.struct 17) = true ∧
    runAppender genE.U {} b (.struct 17) (.ptr (.struct [.nilSlice])) out = runAppender genE.U {} b (.struct 17) (.ptr (.struct [.slice arr 0])) out := by
  obtain ⟨b, h1, h2⟩ := genOk_iff (E := genE) (o := {}) (t := .struct 17) (P := fun b => appenderCompiles genE b (.struct 17)) (by decide +kernel)
  refine ⟨b, h1, h2, ?_⟩
  have ty : ∀ v, HasTy genU (.slice (.int .std)) v → HasTy genE.U (.struct 17) (.struct [v]) := by
    intro v hv
    refine .struct rfl rfl ?_
    intro k f v' hf hv'
    match k with
    | 0 => cases hf; cases hv'; exact hv
    | k + 1 => cases hf
  have hp : appendPicks genE {} 17 = [⟨b!"l", [], gfld b!"L" (.slice (.int .std)) 0 b!"l"⟩] := rfl
  refine C150_append genE_ok h1 (noM (by simp)) (ty _ (.nilSlice rfl)) (ty _ hs) ?_ ?_ out
  · intro p hm
    rw [hp, List.mem_singleton] at hm
    subst hm
    simp [look, gfld]
  · intro p hm x y hx hy
    rw [hp, List.mem_singleton] at hm
    subst hm
    cases hx; cases hy
    exact .nilSlice rfl ⟨noM (by simp [gfld]), rfl⟩

/-- What a struct has in a field that takes part does matter. -/
theorem C150_seen : ∃ b, typeAppender genE {} 10 (.struct 16) [] = .ok b ∧
    runAppender genE.U {} b (.struct 16) (.ptr (.struct [.int 1, .str []])) [] ≠ runAppender genE.U {} b (.struct 16) (.ptr (.struct [.int 2, .str []])) [] := by
  obtain ⟨b, h1, h2⟩ := genOk_iff (E := genE) (o := {}) (t := .struct 16) (P := fun b =>
    sameB (runAppender genE.U {} b (.struct 16) (.ptr (.struct [.int 1, .str []])) []) b!"{\"x\":1}" none &&
    sameB (runAppender genE.U {} b (.struct 16) (.ptr (.struct [.int 2, .str []])) []) b!"{\"x\":2}" none) (by decide +kernel)
  rw [Bool.and_eq_true] at h2
  refine ⟨b, h1, ?_⟩
  rw [eq_of_sameB h2.1, eq_of_sameB h2.2]
  intro h
  injection h with h
  injection h with h
  exact absurd h (by decide)

end Verif.Props
