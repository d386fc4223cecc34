import Verif.Proofs.GenFile

/-! # Proofs about the command `njson`: imports, and whether the file compiles -/

namespace Verif.GenFile
open Verif Verif.Njson Verif.Unjson Verif.Gen

mutual
theorem aMentions_eq : ∀ b : ABlock, aMentions b = aImports b
  | .callAppend => rfl
  | .callJSON => rfl
  | .callText => rfl
  | .ptr b => by simp only [aMentions, aImports, aMentions_eq b]
  | .map k b => by simp only [aMentions, aImports, aMentions_eq k, aMentions_eq b]
  | .slice b => by simp only [aMentions, aImports, aMentions_eq b]
  | .struct fs => by simp only [aMentions, aImports, aMentionsF_eq fs]
  | .bool => rfl
  | .raw => rfl
  | .str => rfl
  | .float => rfl
  | .uint => rfl
  | .int => rfl
  | .any => rfl
theorem aMentionsF_eq : ∀ fs : AFields, aMentionsF fs = aImportsF fs
  | .nil => rfl
  | .cons _ _ _ _ b rest => by simp only [aMentionsF, aImportsF, aMentions_eq b, aMentionsF_eq rest]
end

mutual
/-- There is no code for durations. -/
def noDuration : UBlock → Bool
  | .duration => false
  | .slice _ b => noDuration b
  | .ptr _ b => noDuration b
  | .map _ _ b => noDuration b
  | .struct cs => noDurationC cs
  | _ => true
def noDurationC : UCases → Bool
  | .nil => true
  | .cons _ _ _ b rest => noDuration b && noDurationC rest
end

theorem elemTy_of {U : Univ} {rt : Ty} {P : Ty → Bool} (h : elemTy U rt P = true) : ∃ t, P t = true := by
  unfold elemTy at h
  split at h
  · exact ⟨_, h⟩
  · cases h

mutual
theorem noDuration_of_compiles {E : Env} : ∀ {b : UBlock} {rt : Ty}, b.compiles E rt = true → noDuration b = true
  | .duration, _, h => by simp [UBlock.compiles] at h
  | .slice _ b, _, h => by
    rw [UBlock.compiles] at h
    obtain ⟨t, h⟩ := elemTy_of h
    simp only [Bool.and_eq_true] at h
    exact noDuration_of_compiles (b := b) h.1.2
  | .ptr _ b, _, h => by
    rw [UBlock.compiles] at h
    obtain ⟨t, h⟩ := elemTy_of h
    simp only [Bool.and_eq_true] at h
    exact noDuration_of_compiles (b := b) h.1.2
  | .map _ _ b, _, h => by
    rw [UBlock.compiles] at h
    obtain ⟨t, h⟩ := elemTy_of h
    simp only [Bool.and_eq_true] at h
    exact noDuration_of_compiles (b := b) h.1.1.2
  | .struct cs, _, h => by
    rw [UBlock.compiles] at h
    exact noDurationC_of_compiles (cs := cs) h
  | .time, _, _ => rfl
  | .callNode, _, _ => rfl
  | .callJSON, _, _ => rfl
  | .callText, _, _ => rfl
  | .any, _, _ => rfl
  | .bool _, _, _ => rfl
  | .str _, _, _ => rfl
  | .raw _, _, _ => rfl
  | .int _, _, _ => rfl
  | .uint _, _, _ => rfl
  | .float _, _, _ => rfl
theorem noDurationC_of_compiles {E : Env} : ∀ {cs : UCases} {rt : Ty}, cs.compiles E rt = true → noDurationC cs = true
  | .nil, _, _ => rfl
  | .cons _ _ path b rest, rt, h => by
    rw [UCases.compiles] at h
    simp only [Bool.and_eq_true] at h
    obtain ⟨⟨_, h1⟩, h2⟩ := h
    cases hp : pathTy E.U rt path with
    | none => rw [hp] at h1; cases h1
    | some t' =>
      rw [hp] at h1
      simp only [Bool.and_eq_true] at h1
      rw [noDurationC, noDuration_of_compiles (b := b) h1.1, noDurationC_of_compiles (cs := rest) h2]
      rfl
end

mutual
theorem uMentions_mem : ∀ b : UBlock, noDuration b = true → ∀ p, (p = njsonPkg ∨ p ∈ uMentions b) ↔ (p = njsonPkg ∨ p ∈ uImports b)
  | .duration, h, _ => by simp [noDuration] at h
  | .slice _ b, h, p => by
    have := uMentions_mem b h p
    simp only [uMentions, uImports, List.mem_cons]
    tauto
  | .ptr _ b, h, p => by
    have := uMentions_mem b h p
    simp only [uMentions, uImports, List.mem_cons]
    tauto
  | .map _ _ b, h, p => by
    have := uMentions_mem b h p
    simp only [uMentions, uImports, List.mem_cons]
    tauto
  | .struct cs, h, p => by
    have := uMentionsC_mem cs h p
    simp only [uMentions, uImports, List.mem_cons]
    tauto
  | .time, _, _ => Iff.rfl
  | .callNode, _, _ => Iff.rfl
  | .callJSON, _, _ => Iff.rfl
  | .callText, _, _ => Iff.rfl
  | .any, _, _ => Iff.rfl
  | .bool _, _, _ => Iff.rfl
  | .str _, _, _ => Iff.rfl
  | .raw _, _, _ => Iff.rfl
  | .int _, _, _ => Iff.rfl
  | .uint _, _, _ => Iff.rfl
  | .float _, _, _ => Iff.rfl
theorem uMentionsC_mem : ∀ cs : UCases, noDurationC cs = true → ∀ p, (p = njsonPkg ∨ p ∈ uMentionsC cs) ↔ (p = njsonPkg ∨ p ∈ uImportsC cs)
  | .nil, _, _ => Iff.rfl
  | .cons _ _ _ b rest, h, p => by
    rw [noDurationC, Bool.and_eq_true] at h
    have h1 := uMentions_mem b h.1 p
    have h2 := uMentionsC_mem rest h.2 p
    simp only [uMentionsC, uImportsC, List.mem_append]
    tauto
end

/-- There is no code for durations. -/
def Method.noDuration : Method → Bool
  | .append _ _ _ _ => true
  | .unmarshal _ _ _ b => GenFile.noDuration b

theorem Method.mentions_mem {m : Method} (h : m.noDuration = true) (p : Pkg) : p ∈ m.mentions ↔ p ∈ m.imports := by
  cases m with
  | append _ _ _ b => simp only [Method.mentions, Method.imports, aMentions_eq]
  | unmarshal _ _ _ b =>
    have := uMentions_mem b h p
    simp only [Method.mentions, Method.imports, List.mem_cons, List.mem_append, List.not_mem_nil, or_false]
    tauto

theorem Method.noDuration_of_compiles {P : Package} {m : Method} (h : m.compiles P = true) : m.noDuration = true := by
  cases m with
  | append _ _ _ b => rfl
  | unmarshal r typ _ b =>
    simp only [Method.compiles, Bool.and_eq_true] at h
    cases hl : P.lookup typ with
    | none => rw [hl] at h; cases h.2
    | some t =>
      rw [hl] at h
      have h := h.2
      simp only [unmarshalerCompiles, Bool.and_eq_true] at h
      exact GenFile.noDuration_of_compiles h.1.2

/-! ## Receivers -/

theorem receiver_ok {t : Bytes} (h : IdentName t) : (receiver t ≠ b!"_" ∧ isIdent (receiver t) = true) ↔ AsciiName t := by
  obtain ⟨c, s, rfl, hc⟩ := h
  have key : ∀ c : UInt8, (65 ≤ c ∧ c ≤ 90 ∨ 97 ≤ c ∧ c ≤ 122 ∨ c = 95 ∨ 0x80 ≤ c) →
      ((receiver [c] ≠ b!"_" ∧ isIdent (receiver [c]) = true) ↔ (65 ≤ c ∧ c ≤ 90 ∨ 97 ≤ c ∧ c ≤ 122)) :=
    forall_byte (by decide +kernel)
  have e : receiver (c :: s) = receiver [c] := rfl
  rw [e, key c hc]
  constructor
  · exact fun h => ⟨c, s, rfl, h⟩
  · rintro ⟨c', s', h, h'⟩
    cases h
    exact h'

end Verif.GenFile
