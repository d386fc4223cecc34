import Verif.Proofs.Compact
import Verif.Props.UnUnmarshal

/-! # C121: parsing and serialising deletes the white space between tokens -/

namespace Verif.Props
open Verif Verif.Spec Verif.Njson Verif.Unjson

theorem solid_number {s : Bytes} (h : RfcNumber s) : Solid s := by
  obtain ⟨m, i, f, e, rfl, hm, hi, hf, he⟩ := h
  have hd : ∀ b : UInt8, IsDigitByte b → ¬ (b = 0x20 ∨ b = 0x09 ∨ b = 0x0A ∨ b = 0x0D) ∧ b ≠ 34 := by
    intro b
    unfold IsDigitByte
    revert b
    exact forall_byte (by decide +kernel)
  have hds : ∀ s, Digits s → Solid s := fun s h c hc => hd c (h.2 c hc)
  have ap : ∀ {a b : Bytes}, Solid a → Solid b → Solid (a ++ b) := by
    intro a b ha hb c hc
    rcases List.mem_append.1 hc with h | h
    · exact ha c h
    · exact hb c h
  refine ap (ap (ap ?_ ?_) ?_) ?_
  · rcases hm with rfl | rfl <;> (unfold Solid; decide)
  · rcases hi with rfl | h
    · unfold Solid; decide
    · exact hds _ h.1
  · rcases hf with rfl | ⟨ds, rfl, h⟩
    · unfold Solid; decide
    · exact ap (a := [46]) (by unfold Solid; decide) (hds _ h)
  · rcases he with rfl | ⟨e, sg, ds, rfl, h1, h2, h3⟩
    · unfold Solid; decide
    · refine ap (a := [e]) ?_ (ap ?_ (hds _ h3))
      · rcases h1 with rfl | rfl <;> (unfold Solid; decide)
      · rcases h2 with rfl | rfl | rfl <;> (unfold Solid; decide)

theorem compact_rfc {s : Bytes} {t : JVal} (h : RfcText s t) : compact s = t.ser := by
  obtain ⟨w, v, w', rfl, hw, hv, hw'⟩ := h
  have hg : GVal EscBody EscBody RfcNumber v t := gval_mono (fun s h => rfcBody_escBody h) (fun s h => rfcBody_escBody h) (fun _ h => h) hv
  unfold compact
  rw [List.append_assoc, compactFrom_ws hw, compact_gval (fun _ => solid_number) hg]
  have := compactFrom_ws hw' []
  rw [List.append_nil] at this
  rw [this]
  simp [compactFrom]

/-- **C121**, for everything that `Parse` accepts: the text that it has read, up to the tail, without some of its white space, is
what `AppendJSON` writes. So it writes no more bytes than were read. -/
theorem C121_dropped (d : Doc) (hwf : d.Wf) (s : Bytes) (d' : Doc) (id : Nat) (t : JVal) (r : Bytes)
    (h : Parses d s d' id t r) (fuel : Nat) (hf : t.size ≤ fuel) :
    ∃ v j, s = v ++ r ∧ appendJSON d'.get fuel [] id = some (j, false) ∧ DropsWs v j ∧ j.length ≤ v.length := by
  obtain ⟨w, v, hs, hw, hv, _⟩ := (C11_language d hwf s t r).1 ⟨d', id, h⟩
  have := DropsWs.ws hw (drops_gval hv)
  exact ⟨w ++ v, t.ser, hs, by simpa using appendJSON_reps h.2 hf [], this, this.sublist.length_le⟩

/-- **C121 (partial)**: for an RFC 8259 text whose string values end well, `Parse` succeeds and `AppendJSON` writes the text without the
white space outside of strings. Missing: a string value that has no escaped quote and ends in an escaped backslash (`C121_false`). -/
theorem C121_compact_partial (d : Doc) (hwf : d.Wf) (s : Bytes) (t : JVal) (h : RfcText s t) (hg : StringsEndWell t) :
    ∃ d' id r, d.parse s = (d', .ok id r) ∧ ∀ fuel, t.size ≤ fuel → appendJSON d'.get fuel [] id = some (compact s, false) := by
  obtain ⟨d', id, r, hp, _⟩ := C10_rfc_accepted_partial d hwf s t h hg
  refine ⟨d', id, r, hp.1, fun fuel hf => ?_⟩
  rw [compact_rfc h]
  simpa using appendJSON_reps hp.2 hf []

theorem rfc_lenient {s : Bytes} {t : JVal} (h : RfcText s t) (hg : StringsEndWell t) : AllRaw LenientStr EscBody LenientNum t := by
  obtain ⟨w, v, w', rfl, hw, hv, hw'⟩ := h
  exact gval_allRaw (gval_mono (fun s h => escBody_lenient (rfcBody_escBody h.1) h.2)
    (fun s h => rfcBody_escBody h.1) (fun s h => rfcNumber_lenient h.1) (gval_and hv hg))

/-- Two RFC 8259 texts denote the same tree exactly if they differ in white space outside of strings only. -/
theorem C121_same_iff {s1 s2 : Bytes} {t1 t2 : JVal} (h1 : RfcText s1 t1) (h2 : RfcText s2 t2) (hg1 : StringsEndWell t1) (hg2 : StringsEndWell t2) :
    compact s1 = compact s2 ↔ t1 = t2 := by
  rw [compact_rfc h1, compact_rfc h2]
  constructor
  · intro h
    have e1 := treeParse_ser (rfc_lenient h1 hg1)
    have e2 := treeParse_ser (rfc_lenient h2 hg2)
    rw [h] at e1
    rw [e1] at e2
    simp at e2
    exact e2
  · rintro rfl; rfl

/-- White space outside of strings does not matter to `Unmarshal`. -/
theorem C121_unmarshal_partial {U : Univ} (hU : U.Ok) (hE : U.EmbedsStructs) {t e : Ty} {x : GV} (ha : UnmarshalArg U t e x) (fuel : Nat)
    {d1 d2 : Doc} (hd1 : d1.Wf) (hd2 : d2.Wf) {s1 s2 : Bytes} {j1 j2 : JVal} (h1 : RfcText s1 j1) (h2 : RfcText s2 j2)
    (hg1 : StringsEndWell j1) (hg2 : StringsEndWell j2) (hc : compact s1 = compact s2) (r1 r2 : Out (Option (Ty × GV)))
    (hr1 : unmarshal U fuel d1 s1 (some (t, .ptr x)) = some r1) (hr2 : unmarshal U fuel d2 s2 (some (t, .ptr x)) = some r2) : r1 = r2 := by
  obtain rfl := (C121_same_iff h1 h2 hg1 hg2).1 hc
  obtain ⟨_, _, _, hp1, _⟩ := C10_rfc_accepted_partial d1 hd1 s1 _ h1 hg1
  obtain ⟨_, _, _, hp2, _⟩ := C10_rfc_accepted_partial d2 hd2 s2 _ h2 hg1
  exact C66_first_value hU hE ha fuel hd1 hd2 s1 s2 hp1 hp2 r1 r2 hr1 hr2

/-- The RFC 8259 text of three strings, the first of which is a backslash: `["\\",", 1,",",2"]` -/
def spaced : Bytes := b!"[\"\\\\\",\", 1,\",\",2\"]"

theorem rfc_spaced : RfcText spaced (.arr [.str b!"\\\\", .str b!", 1,", .str b!",2"]) := by
  refine ⟨[], spaced, [], (List.append_nil _).symm, IsWs.nil, ?_, IsWs.nil⟩
  have plain : ∀ l : List Char, (∀ c ∈ l, Unescapable c) → RfcBody (l.flatMap enc) := by
    intro l hl
    induction l with
    | nil => exact .nil
    | cons c l ih =>
      rw [List.flatMap_cons]
      exact .char c (hl c (by simp)) (ih fun x hx => hl x (by simp [hx]))
  have p1 : RfcBody b!", 1," := plain [',', ' ', '1', ','] (by unfold Unescapable; decide)
  have p2 : RfcBody b!",2" := plain [',', '2'] (by unfold Unescapable; decide)
  exact GVal.arr (w := []) (body := b!"\"\\\\\",\", 1,\",\",2\"") IsWs.nil
    (.cons (v := b!"\"\\\\\"") (w := []) (w' := []) (body := b!"\", 1,\",\",2\"") (.str (raw := b!"\\\\") (.short (e := 92) (v := 92) (by decide) .nil)) IsWs.nil IsWs.nil
      (.cons (v := b!"\", 1,\"") (w := []) (w' := []) (body := b!"\",2\"") (.str (raw := b!", 1,") p1) IsWs.nil IsWs.nil
        (.one (v := b!"\",2\"") (w := []) (.str (raw := b!",2") p2) IsWs.nil)))

/-- **C121 is false** of the code: white space within a string is lost, without an error. `["\\",", 1,",",2"]` has no white space
outside of strings; it is accepted and comes back as `["\\",",1,",",2"]`. -/
theorem C121_false : ¬ ∀ (d : Doc), d.Wf → ∀ s t, RfcText s t → ∀ d' id r, d.parse s = (d', .ok id r) →
    ∀ fuel j e, appendJSON d'.get fuel [] id = some (j, e) → j = compact s := by
  intro h
  have hp : (Doc.empty.parse spaced).2 = .ok 0 [] := by decide +kernel
  have h10 : appendJSON (Doc.empty.parse spaced).1.get 10 [] 0 = some (b!"[\"\\\\\",\",1,\",\",2\"]", false) := by decide +kernel
  have := h Doc.empty empty_wf _ _ rfc_spaced _ 0 [] (eta hp) 10 _ _ h10
  exact absurd this (by decide +kernel)

-- white space around every token, and within a string, where it is kept
example : compact b!" { \"a b\" : [ 1 , \" \\\" \" ]\n}\t" = b!"{\"a b\":[1,\" \\\" \"]}" := by decide +kernel
example : (let p := dirty.parse b!" { \"a b\" : [ 1 , \" \\\" \" ]\n}\t"; (p.2, appendJSON p.1.get 9 [] 1)) =
    (.ok 1 b!"\t", some (b!"{\"a b\":[1,\" \\\" \"]}", false)) := by decide +kernel

end Verif.Props
