import Verif.Spec.GenFile
import Verif.Proofs.GenCompile
import Verif.Proofs.GenDecCompile

/-! # Proofs about the command `njson` -/

namespace Verif.GenFile
open Verif Verif.Njson Verif.Unjson Verif.Gen

/-! ## The parts of `main` -/

theorem bind_ok {α β : Type} {a : Run α} {f : α → Run β} {b : β} (h : a.bind f = .ok b) : ∃ x, a = .ok x ∧ f x = .ok b := by
  cases a with
  | ok x => exact ⟨x, rfl, h⟩
  | fatal e => cases h
  | diverge => cases h

theorem special_iff (c : UInt8) : special c = true ↔ c ∈ metaBytes := by simp [special, metaBytes]

theorem quoteMeta_eq (s : Bytes) : quoteMeta s = s ↔ ∀ c ∈ s, c ∉ metaBytes := by
  have hlen : ∀ s : Bytes, s.length ≤ (quoteMeta s).length := by
    intro s
    induction s with
    | nil => simp [quoteMeta]
    | cons c s ih =>
      have : quoteMeta (c :: s) = (if special c then [92, c] else [c]) ++ quoteMeta s := rfl
      rw [this]
      split <;> simp <;> omega
  induction s with
  | nil => simp [quoteMeta]
  | cons c s ih =>
    have hq : quoteMeta (c :: s) = (if special c then [92, c] else [c]) ++ quoteMeta s := rfl
    rw [hq]
    by_cases hc : special c = true
    · rw [if_pos hc]
      constructor
      · intro h
        have := congrArg List.length h
        have h2 := hlen s
        simp at this
        omega
      · intro h
        exact absurd ((special_iff c).1 hc) (h c List.mem_cons_self)
    · rw [if_neg hc]
      rw [special_iff] at hc
      simp only [List.cons_append, List.nil_append, List.cons.injEq, true_and, ih, List.mem_cons]
      constructor
      · rintro h d (rfl | hd)
        · exact hc
        · exact h d hd
      · exact fun h d hd => h d (.inr hd)

theorem star_meta : ∃ c ∈ b!"*", c ∈ metaBytes := ⟨42, by decide, by decide⟩

theorem typeFilter_ok {W : World} {pat : Bytes} {ok : Bytes → Bool} (h : typeFilter W pat = .ok ok) (name : Bytes) :
    ok name = true ↔ Selects W pat name := by
  unfold typeFilter at h
  unfold Selects
  by_cases h0 : pat = [] ∨ pat = b!"*"
  · rw [if_pos h0] at h
    cases h
    simp only [true_iff]
    tauto
  rw [if_neg h0] at h
  by_cases hq : quoteMeta pat = pat
  · rw [if_pos hq] at h
    cases h
    rw [quoteMeta_eq] at hq
    simp only [decide_eq_true_eq]
    constructor
    · exact fun h => .inr (.inr (.inl ⟨hq, h⟩))
    · rintro (h | h | ⟨_, h⟩ | ⟨⟨c, hc, hm⟩, _⟩)
      · exact absurd (.inl h) h0
      · exact absurd (.inr h) h0
      · exact h
      · exact absurd hm (hq c hc)
  · rw [if_neg hq] at h
    rw [quoteMeta_eq] at hq
    push Not at hq
    split at h
    · cases h
    · rename_i rx hrx
      cases h
      constructor
      · exact fun h => .inr (.inr (.inr ⟨hq, _, hrx, h⟩))
      · rintro (h | h | ⟨h, _⟩ | ⟨_, rx', hrx', h⟩)
        · exact absurd (.inl h) h0
        · exact absurd (.inr h) h0
        · obtain ⟨c, hc, hm⟩ := hq
          exact absurd hm (h c hc)
        · rw [hrx] at hrx'
          cases hrx'
          exact h

/-- When there is a filter -/
theorem typeFilter_total {W : World} {pat : Bytes} : (∃ ok, typeFilter W pat = .ok ok) ↔
    (pat = b!"*" ∨ (∀ c ∈ pat, c ∉ metaBytes) ∨ ∃ rx, W.compile pat = some rx) := by
  unfold typeFilter
  by_cases h0 : pat = [] ∨ pat = b!"*"
  · rw [if_pos h0]
    simp only [Run.ok.injEq, exists_eq', true_iff]
    rcases h0 with rfl | rfl
    · exact .inr (.inl (by simp))
    · exact .inl rfl
  rw [if_neg h0]
  push Not at h0
  by_cases hq : quoteMeta pat = pat
  · rw [if_pos hq]
    rw [quoteMeta_eq] at hq
    exact ⟨fun _ => .inr (.inl hq), fun _ => ⟨_, rfl⟩⟩
  · rw [if_neg hq]
    rw [quoteMeta_eq] at hq
    cases hc : W.compile pat with
    | none => simp [h0.2, hq]
    | some rx => simp

theorem options_ok {W : World} {f : Flags} {o : GenOptions} : options W f = .ok o ↔ Asked W f o := by
  have hn : ∀ fn : Bytes → Bytes, (fn = if f.caseMode ≠ b!"none" then transformCase W f.caseMode else id) ↔
      (f.caseMode = b!"snake" ∧ fn = W.snake ∨ f.caseMode = b!"lower" ∧ fn = W.lower ∨
      f.caseMode = b!"camel" ∧ fn = W.camel ∨ f.caseMode = b!"Camel" ∧ fn = W.upperCamel ∨
      f.caseMode ∉ [b!"snake", b!"lower", b!"camel", b!"Camel"] ∧ fn = id) := by
    intro fn
    unfold transformCase
    by_cases h0 : f.caseMode = b!"none"
    · rw [h0]; simp
    rw [if_pos h0]
    by_cases h1 : f.caseMode = b!"snake"
    · rw [h1]; simp
    rw [if_neg h1]
    by_cases h2 : f.caseMode = b!"lower"
    · rw [h2]; simp
    rw [if_neg h2]
    by_cases h3 : f.caseMode = b!"camel"
    · rw [h3]; simp
    rw [if_neg h3]
    by_cases h4 : f.caseMode = b!"Camel"
    · rw [h4]; simp
    rw [if_neg h4]
    simp [h1, h2, h3, h4]
  unfold options
  constructor
  · intro h
    by_cases hm : f.matchName ≠ b!".*"
    · rw [if_pos hm] at h
      split at h
      · cases h
      · rename_i rx hrx
        cases h
        exact ⟨rfl, rfl, rfl, rfl, .inr ⟨hm, hrx⟩, (hn _).1 rfl, rfl, rfl⟩
    · rw [if_neg hm] at h
      cases h
      exact ⟨rfl, rfl, rfl, rfl, .inl ⟨not_not.1 hm, rfl⟩, (hn _).1 rfl, rfl, rfl⟩
  · rintro ⟨h1, h2, h3, h4, h5, h6, h7, h8⟩
    obtain ⟨tk, om, sn, oe, ot, fo, mf, fn⟩ := o
    simp only at h1 h2 h3 h4 h5 h6 h7 h8
    replace h6 := (hn fn).2 h6
    subst h1 h2 h3 h4 h6 h7 h8
    rcases h5 with ⟨hm, rfl⟩ | ⟨hm, hc⟩
    · rw [if_neg (not_not.2 hm)]
    · rw [if_pos hm, hc]

theorem trimExt_spec (d name : Bytes) : name = trimExt d ↔ ((46 ∉ d ∧ name = d) ∨ ∃ ext, d = name ++ 46 :: ext ∧ 46 ∉ ext) := by
  unfold trimExt
  by_cases hd : (46 : UInt8) ∈ d
  · rw [if_pos hd]
    have hsplit : ∀ r : Bytes, (46 : UInt8) ∈ r → ∃ a b, r = a ++ 46 :: b ∧ 46 ∉ a ∧ (r.dropWhile (· ≠ 46)).drop 1 = b := by
      intro r
      induction r with
      | nil => simp
      | cons c r ih =>
        intro h
        by_cases hc : c = 46
        · exact ⟨[], r, by simp [hc], by simp, by simp [hc]⟩
        · obtain ⟨a, b, h1, h2, h3⟩ := ih (by simpa [Ne.symm hc] using h)
          exact ⟨c :: a, b, by simp [h1], by simp [h2, Ne.symm hc], by simpa [hc] using h3⟩
    obtain ⟨a, b, h1, h2, h3⟩ := hsplit d.reverse (by simpa using hd)
    rw [h3]
    have hde : d = b.reverse ++ 46 :: a.reverse := by
      have := congrArg List.reverse h1
      simpa using this
    constructor
    · rintro rfl
      exact .inr ⟨a.reverse, hde, by simpa using h2⟩
    · rintro (⟨h, _⟩ | ⟨ext, he, hx⟩)
      · exact absurd hd h
      · have : a ++ 46 :: b = ext.reverse ++ 46 :: name.reverse := by
          rw [← h1, he]; simp
        have key : ∀ (a e b n : Bytes), (46 : UInt8) ∉ a → 46 ∉ e → a ++ 46 :: b = e ++ 46 :: n → b = n := by
          intro a
          induction a with
          | nil =>
            intro e b n _ he h
            cases e with
            | nil => simpa using h
            | cons x e =>
              simp only [List.nil_append, List.cons_append, List.cons.injEq] at h
              exact absurd (h.1 ▸ List.mem_cons_self) he
          | cons x a ih =>
            intro e b n ha he h
            cases e with
            | nil =>
              simp only [List.nil_append, List.cons_append, List.cons.injEq] at h
              exact absurd (h.1 ▸ List.mem_cons_self) ha
            | cons y e =>
              simp only [List.cons_append, List.cons.injEq] at h
              exact ih e b n (fun hh => ha (List.mem_cons_of_mem _ hh)) (fun hh => he (List.mem_cons_of_mem _ hh)) h.2
        have := key _ _ _ _ h2 (by simpa using hx) this
        rw [this]; simp
  · rw [if_neg hd]
    constructor
    · exact fun h => .inl ⟨hd, h⟩
    · rintro (⟨_, h⟩ | ⟨ext, he, _⟩)
      · exact h
      · rw [he] at hd
        simp at hd

theorem packageName_ok {W : World} {f : Flags} {args : List Bytes} {name : Bytes} : packageName W f args = .ok name ↔ PackageName W f args name := by
  unfold packageName PackageName
  rcases args with _ | ⟨a, rest⟩
  · simp only [List.getElem?_nil, Option.getD_none, ne_eq, not_true_eq_false, if_false]
    cases hb : W.absBase f.path with
    | none => simp
    | some d => simp [← trimExt_spec]; exact eq_comm
  · simp only [List.getElem?_cons_zero, Option.getD_some]
    by_cases ha : a = []
    · subst ha
      simp only [ne_eq, not_true_eq_false, if_false]
      cases hb : W.absBase f.path with
      | none => simp
      | some d =>
        simp [← trimExt_spec]
        exact eq_comm
    · rw [if_pos ha]
      constructor
      · intro h
        cases h
        exact .inl ⟨rest, rfl, ha⟩
      · rintro (⟨r, h, _⟩ | ⟨h | ⟨r, h⟩, _⟩)
        · cases h; rfl
        · cases h
        · cases h; exact absurd rfl ha

/-! ## The loop -/

theorem wants_unmarshal (f : Flags) : (f.unmarshal || f.append == f.unmarshal) = decide f.wantsUnmarshal := by
  have : ∀ u a : Bool, (u || a == u) = decide (u = true ∨ a = false) := by decide
  exact (this f.unmarshal f.append).trans (by unfold Flags.wantsUnmarshal; congr)

theorem wants_append (f : Flags) : (f.append || f.append == f.unmarshal) = decide f.wantsAppend := by
  have : ∀ u a : Bool, (a || a == u) = decide (a = true ∨ u = false) := by decide
  exact (this f.unmarshal f.append).trans (by unfold Flags.wantsAppend; congr)

theorem importAll_other (g : Generator) (ps : List Pkg) : (g.importAll ps).buffer = g.buffer ∧ (g.importAll ps).name = g.name := by
  unfold Generator.importAll
  induction ps generalizing g with
  | nil => exact ⟨rfl, rfl⟩
  | cons p ps ih =>
    rw [List.foldl_cons]
    obtain ⟨h1, h2⟩ := ih (addImport g p)
    rw [h1, h2]
    unfold addImport
    split <;> exact ⟨rfl, rfl⟩

theorem writeUnmarshaler_ok {odd : List Method → Bool} {P : Package} {o : GenOptions} {N : Names} {fuel : Nat} {g g' : Generator} {typ : Bytes} :
    writeUnmarshaler odd P o N fuel g typ = .ok g' ↔ ∃ t b, P.lookup typ = some t ∧ typeUnmarshaler P.env o fuel t = .ok b ∧
      parses odd [.unmarshal (receiver typ) typ N.unmarshal b] = true ∧
      g' = { g.importAll (uImports b ++ [njsonPkg]) with buffer := g.buffer ++ [.unmarshal (receiver typ) typ N.unmarshal b] } := by
  unfold writeUnmarshaler
  cases hl : P.lookup typ with
  | none => simp
  | some t =>
    simp only [Option.some.injEq, exists_and_left, exists_eq_left']
    cases hb : typeUnmarshaler P.env o fuel t with
    | diverge => simp
    | err e => simp
    | ok b =>
      simp only [Res.ok.injEq, exists_eq_left']
      by_cases hp : parses odd [.unmarshal (receiver typ) typ N.unmarshal b] = true
      · rw [if_pos hp, (importAll_other _ _).1]
        simp [hp, eq_comm]
      · rw [if_neg hp]
        simp [hp]

theorem writeAppender_ok {P : Package} {o : GenOptions} {N : Names} {fuel : Nat} {g g' : Generator} {typ : Bytes} :
    writeAppender P o N fuel g typ = .ok g' ↔ ∃ t b, P.lookup typ = some t ∧ typeAppender P.env o fuel t [] = .ok b ∧
      g' = { g.importAll (aImports b) with buffer := g.buffer ++ [.append (receiver typ) typ N.append b] } := by
  unfold writeAppender
  cases hl : P.lookup typ with
  | none => simp
  | some t =>
    simp only [Option.some.injEq, exists_and_left, exists_eq_left']
    cases hb : typeAppender P.env o fuel t [] with
    | diverge => simp
    | err e => simp
    | ok b =>
      simp only [Res.ok.injEq, exists_eq_left']
      rw [(importAll_other _ _).1]
      simp [eq_comm]

/-! ## Imports -/

/-- The packages of the templates -/
def knownPkgs : List Pkg := [njsonPkg, strjsonPkg, numjsonPkg, jsonPkg, strconvPkg, timePkg]

theorem known_path : ∀ p ∈ knownPkgs, ∀ q ∈ knownPkgs, p.path = q.path → p = q := by decide
theorem known_name : ∀ p ∈ knownPkgs, ∀ q ∈ knownPkgs, p.name = q.name → p = q := by decide

mutual
theorem aImports_known : ∀ b : ABlock, ∀ p ∈ aImports b, p ∈ knownPkgs
  | .callAppend, _, h => by simp [aImports] at h
  | .callJSON, _, h => by simp [aImports] at h
  | .callText, _, h => by simp [aImports] at h
  | .ptr b, p, h => aImports_known b p h
  | .map k b, p, h => (List.mem_append.1 h).elim (aImports_known k p) (aImports_known b p)
  | .slice b, p, h => aImports_known b p h
  | .struct fs, p, h => aImportsF_known fs p h
  | .bool, _, h => by simp [aImports] at h
  | .raw, _, h => by simp [aImports] at h
  | .str, _, h => by simp [aImports] at h; subst h; decide
  | .float, _, h => by simp [aImports] at h; subst h; decide
  | .uint, _, h => by simp [aImports] at h; subst h; decide
  | .int, _, h => by simp [aImports] at h; subst h; decide
  | .any, _, h => by simp [aImports] at h; subst h; decide
theorem aImportsF_known : ∀ fs : AFields, ∀ p ∈ aImportsF fs, p ∈ knownPkgs
  | .nil, _, h => by simp [aImportsF] at h
  | .cons _ _ _ _ b rest, p, h => (List.mem_append.1 h).elim (aImports_known b p) (aImportsF_known rest p)
end

theorem njson_known : njsonPkg ∈ knownPkgs := by decide

mutual
theorem uImports_known : ∀ b : UBlock, ∀ p ∈ uImports b, p ∈ knownPkgs
  | .time, _, h => by simp [uImports] at h; subst h; decide
  | .duration, _, h => by simp [uImports] at h; subst h; decide
  | .callNode, _, h => by simp [uImports] at h
  | .callJSON, _, h => by simp [uImports] at h
  | .callText, _, h => by simp [uImports] at h
  | .slice _ b, p, h => (List.mem_cons.1 h).elim (fun e => e ▸ njson_known) (uImports_known b p)
  | .ptr _ b, p, h => uImports_known b p h
  | .map _ _ b, p, h => (List.mem_cons.1 h).elim (fun e => e ▸ njson_known) (uImports_known b p)
  | .struct cs, p, h => (List.mem_cons.1 h).elim (fun e => e ▸ njson_known) (uImportsC_known cs p)
  | .any, _, h => by simp [uImports] at h; subst h; decide
  | .bool _, _, h => by simp [uImports] at h; subst h; decide
  | .str _, _, h => by simp [uImports] at h
  | .raw _, _, h => by simp [uImports] at h
  | .int _, _, h => by simp [uImports] at h; subst h; decide
  | .uint _, _, h => by simp [uImports] at h; subst h; decide
  | .float _, _, h => by simp [uImports] at h; subst h; decide
theorem uImportsC_known : ∀ cs : UCases, ∀ p ∈ uImportsC cs, p ∈ knownPkgs
  | .nil, _, h => by simp [uImportsC] at h
  | .cons _ _ _ b rest, p, h => (List.mem_append.1 h).elim (uImports_known b p) (uImportsC_known rest p)
end

/-- What the generator imports for a method -/
def Method.imports : Method → List Pkg
  | .append _ _ _ b => aImports b
  | .unmarshal _ _ _ b => uImports b ++ [njsonPkg]

theorem Method.imports_known (m : Method) : ∀ p ∈ m.imports, p ∈ knownPkgs := by
  cases m with
  | append _ _ _ b => exact aImports_known b
  | unmarshal _ _ _ b =>
    intro p h
    rcases List.mem_append.1 h with h | h
    · exact uImports_known b p h
    · rw [List.mem_singleton.1 h]; exact njson_known

theorem importAll_mem {g : Generator} {ps : List Pkg} (hg : ∀ p ∈ g.imports, p ∈ knownPkgs) (hps : ∀ p ∈ ps, p ∈ knownPkgs) (p : Pkg) :
    p ∈ (g.importAll ps).imports ↔ p ∈ g.imports ∨ (p ∈ ps ∧ p.path ≠ g.name) := by
  unfold Generator.importAll
  induction ps generalizing g with
  | nil => simp
  | cons q ps ih =>
    rw [List.foldl_cons]
    have hq := hps q List.mem_cons_self
    have h1 : ∀ r, r ∈ (addImport g q).imports ↔ r ∈ g.imports ∨ (r = q ∧ q.path ≠ g.name) := by
      intro r
      unfold addImport
      by_cases hn : q.path ≠ g.name
      · rw [if_pos hn]
        simp only [List.mem_cons, List.mem_filter, decide_eq_true_eq]
        constructor
        · rintro (rfl | ⟨h, _⟩)
          · exact .inr ⟨rfl, hn⟩
          · exact .inl h
        · rintro (h | ⟨rfl, _⟩)
          · by_cases he : r.path = q.path
            · exact .inl (known_path r (hg r h) q hq he)
            · exact .inr ⟨h, he⟩
          · exact .inl rfl
      · rw [if_neg hn]
        simp [hn]
    have h2 : (addImport g q).name = g.name := by unfold addImport; split <;> rfl
    rw [ih (g := addImport g q) (fun r hr => ((h1 r).1 hr).elim (hg r) (fun h => h.1 ▸ hq)) (fun r hr => hps r (List.mem_cons_of_mem _ hr)),
      h1, h2]
    simp only [List.mem_cons]
    constructor
    · rintro ((h | ⟨rfl, h⟩) | ⟨h, h'⟩)
      · exact .inl h
      · exact .inr ⟨.inl rfl, h⟩
      · exact .inr ⟨.inr h, h'⟩
    · rintro (h | ⟨rfl | h, h'⟩)
      · exact .inl (.inl h)
      · exact .inl (.inr ⟨rfl, h'⟩)
      · exact .inr ⟨h, h'⟩

/-- Every path is imported once. -/
theorem importAll_nodup {g : Generator} {ps : List Pkg} (hg : (g.imports.map Pkg.path).Nodup) : ((g.importAll ps).imports.map Pkg.path).Nodup := by
  unfold Generator.importAll
  induction ps generalizing g with
  | nil => exact hg
  | cons q ps ih =>
    rw [List.foldl_cons]
    apply ih
    unfold addImport
    split
    · rw [List.map_cons, List.nodup_cons]
      constructor
      · simp
      · exact hg.sublist (List.filter_sublist.map _)
    · exact hg

/-- A generator whose imports are those of its methods -/
structure Sound (g : Generator) : Prop where
  known : ∀ p ∈ g.imports, p ∈ knownPkgs
  mem : ∀ p, p ∈ g.imports ↔ p.path ≠ g.name ∧ ∃ m ∈ g.buffer, p ∈ m.imports
  nodup : (g.imports.map Pkg.path).Nodup

theorem Sound.add {g : Generator} (h : Sound g) (m : Method) : Sound { g.importAll m.imports with buffer := g.buffer ++ [m] } where
  known := fun p hp => ((importAll_mem h.known m.imports_known p).1 hp).elim (h.known p) fun hp => m.imports_known p hp.1
  mem := fun p => by
    change p ∈ (g.importAll m.imports).imports ↔ p.path ≠ (g.importAll m.imports).name ∧ _
    rw [importAll_mem h.known m.imports_known, (importAll_other _ _).2, h.mem]
    constructor
    · rintro (⟨h1, m', hm', h2⟩ | ⟨h1, h2⟩)
      · exact ⟨h1, m', List.mem_append_left _ hm', h2⟩
      · exact ⟨h2, m, List.mem_append_right _ List.mem_cons_self, h1⟩
    · rintro ⟨h1, m', hm', h2⟩
      rcases List.mem_append.1 hm' with h3 | h3
      · exact .inl ⟨h1, m', h3, h2⟩
      · rw [List.mem_singleton.1 h3] at h2
        exact .inr ⟨h2, h1⟩
  nodup := importAll_nodup h.nodup

/-! ## All types -/

theorem generate_ok {odd : List Method → Bool} {P : Package} {o : GenOptions} {f : Flags} {fuel : Nat} {ts : List Bytes} {g g' : Generator}
    (h : generate odd P o (decide f.wantsUnmarshal) (decide f.wantsAppend) fuel g ts = .ok g') (hg : Sound g) :
    Sound g' ∧ g'.name = g.name ∧ ∃ ms, g'.buffer = g.buffer ++ ms ∧ MethodsFor odd P o f ts ms := by
  induction ts generalizing g with
  | nil =>
    cases h
    exact ⟨hg, rfl, [], by simp, rfl, by simp, by simp⟩
  | cons t ts ih =>
    unfold generate at h
    obtain ⟨g2, h12, h3⟩ := bind_ok h
    obtain ⟨g1, h1, h2⟩ := bind_ok h12
    have s1 : Sound g1 ∧ g1.name = g.name ∧ ∃ ms, g1.buffer = g.buffer ++ ms ∧
        ms.map Method.key = (if f.wantsUnmarshal then [(t, b!"UnmarshalNodeJSON")] else []) ∧
        (∀ m ∈ ms, m.Of P o) ∧ (∀ r t n b, Method.unmarshal r t n b ∈ ms → parses odd [.unmarshal r t n b] = true) := by
      by_cases hu : f.wantsUnmarshal
      · simp only [hu, decide_true, if_true] at h1
        obtain ⟨ty, b, hl, hb, hp, rfl⟩ := writeUnmarshaler_ok.1 h1
        refine ⟨hg.add (.unmarshal _ _ _ b), (importAll_other _ _).2, [_], rfl, ?_, ?_, ?_⟩
        · simp [hu, Method.key]
        · intro m hm
          rw [List.mem_singleton.1 hm]
          exact ⟨rfl, rfl, ty, fuel, hl, hb⟩
        · intro r t' n b' hm
          rw [List.mem_singleton.1 hm]
          exact hp
      · simp only [hu, decide_false] at h1
        cases h1
        exact ⟨hg, rfl, [], by simp, by simp [hu], by simp, by simp⟩
    obtain ⟨s1, n1, ms1, e1, k1, o1, p1⟩ := s1
    have s2 : Sound g2 ∧ g2.name = g1.name ∧ ∃ ms, g2.buffer = g1.buffer ++ ms ∧
        ms.map Method.key = (if f.wantsAppend then [(t, b!"AppendJSON")] else []) ∧
        (∀ m ∈ ms, m.Of P o) ∧ (∀ r t n b, Method.unmarshal r t n b ∈ ms → parses odd [.unmarshal r t n b] = true) := by
      by_cases ha : f.wantsAppend
      · simp only [ha, decide_true, if_true] at h2
        obtain ⟨ty, b, hl, hb, rfl⟩ := writeAppender_ok.1 h2
        refine ⟨s1.add (.append _ _ _ b), (importAll_other _ _).2, [_], rfl, ?_, ?_, ?_⟩
        · simp [ha, Method.key]
        · intro m hm
          rw [List.mem_singleton.1 hm]
          exact ⟨rfl, rfl, ty, fuel, hl, hb⟩
        · intro r t' n b' hm
          cases List.mem_singleton.1 hm
      · simp only [ha, decide_false] at h2
        cases h2
        exact ⟨s1, rfl, [], by simp, by simp [ha], by simp, by simp⟩
    obtain ⟨s2, n2, ms2, e2, k2, o2, p2⟩ := s2
    obtain ⟨s3, n3, ms3, e3, m3⟩ := ih h3 s2
    refine ⟨s3, by rw [n3, n2, n1], ms1 ++ ms2 ++ ms3, by rw [e3, e2, e1]; simp, ?_, ?_, ?_⟩
    · rw [List.map_append, List.map_append, k1, k2, m3.keys, List.flatMap_cons]
      rfl
    · intro m hm
      rcases List.mem_append.1 hm with hm | hm
      · exact (List.mem_append.1 hm).elim (o1 m) (o2 m)
      · exact m3.of m hm
    · intro r t' n b hm
      rcases List.mem_append.1 hm with hm | hm
      · exact (List.mem_append.1 hm).elim (p1 r t' n b) (p2 r t' n b)
      · exact m3.formatted r t' n b hm

theorem generate_total {odd : List Method → Bool} {P : Package} {o : GenOptions} {f : Flags} {ts : List Bytes}
    (h : ∀ t ∈ ts, CanWrite odd P o f t) : ∃ fuel, ∀ fuel', fuel ≤ fuel' → ∀ g, ∃ g',
      generate odd P o (decide f.wantsUnmarshal) (decide f.wantsAppend) fuel' g ts = .ok g' := by
  induction ts with
  | nil => exact ⟨0, fun _ _ g => ⟨g, rfl⟩⟩
  | cons t ts ih =>
    obtain ⟨n0, ih⟩ := ih fun t ht => h t (List.mem_cons_of_mem _ ht)
    obtain ⟨hu, ha⟩ := h t List.mem_cons_self
    have h1 : ∃ n, ∀ fuel', n ≤ fuel' → ∀ g, ∃ g', (if decide f.wantsUnmarshal then writeUnmarshaler odd P o {} fuel' g t else .ok g) = .ok g' := by
      by_cases hw : f.wantsUnmarshal
      · obtain ⟨ty, n, b, h1, h2, h3⟩ := hu hw
        refine ⟨n, fun n' hle g => ?_⟩
        simp only [hw, decide_true, if_true]
        exact ⟨_, writeUnmarshaler_ok.2 ⟨ty, b, h1, by rw [typeUnmarshaler_mono (by rw [h2]; simp) hle, h2], h3, rfl⟩⟩
      · exact ⟨0, fun _ _ g => by simp [hw]⟩
    have h2 : ∃ n, ∀ fuel', n ≤ fuel' → ∀ g, ∃ g', (if decide f.wantsAppend then writeAppender P o {} fuel' g t else .ok g) = .ok g' := by
      by_cases hw : f.wantsAppend
      · obtain ⟨ty, n, b, h1, h2⟩ := ha hw
        refine ⟨n, fun n' hle g => ?_⟩
        simp only [hw, decide_true, if_true]
        exact ⟨_, writeAppender_ok.2 ⟨ty, b, h1, by rw [typeAppender_mono (by rw [h2]; simp) hle, h2], rfl⟩⟩
      · exact ⟨0, fun _ _ g => by simp [hw]⟩
    obtain ⟨n1, h1⟩ := h1
    obtain ⟨n2, h2⟩ := h2
    refine ⟨n0 + n1 + n2, fun n hle g => ?_⟩
    obtain ⟨g1, e1⟩ := h1 n (by omega) g
    obtain ⟨g2, e2⟩ := h2 n (by omega) g1
    obtain ⟨g3, e3⟩ := ih n (by omega) g2
    refine ⟨g3, ?_⟩
    unfold generate
    rw [e1]
    change ((if decide f.wantsAppend then writeAppender P o {} n g1 t else .ok g1).bind _) = _
    rw [e2]
    exact e3

theorem canWrite_of_generate {odd : List Method → Bool} {P : Package} {o : GenOptions} {f : Flags} {fuel : Nat} {ts : List Bytes} {g g' : Generator}
    (h : generate odd P o (decide f.wantsUnmarshal) (decide f.wantsAppend) fuel g ts = .ok g') : ∀ t ∈ ts, CanWrite odd P o f t := by
  induction ts generalizing g with
  | nil => simp
  | cons t ts ih =>
    unfold generate at h
    obtain ⟨g2, h12, h3⟩ := bind_ok h
    obtain ⟨g1, h1, h2⟩ := bind_ok h12
    intro t' ht'
    rcases List.mem_cons.1 ht' with rfl | ht'
    · constructor
      · intro hu
        simp only [hu, decide_true, if_true] at h1
        obtain ⟨ty, b, hl, hb, hp, _⟩ := writeUnmarshaler_ok.1 h1
        exact ⟨ty, fuel, b, hl, hb, hp⟩
      · intro ha
        simp only [ha, decide_true, if_true] at h2
        obtain ⟨ty, b, hl, hb, _⟩ := writeAppender_ok.1 h2
        exact ⟨ty, fuel, b, hl, hb⟩
    · exact ih h3 t' ht'

/-! ## What is built -/

theorem prepare_ok {W : World} {dir : List SrcFile} {f : Flags} {args : List Bytes} {P : Package} {o : GenOptions} :
    prepare W dir f args = .ok (P, o) ↔ ∃ name, PackageName W f args name ∧ Asked W f o ∧ load W dir name = some P := by
  unfold prepare
  constructor
  · intro h
    obtain ⟨name, h1, h⟩ := bind_ok h
    obtain ⟨o', h2, h⟩ := bind_ok h
    split at h
    · cases h
    · rename_i P' hP
      cases h
      exact ⟨name, packageName_ok.1 h1, options_ok.1 h2, hP⟩
  · rintro ⟨name, h1, h2, h3⟩
    rw [packageName_ok.2 h1]
    change (options W f).bind _ = _
    rw [options_ok.2 h2]
    simp only [Run.bind, h3]

theorem sound_reset (g : Generator) : Sound g.reset where
  known := by simp [Generator.reset]
  mem := by simp [Generator.reset]
  nodup := by simp [Generator.reset]

theorem chosenTypes_ok {W : World} {P : Package} {args : List Bytes} {ts : List Bytes} (h : chosenTypes W P args = .ok ts) :
    ts = asked W P args ∧ ts ≠ [] := by
  unfold chosenTypes at h
  obtain ⟨ok, h1, h⟩ := bind_ok h
  have : P.structs.filter ok = asked W P args := by
    unfold asked
    congr 1
    funext t
    have := typeFilter_ok h1 t
    by_cases hs : Selects W (args[1]?.getD []) t
    · simp only [hs, decide_true]; exact this.2 hs
    · simp only [hs, decide_false]
      exact Bool.eq_false_iff.2 fun hh => hs (this.1 hh)
  rw [this] at h
  dsimp only at h
  split at h
  · cases h
  · rename_i hne
    cases h
    exact ⟨rfl, hne⟩

theorem chosenTypes_of {W : World} {P : Package} {args : List Bytes} (h : asked W P args ≠ []) : chosenTypes W P args = .ok (asked W P args) := by
  have h1 : ∃ ok, typeFilter W (args[1]?.getD []) = .ok ok := by
    rw [typeFilter_total]
    obtain ⟨t, ht⟩ := List.exists_mem_of_ne_nil _ h
    unfold asked at ht
    have := (List.mem_filter.1 ht).2
    simp only [decide_eq_true_eq] at this
    rcases this with h | h | ⟨h, _⟩ | ⟨_, rx, h, _⟩
    · exact .inr (.inl (by simp [h]))
    · exact .inl h
    · exact .inr (.inl h)
    · exact .inr (.inr ⟨rx, h⟩)
  obtain ⟨ok, h1⟩ := h1
  have : ∃ ts, chosenTypes W P args = .ok ts := by
    unfold chosenTypes
    rw [h1]
    have h2 : P.structs.filter ok = asked W P args := by
      unfold asked
      congr 1
      funext t
      have := typeFilter_ok h1 t
      by_cases hs : Selects W (args[1]?.getD []) t
      · simp only [hs, decide_true]; exact this.2 hs
      · simp only [hs, decide_false]
        exact Bool.eq_false_iff.2 fun hh => hs (this.1 hh)
    simp only [Run.bind, h2, if_neg h]
    exact ⟨_, rfl⟩
  obtain ⟨ts, h2⟩ := this
  rw [h2, (chosenTypes_ok h2).1]

theorem build_ok {W : World} {fuel : Nat} {dir : List SrcFile} {f : Flags} {args : List Bytes} {g : Generator} (h : build W fuel dir f args = .ok g) :
    ∃ name P o, PackageName W f args name ∧ Asked W f o ∧ load W dir name = some P ∧ asked W P args ≠ [] ∧ g.name = P.name ∧ Sound g ∧
      MethodsFor W.odd P o f (asked W P args) g.buffer := by
  unfold build at h
  obtain ⟨⟨P, o⟩, h1, h⟩ := bind_ok h
  obtain ⟨ts, h2, h⟩ := bind_ok h
  obtain ⟨name, hn, ho, hl⟩ := prepare_ok.1 h1
  obtain ⟨rfl, hne⟩ := chosenTypes_ok h2
  rw [wants_unmarshal, wants_append] at h
  obtain ⟨hs, hname, ms, hb, hm⟩ := generate_ok h (sound_reset _)
  have : g.buffer = ms := hb
  rw [← this] at hm
  exact ⟨name, P, o, hn, ho, hl, hne, hname, hs, hm⟩

theorem build_iff {W : World} {dir : List SrcFile} {f : Flags} {args : List Bytes} : (∃ fuel g, build W fuel dir f args = .ok g) ↔
    ∃ name P o, PackageName W f args name ∧ Asked W f o ∧ load W dir name = some P ∧ asked W P args ≠ [] ∧
      ∀ t ∈ asked W P args, CanWrite W.odd P o f t := by
  constructor
  · rintro ⟨fuel, g, h⟩
    unfold build at h
    obtain ⟨⟨P, o⟩, h1, h⟩ := bind_ok h
    obtain ⟨ts, h2, h⟩ := bind_ok h
    obtain ⟨name, hn, ho, hl⟩ := prepare_ok.1 h1
    obtain ⟨rfl, hne⟩ := chosenTypes_ok h2
    rw [wants_unmarshal, wants_append] at h
    exact ⟨name, P, o, hn, ho, hl, hne, canWrite_of_generate h⟩
  · rintro ⟨name, P, o, hn, ho, hl, hne, hw⟩
    obtain ⟨fuel, h⟩ := generate_total hw
    obtain ⟨g', h⟩ := h fuel (Nat.le_refl _) (Generator.reset { name := P.name })
    refine ⟨fuel, g', ?_⟩
    unfold build
    rw [prepare_ok.2 ⟨name, hn, ho, hl⟩]
    change (chosenTypes W P args).bind _ = _
    rw [chosenTypes_of hne, wants_unmarshal, wants_append]
    exact h

end Verif.GenFile
