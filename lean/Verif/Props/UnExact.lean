import Verif.Proofs.UnBack
import Verif.Props.UnRound

/-! # Unmarshal after Marshal: exactly the values that come back (C48) -/

namespace Verif.Props
open Verif Verif.Float Verif.Spec Verif.Njson Verif.Unjson

/-- **C48**, exactly: of the values of a supported type, without marshal and unmarshal methods, whose strings and floats are
written as JSON, those that `ComesBack` describes are stored again (with slices cut to their lengths) by `Unmarshal` of the text
that `Marshal` returned, without an error; for every other value the variable holds another value afterwards, or `Unmarshal`
panics. -/
theorem C48_exact {U : Univ} (hU : U.Ok) (hE : U.EmbedsStructs) (hO : U.NoOmitMethod) (hF : U.GoFloats) (hZ : U.ZeroText)
    (hT : U.PlainTags defaultOptions)
    {t e : Ty} {x : GV} (hb : U.base t = .ptr e) (hn : NoUnmarshal U t) (hp : PlainTy U e) (hsup : Supported U e) (hD : OneName U e)
    (hv : MarshalArg U e x) (hq : AllFlt Fits32 x) (hg : AllStr GoodText x)
    (fuel : Nat) (text : Bytes) (hm : marshal U fuel (some (e, x)) = some (.done text none))
    (fuel' : Nat) {d : Doc} (hd : d.Wf) (r : Out (Option (Ty × GV)))
    (h : unmarshal U fuel' d text (some (t, .ptr (U.zero e))) = some r) :
    (ComesBack U Hint.none e x → r = .done (some (t, .ptr x.trim)) none) ∧
    ((∃ y err, r = .done (some (t, .ptr y)) err ∧ y.trim = x.trim) → ComesBack U Hint.none e x) := by
  rcases C47_parse_partial hE hO hF hT hv hq hg fuel [] _ hm d hd with ⟨text', j, d', id, h1, h2, h3⟩ | ⟨b, er, he⟩
  · cases h1
    rw [List.nil_append] at h
    have henc := marshalsAs_encodes h2
    have hraw : Hint.none.raw = true → Hint.none.html = true := by simp [Hint.none]
    rcases unmarshal_tree hU hE ⟨hb, hn, hp, hasTy_zero hU e⟩ fuel' hd _ r h h3 with ⟨err, hq, _⟩ | ⟨r', hdec, rfl⟩
    · exact absurd hq (newTypeDecoder_accepts hU hb hsup err)
    · refine ⟨fun hs => ?_, ?_⟩
      · rw [decodes_unique hdec _ (comesBack_decodes hU hE hT hs hD hraw henc)]; rfl
      · rintro ⟨y, err, hr, hy⟩
        cases r' with
        | panic => cases hr
        | done y' e' =>
          cases hr
          exact (conv hU hE hT hZ henc rfl hD hraw hdec hy).2
  · cases he

/-- Everything that `Survives` describes is in the class. -/
theorem survives_comesBack {U : Univ} (hU : U.Ok) (hE : U.EmbedsStructs) (hZ : U.ZeroText) (hT : U.PlainTags defaultOptions) {h : Hint} {t : Ty} {v : GV}
    {j : JVal} (hD : OneName U t) (hh : h.raw = true → h.html = true) (he : Encodes U defaultOptions h t v j) (hs : Survives U h t v) :
    ComesBack U h t v := by
  refine (conv hU hE hT hZ he rfl hD hh (survives_back hU hs he) ?_).2
  have key : ∀ n, ∀ v : GV, sizeOf v ≤ n → v.trim.trim = v.trim := by
    intro n
    induction n with
    | zero => intro v hn; cases v <;> simp at hn
    | succ n ih =>
      have hl : ∀ xs : List GV, sizeOf xs ≤ n → trimL (trimL xs) = trimL xs := by
        intro xs
        induction xs with
        | nil => intro _; rfl
        | cons x xs ihx =>
          intro hn
          simp at hn
          rw [trimL, trimL, ih x (by omega), ihx (by omega)]
      have hm : ∀ es : List (GV × GV), sizeOf es ≤ n → trimM (trimM es) = trimM es := by
        intro xs
        induction xs with
        | nil => intro _; rfl
        | cons x xs ihx =>
          intro hn
          obtain ⟨k, x⟩ := x
          simp at hn
          rw [trimM, trimM, ih x (by omega), ihx (by omega)]
      intro v hn
      cases v with
      | slice arr len =>
        simp at hn
        have := hl arr (by omega)
        rw [GV.trim, GV.trim]
        rw [trimL_map, trimL_map] at this
        rw [trimL_map, trimL_map, List.map_take, this, List.take_take, min_self]
      | ptr v => simp at hn; rw [GV.trim, GV.trim, ih v (by omega)]
      | iface t v => simp at hn; rw [GV.trim, GV.trim, ih v (by omega)]
      | array xs => simp at hn; rw [GV.trim, GV.trim, hl xs (by omega)]
      | struct xs => simp at hn; rw [GV.trim, GV.trim, hl xs (by omega)]
      | map es => simp at hn; rw [GV.trim, GV.trim, hm es (by omega)]
      | _ => rfl
  exact key _ v (Nat.le_refl _)

/-- The class at the leaves: integers come back when they are a float64 or so large that numjson does not read them, strings when
they are UTF-8; nil slices and maps that are not nil (outside interfaces) never do, nor do pointers to nil. -/
theorem C48_leaves {U : Univ} {h : Hint} {t : Ty} :
    (∀ k i, U.base t = .int k → (ComesBack U h t (.int i) ↔
      (-(2 ^ (k.bits - 1) : Int) ≤ i ∧ i < 2 ^ (k.bits - 1)) ∧ (Repr64 i.natAbs ∨ 2 ^ 63 - 512 ≤ i))) ∧
    (∀ k n, U.base t = .uint k → (ComesBack U h t (.uint n) ↔ n < 2 ^ k.bits ∧ (Repr64 n ∨ 2 ^ 64 - 1024 ≤ n))) ∧
    (∀ s, U.base t = .string → (ComesBack U h t (.str s) ↔ ValidUtf8 s)) ∧
    ¬ ComesBack U h t .nilSlice ∧ (∀ es, ¬ ComesBack U h t (.map es)) ∧ ¬ ComesBack U h t (.ptr .nilPtr) ∧ ¬ ComesBack U h t (.ptr .nilMap) ∧
    ¬ ComesBack U h t (.ptr .nilIface) := by
  refine ⟨?_, ?_, ?_, ?_, ?_, ?_, ?_, ?_⟩
  · intro k i hb
    constructor
    · intro hc
      cases hc with
      | int h1 h2 h3 h4 => rw [hb] at h1; cases h1; exact ⟨⟨h2, h3⟩, h4⟩
      | any ha => cases ha
    · rintro ⟨⟨h2, h3⟩, h4⟩; exact .int hb h2 h3 h4
  · intro k n hb
    constructor
    · intro hc
      cases hc with
      | uint h1 h2 h3 => rw [hb] at h1; cases h1; exact ⟨h2, h3⟩
      | any ha => cases ha
    · rintro ⟨h2, h3⟩; exact .uint hb h2 h3
  · intro s hb
    constructor
    · intro hc
      cases hc with
      | str _ h2 => exact h2
      | any ha => cases ha
    · exact .str hb
  · intro hc; cases hc with
    | any ha => cases ha
  · intro es hc; cases hc with
    | any ha => cases ha
  · intro hc; cases hc with
    | ptr _ h => exact absurd rfl h
    | any ha => cases ha
  · intro hc; cases hc with
    | ptr _ _ h => exact absurd rfl h
    | any ha => cases ha
  · intro hc; cases hc with
    | ptr _ _ _ h => exact absurd rfl h
    | any ha => cases ha

theorem exU_oneName : OneName exU (.struct 0) := by
  intro j cs h hc
  rcases exU_comp h with h | h | h | h
  · cases h
    rw [← cands_unique exU_cands0 hc]
    decide +kernel
  all_goals cases h

theorem exU_zeroText : exU.ZeroText := by unfold Univ.ZeroText; decide +kernel

/-- A list whose first number is the largest int64, which is no float64, comes back; with 2^53 + 1 instead it does not. -/
def exBig (i : Int) : GV := .struct [.int i, .str b!"a", .nilPtr]

theorem exBig_iff (i : Int) (h1 : -2 ^ 63 ≤ i) (h2 : i < 2 ^ 63) :
    ComesBack exU Hint.none (.struct 0) (exBig i) ↔ Repr64 i.natAbs ∨ 2 ^ 63 - 512 ≤ i := by
  have hr : resolve [] [⟨b!"A", [0], .int .std, Hint.none⟩, ⟨b!"b", [1], .string, Hint.none⟩, ⟨b!"next", [2], .ptr (.struct 0), ⟨false, false, true⟩⟩] =
      [⟨b!"A", [0], .int .std, Hint.none⟩, ⟨b!"b", [1], .string, Hint.none⟩, ⟨b!"next", [2], .ptr (.struct 0), ⟨false, false, true⟩⟩] := by rfl
  constructor
  · intro h
    cases h with
    | struct hb hc hk ho hz =>
      cases hb
      rw [← cands_unique exU_cands0 hc, hr] at hk
      exact ((C48_leaves.1 .std i rfl).1 (hk ⟨b!"A", [0], .int .std, Hint.none⟩ (by simp) (.int i) rfl (.keep rfl))).2
  · intro h
    refine .struct rfl exU_cands0 ?_ ?_ ?_
    · rw [hr]
      intro c hc x hx ho
      simp at hc
      rcases hc with rfl | rfl | rfl
      · cases hx; exact .int (k := .std) rfl h1 h2 h
      · cases hx; exact .str rfl (safe_ascii (by decide) (by decide)).1
      · cases hx; exact .nilPtr rfl
    · rw [hr]
      intro c hc x hx ho
      simp at hc
      rcases hc with rfl | rfl | rfl
      · cases omits_unique ho (.keep rfl)
      · cases omits_unique ho (.keep rfl)
      · cases hx; rfl
    · rw [hr]; rfl

example : ComesBack exU Hint.none (.struct 0) (exBig 9223372036854775807) ∧
    roundTrip exU 30 (.struct 0) (exBig 9223372036854775807) = some (.done (some (.ptr (.struct 0), .ptr (exBig 9223372036854775807))) none) :=
  ⟨(exBig_iff _ (by decide) (by decide)).2 (.inr (by decide)), eq_of_sameX (by decide +kernel)⟩

/-- The hypotheses of `C48_exact` hold for these values, so 2^53 + 1 in such a list is not in the class. -/
example : ¬ ComesBack exU Hint.none (.struct 0) (exBig 9007199254740993) := by
  intro hc
  have hv : MarshalArg exU (.struct 0) (exBig 9007199254740993) := by
    refine .inl ⟨(fun e h => by cases h), ⟨by decide, by decide, by decide⟩, ?_⟩
    have hn : ∀ {t : Ty}, (t = .struct 0 ∨ t = .int .std ∨ t = .string ∨ t = .ptr (.struct 0)) → NoMarshal exU t := by
      rintro t (rfl | rfl | rfl | rfl) <;> exact ⟨by decide, by decide, by decide⟩
    refine .struct (j := 0) (hn (.inl rfl)) rfl rfl ?_
    intro i f v hf hv _
    match i with
    | 0 => cases hf; cases hv; exact .int (k := .std) (hn (.inr (.inl rfl))) rfl
    | 1 => cases hf; cases hv; exact .str (hn (.inr (.inr (.inl rfl)))) rfl
    | 2 => cases hf; cases hv; exact .nilPtr (e := .struct 0) (hn (.inr (.inr (.inr rfl)))) rfl
    | i + 3 => cases hf
  have hl : ∀ {P Q}, P b!"a" → AllLeaf P Q (exBig 9007199254740993) := by
    intro P Q hp
    refine .struct ?_
    intro x hx
    simp at hx
    rcases hx with rfl | rfl | rfl
    · exact .int
    · exact .str hp
    · exact .nilPtr
  have := (C48_exact exU_ok exU_embeds exU_omit exU_floats exU_zeroText exU_tags (t := .ptr (.struct 0)) rfl (exU_noUnmarshal _) (fun _ _ => exU_noUnmarshal _)
    exU_supported exU_oneName hv (hl trivial) (hl (.inr (by decide))) 30 b!"{\"A\":9007199254740993,\"b\":\"a\"}" (eq_of_sameB (by decide +kernel))
    30 empty_wf (.done (some (.ptr (.struct 0), .ptr (exBig 9007199254740992))) none) (eq_of_sameX (by decide +kernel))).1 hc
  cases this

end Verif.Props
