import Verif.Spec.UnAgain
import Verif.Proofs.UnOrder
import Verif.Proofs.UnIgnore

namespace Verif.Unjson
open Verif Verif.Float Verif.Spec Verif.Njson Verif.Gen

theorem setKey_same {key : Bytes} {y : GV} : ∀ {es : List (GV × GV)}, EntryAt es (.str key) y → setKey key y es = es
  | (k, x) :: es, h => by
    cases h with
    | head => simp [setKey]
    | tail hk h =>
      have ih := setKey_same h
      cases k with
      | str s =>
        have : s ≠ key := fun h => hk (by rw [h])
        simp [setKey, this, ih]
      | _ => simp [setKey, ih]

theorem callUnmarshal_again {U : Univ} {nm : NodeMeth} (hA : MethodsAgain U nm) {m : Meth} {t : Ty} {v : GV} {j : JVal} {y : GV} {e : Option UErr}
    (h : callUnmarshal U nm m t v j = .done y e) : callUnmarshal U nm m t y j = .done y e := by
  unfold callUnmarshal at h ⊢
  by_cases hc : m = .textUnmarshaler ∧ jtyp j ≠ tString
  · rw [if_pos hc] at h ⊢
    cases h; rfl
  · rw [if_neg hc] at h ⊢
    by_cases hi : ∃ n i, U.base t = .iface n i
    · obtain ⟨n, i, hi⟩ := hi
      rw [hi] at h ⊢
      cases v with
      | iface t' v' =>
        dsimp only at h
        by_cases him : U.impl t' m = true
        · rw [if_pos him] at h
          cases hr : methOut U nm m t' v' j with
          | panic => rw [hr] at h; cases h
          | done z e' =>
            rw [hr] at h
            cases h
            dsimp only
            rw [if_pos him, hA _ _ _ _ _ _ hr]
            rfl
        · rw [if_neg him] at h; cases h
      | _ => cases h
    · cases hbt : U.base t with
      | iface n i => exact absurd ⟨n, i, hbt⟩ hi
      | _ => rw [hbt] at h; exact hA _ _ _ _ _ _ h

theorem readElems_length {U : Univ} {nm : NodeMeth} {o : Options} : ∀ {t : Ty} {js : List JVal} {arr arr' : List GV} {n : Nat},
    ReadElems U nm o t js arr (some (arr', n)) → arr'.length = arr.length := by
  intro t js
  induction js with
  | nil => intro arr arr' n h; cases h; rfl
  | cons j js ih =>
    intro arr arr' n h
    generalize hr : some (arr', n) = r at h
    cases h with
    | stop h => cases hr; rfl
    | panic h => cases hr
    | @cons _ _ _ x arr y r h h' =>
      cases r with
      | none => cases hr
      | some p => cases hr; simpa using ih h'

theorem entries_keep {U : Univ} {nm : NodeMeth} {o : Options} {k t : Ty} {key : Bytes} {x : GV} : ∀ {ms : List (Bytes × JVal)} {es : List (GV × GV)} {y : GV} {e : Option UErr},
    ReadEntries U nm o k t ms (.map es) (.done y e) → key ∉ ms.map Prod.fst → EntryAt es (.str key) x → ∃ fs, y = .map fs ∧ EntryAt fs (.str key) x
  | [], es, y, e, h, _, hx => by cases h; exact ⟨es, rfl, hx⟩
  | (k', j) :: ms, es, y, e, h, hn, hx => by
    rw [List.map_cons, List.mem_cons, not_or] at hn
    cases h with
    | fail h => exact ⟨es, rfl, hx⟩
    | cons h h' =>
      refine entries_keep h' hn.2 (entryAt_setKey.2 (.inr ⟨fun h => hn.1 ?_, hx⟩))
      cases h; rfl

theorem members_keep {U : Univ} {nm : NodeMeth} {o : Options} {cs : List Cand} (hp : cs.Pairwise fun a b => IApart a.index b.index) {key : Bytes} {c : Cand}
    (hc : cs.find? (fun c => c.key = key) = some c) : ∀ {ms : List (Bytes × JVal)} {v y : GV} {e : Option UErr},
    ReadMembers U nm o cs ms v (.done y e) → key ∉ ms.map Prod.fst → sub y c.index = sub v c.index
  | [], v, y, e, h, _ => by cases h; rfl
  | (k', j) :: ms, v, y, e, h, hn => by
    rw [List.map_cons, List.mem_cons, not_or] at hn
    cases h with
    | unknown _ h => exact members_keep hp hc h hn.2
    | fail h1 h2 h3 => exact iapart_sub_put (find_apart hp (Ne.symm hn.1) h1 hc)
    | cons h1 h2 h3 h4 => rw [members_keep hp hc h4 hn.2, iapart_sub_put (find_apart hp (Ne.symm hn.1) h1 hc)]
    | lostFail h1 h2 h3 => rfl
    | lost h1 h2 h3 h4 => exact members_keep hp hc h4 hn.2

theorem map_done {r : Out GV} {f : GV → GV} {y : GV} {e : Option UErr} (h : r.map f = .done y e) : ∃ z, r = .done z e ∧ y = f z := by
  cases r with
  | panic => cases h
  | done z e' => cases h; exact ⟨z, rfl, rfl⟩

/-- What is read once more leaves everything as it is. -/
theorem reads_again {U : Univ} (hU : U.Ok) (hE : U.EmbedsStructs) {nm : NodeMeth} (hA : MethodsAgain U nm) {o : Options} {t : Ty} {v : GV} {j : JVal} {r : Out GV}
    (h : Reads U nm o t v j r) : NamesOnce j → ∀ y e, r = .done y e → Reads U nm o t y j r := by
  refine Reads.rec
    (motive_1 := fun t v j r _ => NamesOnce j → ∀ y e, r = .done y e → Reads U nm o t y j r)
    (motive_2 := fun t v j r _ => NamesOnce j → ∀ y e, r = .done y e → ReadsPlain U nm o t y j r)
    (motive_3 := fun t js arr r _ => (∀ j ∈ js, NamesOnce j) → ∀ p, r = some p → ReadElems U nm o t js p.1 r)
    (motive_4 := fun t js xs r _ => (∀ j ∈ js, NamesOnce j) → ∀ ys, r = some ys → ReadArr U nm o t js ys r)
    (motive_5 := fun k t ms m r _ => (ms.map Prod.fst).Nodup → ∀ y e, r = .done y e → ReadEntries U nm o k t ms y r)
    (motive_6 := fun cs ms v r _ => cs.Pairwise (fun a b => IApart a.index b.index) → (ms.map Prod.fst).Nodup → (∀ m ∈ ms, NamesOnce m.2) →
      ∀ y e, r = .done y e → ReadMembers U nm o cs ms y r)
    ?meth ?plain ?null ?mismatch ?bool ?int ?intErr ?uint ?uintErr ?float ?floatErr ?str ?ptr ?ptrNew ?sliceNull ?nilSliceNull ?slice ?sliceGrow
    ?nilSlice ?array ?mapNull ?map ?struct ?any ?anyErr ?anyPanic ?enil ?estop ?epanic ?econs ?afull ?arest ?apanic ?acons
    ?mnil ?mfail ?mpanic ?mnilMap ?mbadKey ?mcons ?snil ?sunknown ?sfail ?spanic ?scons ?slostFail ?slostPanic ?slost h
  case meth =>
    intro t v j m hm _ y e hr
    have h := callUnmarshal_again hA hr
    rw [hr, ← h]
    exact .meth hm
  case plain => intro t v j r hm _ ih hn y e hr; exact .plain hm (ih hn y e hr)
  case null => intro t v hz _ y e hr; exact .null hz
  case mismatch => intro t v j w h1 h2 h3 _ y e hr; cases hr; exact .mismatch h1 h2 h3
  case bool => intro t x b hb _ y e hr; cases hr; exact .bool hb
  case int => intro t k x raw i hb h _ y e hr; cases hr; exact .int hb h
  case intErr => intro t k x raw hb h _ y e hr; cases hr; exact .intErr hb h
  case uint => intro t k x raw i hb h _ y e hr; cases hr; exact .uint hb h
  case uintErr => intro t k x raw hb h _ y e hr; cases hr; exact .uintErr hb h
  case float => intro t k x raw i hb h _ y e hr; cases hr; exact .float hb h
  case floatErr => intro t k x raw hb h _ y e hr; cases hr; exact .floatErr hb h
  case str => intro t x raw hb _ y e hr; cases hr; exact .str hb
  case ptr =>
    intro t e v j r hb hj _ ih hn y er hr
    obtain ⟨z, rfl, rfl⟩ := map_done hr
    exact .ptr hb hj (ih hn _ _ rfl)
  case ptrNew =>
    intro t e j r hb hj _ ih hn y er hr
    obtain ⟨z, rfl, rfl⟩ := map_done hr
    exact .ptr hb hj (ih hn _ _ rfl)
  case sliceNull => intro t e arr len hb _ y er hr; cases hr; exact .sliceNull hb
  case nilSliceNull => intro t e hb _ y er hr; cases hr; exact .nilSliceNull hb
  case slice =>
    intro t e arr len js r hb hl hr0 ih hn y er hr
    cases r with
    | none => cases hr
    | some p =>
      cases hr
      cases hn with | arr hn =>
      exact .slice hb (by rw [readElems_length hr0]; exact hl) (ih hn p rfl)
  case sliceGrow =>
    intro t e arr len js r hb hl hr0 ih hn y er hr
    cases r with
    | none => cases hr
    | some p =>
      cases hr
      cases hn with | arr hn =>
      exact .slice hb (by rw [readElems_length hr0]; simp) (ih hn p rfl)
  case nilSlice =>
    intro t e js r hb hr0 ih hn y er hr
    cases r with
    | none => cases hr
    | some p =>
      cases hr
      cases hn with | arr hn =>
      exact .slice hb (by rw [readElems_length hr0]; simp) (ih hn p rfl)
  case array =>
    intro t n e xs js r hb hr0 ih hn y er hr
    cases r with
    | none => cases hr
    | some p =>
      cases hr
      cases hn with | arr hn =>
      exact .array hb (ih hn p rfl)
  case mapNull => intro t k e v hb _ y er hr; cases hr; exact .mapNull hb
  case map =>
    intro t k e v ms r hb _ ih hn y er hr
    cases hn with | obj hn hn' =>
    exact .map hb (ih hn y er hr)
  case struct =>
    intro t i cs v ms r hb hc _ ih hn y er hr
    cases hn with | obj hn hn' =>
    exact .struct hb hc (ih (resolve_apart hU hE hc) hn hn' y er hr)
  case any => intro v j x hx _ y er hr; exact .any hx
  case anyErr => intro t i v j hb hx _ y er hr; cases hr; exact .anyErr hb hx
  case anyPanic => intro t i v j x hb ht hx _ y er hr; cases hr
  case enil => intro t arr _ p hp; cases hp; exact .nil
  case estop =>
    intro t j js x arr y e _ ih hn p hp
    cases hp
    exact .stop (ih (hn _ List.mem_cons_self) _ _ rfl)
  case epanic => intro t j js x arr _ _ _ p hp; cases hp
  case econs =>
    intro t j js x arr y r _ _ ih ih' hn p hp
    cases r with
    | none => cases hp
    | some q =>
      cases hp
      exact .cons (r := some q) (ih (hn _ List.mem_cons_self) _ _ rfl) (ih' (fun j hj => hn j (List.mem_cons_of_mem _ hj)) q rfl)
  case afull => intro t js _ ys hr; cases hr; exact .full
  case arest =>
    intro t x xs _ ys hr
    cases hr
    have := ReadArr.rest (U := U) (nm := nm) (o := o) (t := t) (x := U.zero t) (xs := List.replicate xs.length (U.zero t))
    rw [List.length_replicate] at this
    exact this
  case apanic => intro t j js x xs _ _ _ ys hr; cases hr
  case acons =>
    intro t j js x xs y e r _ _ ih ih' hn ys hr
    cases r with
    | none => cases hr
    | some q =>
      cases hr
      exact .cons (r := some q) (ih (hn _ List.mem_cons_self) _ _ rfl) (ih' (fun j hj => hn j (List.mem_cons_of_mem _ hj)) q rfl)
  case mnil => intro k t m _ y er hr; cases hr; exact .nil
  case mfail => intro k t key j ms m y e h _ _ z er hr; cases hr; exact .fail h
  case mpanic => intro k t key j ms m _ _ _ y er hr; cases hr
  case mnilMap => intro k t key j ms y _ _ _ z er hr; cases hr
  case mbadKey => intro k t key j ms m y _ _ _ _ z er hr; cases hr
  case mcons =>
    intro t key j ms es y r h h' ih ih' hn z er hr
    rw [List.map_cons, List.nodup_cons] at hn
    subst hr
    have h2 := ih' hn.2 z er rfl
    obtain ⟨fs, rfl, hx⟩ := entries_keep h' hn.1 (entryAt_setKey.2 (.inl ⟨rfl, rfl⟩))
    refine .cons h ?_
    rw [setKey_same hx]
    exact h2
  case snil => intro cs v _ _ _ y er hr; cases hr; exact .nil
  case sunknown =>
    intro cs key j ms v r h1 _ ih hp hn hn' y er hr
    rw [List.map_cons, List.nodup_cons] at hn
    exact .unknown h1 (ih hp hn.2 (fun m hm => hn' m (List.mem_cons_of_mem _ hm)) y er hr)
  case sfail =>
    intro cs key j ms v c x y e h1 h2 h3 ih hp hn hn' z er hr
    cases hr
    have h4 : sub (put y v c.index) c.index = some y := sub_put_self h2
    have := ReadMembers.fail (ms := ms) h1 h4 (ih (hn' _ List.mem_cons_self) _ _ rfl)
    rw [put_self _ _ _ h4] at this
    exact this
  case spanic => intro cs key j ms v c x _ _ _ _ _ _ _ y er hr; cases hr
  case scons =>
    intro cs key j ms v c x y r h1 h2 h3 h4 ih ih' hp hn hn' z er hr
    rw [List.map_cons, List.nodup_cons] at hn
    subst hr
    have h5 := ih' hp hn.2 (fun m hm => hn' m (List.mem_cons_of_mem _ hm)) z er rfl
    have h6 : sub z c.index = some y := by rw [members_keep hp h1 h4 hn.1, sub_put_self h2]
    refine .cons h1 h6 (ih (hn' _ List.mem_cons_self) _ _ rfl) ?_
    rw [put_self _ _ _ h6]
    exact h5
  case slostFail => intro cs key j ms v c y e h1 h2 h3 _ _ _ _ z er hr; cases hr; exact .lostFail h1 h2 h3
  case slostPanic => intro cs key j ms v c _ _ _ _ _ _ _ y er hr; cases hr
  case slost =>
    intro cs key j ms v c y r h1 h2 h3 h4 _ ih' hp hn hn' z er hr
    rw [List.map_cons, List.nodup_cons] at hn
    subst hr
    have h5 := ih' hp hn.2 (fun m hm => hn' m (List.mem_cons_of_mem _ hm)) z er rfl
    exact .lost h1 (by rw [members_keep hp h1 h4 hn.1, h2]) h3 h5

end Verif.Unjson
