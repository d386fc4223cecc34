import Verif.Proofs.GenDecPath
import Verif.Proofs.UnDecode
import Verif.Props.Access

/-! # What generated `UnmarshalNodeJSON` methods do -/

namespace Verif.Gen
open Verif Verif.Float Verif.Spec Verif.Njson Verif.Unjson

/-! ## Reading a node -/

section
variable {h : Heap} {n : Node} {j : JVal}

theorem tree_Raw (ht : Tree h n j) : n.raw h = jraw j := by
  obtain ⟨vs, d, h1, h2, h3, h4⟩ := tree_shows ht
  unfold Node.raw; rw [h1]; exact h3
theorem tree_unescaped (ht : Tree h n j) : n.unescaped h = if jtyp j = tString then StrJson.unescaped (jraw j) else [] := by
  obtain ⟨vs, d, h1, h2, h3, h4⟩ := tree_shows ht
  unfold Node.unescaped; dsimp only at h2 h3; rw [h1, ← h3, ← h2]
theorem tree_toInt (ht : Tree h n j) : NumJson.toInt h n = NumJson.parseInt (jraw j) := by
  obtain ⟨vs, d, h1, h2, h3, h4⟩ := tree_shows ht
  unfold NumJson.toInt; dsimp only at h3; rw [h1, ← h3]
theorem tree_toUint (ht : Tree h n j) : NumJson.toUint h n = NumJson.parseUint (jraw j) := by
  obtain ⟨vs, d, h1, h2, h3, h4⟩ := tree_shows ht
  unfold NumJson.toUint; dsimp only at h3; rw [h1, ← h3]
theorem tree_toFloat (ht : Tree h n j) : NumJson.toFloat h n = (NumJson.parseFloat (jraw j), decide (NumJson.parseFloat (jraw j) ≠ .nan)) := by
  obtain ⟨vs, d, h1, h2, h3, h4⟩ := tree_shows ht
  unfold NumJson.toFloat; dsimp only at h3; rw [h1, ← h3]
theorem tree_text (ht : Tree h n j) : n.wrapUnmarshalText h = if jtyp j = tString then .called (jraw j) else .typeError (jtyp j) tString := by
  obtain ⟨vs, d, h1, h2, h3, h4⟩ := tree_shows ht
  unfold Node.wrapUnmarshalText; dsimp only at h2 h3; rw [h1, ← h3, ← h2]
end

theorem jtyp_str {j : JVal} (h : jtyp j = tString) : ∃ s, j = .str s := by
  cases j <;> first | exact ⟨_, rfl⟩ | (exfalso; revert h; simp only [jtyp]; decide)
theorem jtyp_bool {j : JVal} (h : jtyp j = tBoolean) : ∃ b, j = .bool b := by
  cases j <;> first | exact ⟨_, rfl⟩ | (exfalso; revert h; simp only [jtyp]; decide)
theorem jtyp_arr {j : JVal} (h : jtyp j = tArray) : ∃ js, j = .arr js := by
  cases j <;> first | exact ⟨_, rfl⟩ | (exfalso; revert h; simp only [jtyp]; decide)
theorem jtyp_obj {j : JVal} (h : jtyp j = tObject) : ∃ ms, j = .obj ms := by
  cases j <;> first | exact ⟨_, rfl⟩ | (exfalso; revert h; simp only [jtyp]; decide)
theorem jtyp_null {j : JVal} (h : jtyp j = tNull) : j = .null := by
  cases j <;> first | rfl | (exfalso; revert h; simp only [jtyp]; decide)
theorem jtyp_ne_null {j : JVal} (h : jtyp j ≠ tNull) : j ≠ .null := by rintro rfl; exact h rfl

/-! ## Maps -/

theorem isKey_iff {U : Univ} {k : Ty} (hk : k = .string ∨ ∃ i, U.base k = .iface 0 i) {key : Bytes} {x : GV} (hx : HasTy U k x) :
    setMapKey.isKey key x = true ↔ x = entryKey U k key := by
  unfold entryKey
  rcases hk with rfl | ⟨i, hk⟩
  · obtain ⟨s, rfl⟩ := hx.inv_str rfl
    simp [setMapKey.isKey, Univ.base]
  · rw [hk]
    cases hx with
    | nilIface h => simp [setMapKey.isKey]
    | @iface _ _ _ t' v h1 h2 =>
      simp only [GV.iface.injEq]
      constructor
      · intro h
        unfold setMapKey.isKey at h
        split at h
        · rename_i h'; cases h'
        · rename_i h'; cases h'; exact ⟨rfl, by rw [decide_eq_true_iff.1 h]⟩
        · cases h
      · rintro ⟨rfl, rfl⟩; simp [setMapKey.isKey]
    | _ h => rw [hk] at h; cases h

theorem setMapKey_eq {U : Univ} {k : Ty} (hk : k = .string ∨ ∃ i, U.base k = .iface 0 i) {key : Bytes} {y : GV} : ∀ {es : List (GV × GV)},
    (∀ p ∈ es, HasTy U k p.1) → setMapKey (mapKey U k) key y es = putEntry (entryKey U k key) y es := by
  intro es
  have hmk : mapKey U k key = entryKey U k key := rfl
  induction es with
  | nil => intro _; rfl
  | cons p es ih =>
    intro h
    rw [List.forall_mem_cons] at h
    obtain ⟨k', x⟩ := p
    rw [setMapKey, putEntry]
    by_cases hh : k' = entryKey U k key
    · rw [if_pos ((isKey_iff hk h.1).2 hh), if_pos hh, hh]
    · rw [if_neg (fun h' => hh ((isKey_iff hk h.1).1 h')), if_neg hh, ih h.2]

theorem putEntry_mem {k y : GV} : ∀ {es : List (GV × GV)} {p : GV × GV}, p ∈ putEntry k y es → (p.1 = k ∧ p.2 = y) ∨ p ∈ es := by
  intro es
  induction es with
  | nil => intro p h; rw [putEntry, List.mem_singleton] at h; subst h; exact .inl ⟨rfl, rfl⟩
  | cons q es ih =>
    obtain ⟨k', x⟩ := q
    intro p h
    rw [putEntry] at h
    split at h
    · rcases List.mem_cons.1 h with rfl | h
      · exact .inl ⟨rfl, rfl⟩
      · exact .inr (List.mem_cons_of_mem _ h)
    · rcases List.mem_cons.1 h with rfl | h
      · exact .inr List.mem_cons_self
      · rcases ih h with h | h
        · exact .inl h
        · exact .inr (List.mem_cons_of_mem _ h)

theorem entryKey_hasTy {U : Univ} {k : Ty} (hk : k = .string ∨ ∃ i, U.base k = .iface 0 i) (key : Bytes) : HasTy U k (entryKey U k key) := by
  unfold entryKey
  rcases hk with rfl | ⟨i, hk⟩
  · exact .str rfl
  · rw [hk]; exact .iface hk (.str (t := .string) rfl)

/-! ## Loops -/

/-- What a block does for a type: it stores what the specification says, or panics when the specification says so. -/
def Stores (E : Env) (o : GenOptions) (h : Heap) (bound : Nat) (rec : GV → Node → Option (Out GV)) (t : Ty) : Prop :=
  ∀ (v : GV) (n : Node) (j : JVal), HasTy E.U t v → Tree h n j → j.size ≤ bound →
    (∃ y err, rec v n = some (.done y err) ∧ GDec E o t v j y err ∧ HasTy E.U t y) ∨ (rec v n = some .panic ∧ UPanics E o t v j)

theorem runSlice_stores {E : Env} {o : GenOptions} {h : Heap} {bound : Nat} {rec : GV → Node → Option (Out GV)} {t : Ty} (hr : Stores E o h bound rec t)
    {len : Nat} : ∀ {js : List JVal} {ns : List Node} {pre arr : List GV}, All2 (Tree h) ns js → sizeElems js ≤ bound → js.length ≤ arr.length →
    pre.length + js.length ≤ len → (∀ x ∈ arr, HasTy E.U t x) →
    (∃ arr' err, runSlice rec len ns pre.length (pre ++ arr) = some (.done (pre ++ arr') err) ∧ GDecElems E o t arr js arr' err ∧
      arr'.length = arr.length ∧ ∀ x ∈ arr', HasTy E.U t x) ∨
    (runSlice rec len ns pre.length (pre ++ arr) = some .panic ∧ UPanicsElems E o t arr js) := by
  intro js
  induction js with
  | nil =>
    intro ns pre arr ha _ _ _ hh
    cases ha
    exact .inl ⟨arr, none, rfl, .nil, rfl, hh⟩
  | cons j js ih =>
    intro ns pre arr ha hs hl hlen hh
    cases ha with
    | @cons n _ ns _ h1 h2 =>
      cases arr with
      | nil => simp at hl
      | cons x arr =>
        simp only [sizeElems] at hs
        simp only [List.length_cons] at hl hlen
        rw [List.forall_mem_cons] at hh
        have hget : (pre ++ x :: arr)[pre.length]? = some x := by simp
        rw [runSlice, if_pos (by omega), hget]
        rcases hr x n j hh.1 h1 (by omega) with ⟨y, err, h3, h4, h5⟩ | ⟨h3, h4⟩
        swap
        · simp only [h3]
          exact .inr ⟨trivial, .here h4⟩
        have hset : (pre ++ x :: arr).set pre.length y = pre ++ y :: arr := by simp
        simp only [h3]
        cases err with
        | some e =>
          refine .inl ⟨y :: arr, some e, by simp only [hset], .fail h4, rfl, ?_⟩
          rw [List.forall_mem_cons]; exact ⟨h5, hh.2⟩
        | none =>
          simp only [hset]
          rcases ih (pre := pre ++ [y]) (arr := arr) h2 (by omega) (by omega) (by simp; omega) hh.2 with ⟨arr', err, g1, g2, g3, g4⟩ | ⟨g1, g2⟩
          swap
          · exact .inr ⟨by simpa using g1, .later h4 g2⟩
          refine .inl ⟨y :: arr', err, ?_, .cons h4 g2, by simp [g3], by rw [List.forall_mem_cons]; exact ⟨h5, g4⟩⟩
          simpa using g1

theorem runMap_stores {E : Env} {o : GenOptions} (hU : E.U.Ok) {h : Heap} {bound : Nat} {rec : GV → Node → Option (Out GV)} {k t : Ty} (hr : Stores E o h bound rec t)
    (hk : k = .string ∨ ∃ i, E.U.base k = .iface 0 i) : ∀ {ms : List (Bytes × JVal)} {ns : List (Bytes × Node)} {es : List (GV × GV)},
    All2 (fun (p : Bytes × Node) (m : Bytes × JVal) => p.1 = m.1 ∧ Tree h p.2 m.2) ns ms → sizeMembers ms ≤ bound →
    (∀ p ∈ es, HasTy E.U k p.1) → (∀ p ∈ es, HasTy E.U t p.2) →
    (∃ es' err, runMap rec (E.U.zero t) (mapKey E.U k) ns es = some (.done es' err) ∧ GDecEntries E o k t es ms es' err ∧
      (∀ p ∈ es', HasTy E.U k p.1) ∧ ∀ p ∈ es', HasTy E.U t p.2) ∨
    (runMap rec (E.U.zero t) (mapKey E.U k) ns es = some .panic ∧ UPanicsEntries E o t ms) := by
  intro ms
  induction ms with
  | nil =>
    intro ns es ha _ h1 h2
    cases ha
    exact .inl ⟨es, none, rfl, .nil, h1, h2⟩
  | cons m ms ih =>
    intro ns es ha hs h1 h2
    obtain ⟨key, j⟩ := m
    cases ha with
    | @cons n _ ns _ hn h3 =>
      obtain ⟨key', n⟩ := n
      obtain ⟨rfl, hn⟩ := hn
      simp only [sizeMembers] at hs
      rcases hr (E.U.zero t) n j (hasTy_zero hU t) hn (by omega) with ⟨y, err, g1, g2, g3⟩ | ⟨g1, g2⟩
      swap
      · rw [runMap, g1]
        exact .inr ⟨rfl, .here g2⟩
      rw [runMap, g1]
      cases err with
      | some e => exact .inl ⟨es, some e, rfl, .fail g2, h1, h2⟩
      | none =>
        simp only []
        rw [setMapKey_eq hk h1]
        have := ih (es := putEntry (entryKey E.U k key') y es) h3 (by omega)
          (fun p hp => by
            rcases putEntry_mem hp with ⟨hp, -⟩ | hp
            · rw [hp]; exact entryKey_hasTy hk _
            · exact h1 p hp)
          (fun p hp => by
            rcases putEntry_mem hp with ⟨-, hp⟩ | hp
            · rw [hp]; exact g3
            · exact h2 p hp)
        rcases this with ⟨es', err, k1, k2, k3⟩ | ⟨k1, k2⟩
        · exact .inl ⟨es', err, k1, .cons g2 k2, k3⟩
        · exact .inr ⟨k1, .later g2 k2⟩

/-- What the switch does for one member. -/
theorem cases_run {E : Env} (hE : E.Ok) {o : GenOptions} {h : Heap} {bound fuel gf : Nat} {j : Nat}
    (ih : ∀ {t : Ty} {lit : Bool} {b : UBlock}, typeUnmarshaler E o gf t = .ok b → UCompiles E o lit t → Stores E o h bound (b.run E h fuel t) t) :
    ∀ {ps : List Pick} {cs : UCases}, (∀ p ∈ ps, p ∈ unmarshalPicks E o j) → (∀ p ∈ ps, ¬ RawString E.U p → UCompiles E o true p.field.typ) →
    pickCases E (typeUnmarshaler E o gf) (.struct j) ps = .ok cs → ∀ (key : Bytes) (v : GV) (n : Node) (jv : JVal), HasTy E.U (.struct j) v →
    Tree h n jv → jv.size ≤ bound →
    (∃ v' err, cs.run E h fuel (.struct j) key v n = some (.done v' err) ∧ HasTy E.U (.struct j) v' ∧
      (((∀ p ∈ ps, p.name ≠ key) ∧ v' = v ∧ err = none) ∨
       ∃ p ∈ ps, p.name = key ∧ ∃ x mk, focus E.U (.struct j) v p.field.path = some (x, mk) ∧
        ((RawString E.U p ∧ v' = mk (.str (jraw jv)) ∧ err = none) ∨
         (¬ RawString E.U p ∧ ∃ y, GDec E o p.field.typ x jv y err ∧ v' = mk y)))) ∨
    (cs.run E h fuel (.struct j) key v n = some .panic ∧
      ∃ p ∈ ps, p.name = key ∧ ∃ x mk, focus E.U (.struct j) v p.field.path = some (x, mk) ∧ ¬ RawString E.U p ∧ UPanics E o p.field.typ x jv) := by
  intro ps
  induction ps with
  | nil =>
    intro cs _ _ hc key v n jv hv ht hs
    cases hc
    exact .inl ⟨v, none, rfl, hv, .inl ⟨by simp, rfl, rfl⟩⟩
  | cons p ps ihp =>
    intro cs hm hk hc key v n jv hv ht hs
    rw [List.forall_mem_cons] at hm hk
    rw [pickCases] at hc
    cases hb : caseBlock E (typeUnmarshaler E o gf) p with
    | err e => rw [hb] at hc; cases hc
    | diverge => rw [hb] at hc; cases hc
    | ok b =>
      rw [hb] at hc
      obtain ⟨rest, h0, rfl⟩ := mapR_ok.1 hc
      rw [UCases.run]
      by_cases hkey : key = p.name
      · rw [if_pos hkey]
        have hf := (mem_unmarshalPicks hm.1).1
        have hpath := hE.path j _ hf
        have hne := hE.nonempty j _ hf
        have hemb := fun (pre post : List Nat) (t0 e : Ty) (hsplit : p.field.path = pre ++ post) (_ : pre ≠ []) (hpost : post ≠ [])
          (ht0 : pathTy E.U (.struct j) pre = some t0) (hb : E.U.base t0 = .ptr e) => hE.embeds j p.field pre post t0 e hf hsplit hpost ht0 hb
        obtain ⟨i, is, hi⟩ : ∃ i is, p.field.path = i :: is := by
          cases hq : p.field.path with
          | nil => exact absurd hq hne
          | cons i is => exact ⟨i, is, rfl⟩
        rw [hi] at hpath hemb ⊢
        obtain ⟨x, mk, w, g1, g2, g3, g4, g5, g6⟩ := ensure_focus hE.univ hpath hemb hv (fun e he => by cases he)
        rw [g3]
        simp only [g4, hpath]
        by_cases hr : RawString E.U p
        · rw [caseBlock_raw hr] at hb
          cases hb
          rw [UBlock.run, tree_Raw ht]
          simp only []
          rw [g5]
          exact .inl ⟨_, _, rfl, g6 _ (.str hr.2), .inr ⟨p, List.mem_cons_self, hkey.symm, x, mk, by rw [hi]; exact g1, .inl ⟨hr, rfl, rfl⟩⟩⟩
        · rw [caseBlock_other hr] at hb
          rcases ih hb (hk.1 hr) x n jv g2 ht hs with ⟨y, err, k1, k2, k3⟩ | ⟨k1, k2⟩
          swap
          · rw [k1]
            exact .inr ⟨rfl, p, List.mem_cons_self, hkey.symm, x, mk, by rw [hi]; exact g1, hr, k2⟩
          rw [k1]
          simp only []
          rw [g5]
          exact .inl ⟨_, _, rfl, g6 _ k3, .inr ⟨p, List.mem_cons_self, hkey.symm, x, mk, by rw [hi]; exact g1, .inr ⟨hr, y, k2, rfl⟩⟩⟩
      · rw [if_neg hkey]
        rcases ihp hm.2 hk.2 h0 key v n jv hv ht hs with ⟨v', err, k1, k2, k3⟩ | ⟨k1, q, hq, k2⟩
        swap
        · exact .inr ⟨k1, q, List.mem_cons_of_mem _ hq, k2⟩
        refine .inl ⟨v', err, k1, k2, ?_⟩
        rcases k3 with ⟨k3, k4⟩ | ⟨q, hq, k3⟩
        · left
          rw [List.forall_mem_cons]
          exact ⟨⟨fun h => hkey h.symm, k3⟩, k4⟩
        · exact .inr ⟨q, List.mem_cons_of_mem _ hq, k3⟩

theorem runMembers_stores {E : Env} (hE : E.Ok) {o : GenOptions} {h : Heap} {bound fuel gf : Nat} {j : Nat}
    (ih : ∀ {t : Ty} {lit : Bool} {b : UBlock}, typeUnmarshaler E o gf t = .ok b → UCompiles E o lit t → Stores E o h bound (b.run E h fuel t) t)
    {cs : UCases} (hk : ∀ p ∈ unmarshalPicks E o j, ¬ RawString E.U p → UCompiles E o true p.field.typ)
    (hc : pickCases E (typeUnmarshaler E o gf) (.struct j) (unmarshalPicks E o j) = .ok cs) : ∀ {ms : List (Bytes × JVal)} {ns : List (Bytes × Node)} {v : GV},
    All2 (fun (p : Bytes × Node) (m : Bytes × JVal) => p.1 = m.1 ∧ Tree h p.2 m.2) ns ms → sizeMembers ms ≤ bound → HasTy E.U (.struct j) v →
    (∃ v' err, runMembers (cs.run E h fuel (.struct j)) ns v = some (.done v' err) ∧ GDecMembers E o j v ms v' err ∧ HasTy E.U (.struct j) v') ∨
    (runMembers (cs.run E h fuel (.struct j)) ns v = some .panic ∧ UPanicsMembers E o j v ms) := by
  intro ms
  induction ms with
  | nil =>
    intro ns v ha _ hv
    cases ha
    exact .inl ⟨v, none, rfl, .nil, hv⟩
  | cons m ms ihm =>
    intro ns v ha hs hv
    obtain ⟨key, jv⟩ := m
    cases ha with
    | @cons n _ ns _ hn h3 =>
      obtain ⟨key', n⟩ := n
      obtain ⟨hkk, hn⟩ := hn
      simp only at hkk
      subst hkk
      simp only [sizeMembers] at hs
      rcases cases_run hE ih (fun _ h => h) hk hc key' v n jv hv hn (by omega) with ⟨v1, err, g1, g2, g3⟩ | ⟨g1, p, hp, rfl, x, mk, k1, k2, k3⟩
      swap
      · rw [runMembers, g1]
        exact .inr ⟨rfl, .here hp k2 k1 k3⟩
      rw [runMembers, g1]
      rcases g3 with ⟨g3, rfl, rfl⟩ | ⟨p, hp, rfl, x, mk, k1, k2⟩
      · rcases ihm h3 (by omega) g2 with ⟨v', err, l1, l2, l3⟩ | ⟨l1, l2⟩
        · exact .inl ⟨v', err, l1, .unknown g3 l2, l3⟩
        · exact .inr ⟨l1, .unknown g3 l2⟩
      · rcases k2 with ⟨k2, rfl, rfl⟩ | ⟨k2, y, k3, rfl⟩
        · rcases ihm h3 (by omega) g2 with ⟨v', err, l1, l2, l3⟩ | ⟨l1, l2⟩
          · exact .inl ⟨v', err, l1, .raw hp k2 k1 l2, l3⟩
          · exact .inr ⟨l1, .raw hp k2 k1 l2⟩
        · cases err with
          | some e => exact .inl ⟨_, _, rfl, .fail hp k2 k1 k3, g2⟩
          | none =>
            rcases ihm h3 (by omega) g2 with ⟨v', err, l1, l2, l3⟩ | ⟨l1, l2⟩
            · exact .inl ⟨v', err, l1, .cons hp k2 k1 k3 l2, l3⟩
            · exact .inr ⟨l1, .later hp k2 k1 k3 l2⟩

/-! ## Blocks -/

theorem special_stores {E : Env} (hH : UHooks E) {o : GenOptions} {h : Heap} {fuel : Nat} {t : Ty} {lit : Bool} (hm : Unmarshals E t)
    (hc : UCompiles E o lit t) : Stores E o h fuel ((specialBlock E t).run E h fuel t) t := by
  intro v n j hv ht hs
  unfold specialBlock
  cases h1 : E.isTime t
  · have : E.isDuration t = false ∧ E.U.impl (.ptr t) .unmarshaler = false ∧
        (E.U.impl (.ptr t) .jsonUnmarshaler = true ∨ (E.U.impl (.ptr t) .jsonUnmarshaler = false ∧ E.U.impl (.ptr t) .textUnmarshaler = true)) := by
      cases hc with
      | time h => rw [h1] at h; cases h
      | json _ h2 h3 h4 => exact ⟨h2, h3, .inl h4⟩
      | text _ h2 h3 h4 h5 => exact ⟨h2, h3, .inr ⟨h4, h5⟩⟩
      | _ h => exact absurd hm h
    obtain ⟨h2, h3, h4⟩ := this
    rw [if_neg (by simp), if_neg (by simp [h2]), if_neg (by simp [h3])]
    rcases h4 with h4 | ⟨h4, h5⟩
    · rw [if_pos h4, UBlock.run, callUnmarshal]
      unfold decMethod
      rw [Props.C37_tree h n j ht fuel hs]
      obtain ⟨y, b, hy, hty⟩ := hH.method .jsonUnmarshaler t v j.ser h4 hv
      cases hp : E.U.panics .jsonUnmarshaler (.ptr t) (.ptr v) j.ser with
      | true =>
        simp only [hp, if_true]
        exact .inr ⟨trivial, .json h1 h2 h3 h4 hp⟩
      | false =>
        simp only [hy, hp, Bool.false_eq_true, if_false]
        exact .inl ⟨y, hookErr b, rfl, .json h1 h2 h3 h4 hp hy, hty⟩
    · rw [if_neg (by simp [h4]), UBlock.run, callUnmarshal, decMethod, tree_text ht]
      by_cases hj : jtyp j = tString
      · rw [if_pos hj]
        obtain ⟨s, rfl⟩ := jtyp_str hj
        obtain ⟨y, b, hy, hty⟩ := hH.method .textUnmarshaler t v s h5 hv
        cases hp : E.U.panics .textUnmarshaler (.ptr t) (.ptr v) s with
        | true =>
          simp only [jraw, hp, if_true]
          exact .inr ⟨trivial, .text h1 h2 h3 h4 h5 hp⟩
        | false =>
          simp only [jraw, hy, hp, Bool.false_eq_true, if_false]
          exact .inl ⟨y, hookErr b, rfl, .text h1 h2 h3 h4 h5 hp hy, hty⟩
      · rw [if_neg hj]
        exact .inl ⟨v, _, rfl, .textErr h1 h2 h3 h4 h5 hj, hv⟩
  · rw [if_pos rfl, UBlock.run, tree_Raw ht]
    cases hp : E.parseTime (jraw j) with
    | some y => exact .inl ⟨y, none, rfl, .time h1 hp, hH.time t _ y h1 hp⟩
    | none => exact .inl ⟨v, _, rfl, .timeErr h1 hp, hv⟩

theorem run_stores {E : Env} (hE : E.Ok) (hH : UHooks E) {o : GenOptions} {h : Heap} {fuel : Nat} : ∀ (gf : Nat) {t : Ty} {lit : Bool} {b : UBlock},
    typeUnmarshaler E o gf t = .ok b → UCompiles E o lit t → Stores E o h fuel (b.run E h fuel t) t := by
  intro gf
  induction gf with
  | zero => intro t lit b h; cases h
  | succ gf ih =>
    intro t lit b hb hc
    by_cases hm : Unmarshals E t
    · rw [typeUnmarshaler_special hm] at hb
      cases hb
      exact special_stores hH hm hc
    · rw [typeUnmarshaler_plain hm] at hb
      unfold plainUBlock at hb
      intro v n j hv ht hs
      have hsp := size_pos j
      cases hbt : E.U.base t with
      | struct i =>
        rw [hbt] at hb
        obtain rfl := eq_struct hE.univ hbt
        obtain ⟨cs, h0, rfl⟩ := mapR_ok.1 hb
        rw [unmarshalFields_picks o _ _ i (unmarshalFields_can h0)] at h0
        rw [UBlock.run, tree_typ ht]
        by_cases hj : jtyp j = tObject
        · rw [if_pos hj]
          obtain ⟨ms, rfl⟩ := jtyp_obj hj
          simp only [JVal.size] at hs
          rcases runMembers_stores hE ih (fun p hp => (hc.inv_struct hm p hp).1) h0 (tree_members ht) (by omega) hv with ⟨v', err, g1, g2, g3⟩ | ⟨g1, g2⟩
          · exact .inl ⟨v', err, g1, .struct hm g2, g3⟩
          · exact .inr ⟨g1, .struct hm g2⟩
        · rw [if_neg hj, uTypeErr, tree_typ ht]
          exact .inl ⟨v, _, rfl, .structErr hm hj, hv⟩
      | ptr e =>
        rw [hbt] at hb
        obtain ⟨x, h0, rfl⟩ := mapR_ok.1 hb
        have hce := (hc.inv_ptr hm hbt).1
        rw [UBlock.run.eq_def]
        dsimp only
        rw [tree_typ ht]
        by_cases hj : jtyp j = tNull
        · rw [if_pos hj]
          obtain rfl := jtyp_null hj
          exact .inl ⟨_, _, rfl, .ptrNull hm hbt, .nilPtr hbt⟩
        · rw [if_neg hj]
          rcases hv.inv_ptr hbt with rfl | ⟨w, rfl, hw⟩
          · dsimp only
            rcases ih h0 hce _ n j (hasTy_zero hE.univ e) ht hs with ⟨y, err, g1, g2, g3⟩ | ⟨g1, g2⟩ <;> rw [g1]
            · exact .inl ⟨_, _, rfl, .ptrNew hm hbt (jtyp_ne_null hj) g2, .ptr hbt g3⟩
            · exact .inr ⟨rfl, .ptrNew hm hbt (jtyp_ne_null hj) g2⟩
          · rcases ih h0 hce _ n j hw ht hs with ⟨y, err, g1, g2, g3⟩ | ⟨g1, g2⟩ <;> simp only [g1]
            · exact .inl ⟨_, _, rfl, .ptr hm hbt (jtyp_ne_null hj) g2, .ptr hbt g3⟩
            · exact .inr ⟨trivial, .ptr hm hbt (jtyp_ne_null hj) g2⟩
      | slice e =>
        rw [hbt] at hb
        obtain ⟨x, h0, rfl⟩ := mapR_ok.1 hb
        have hce := (hc.inv_slice hm hbt).1
        rw [UBlock.run, tree_typ ht]
        by_cases hj : jtyp j = tArray
        · rw [if_pos hj]
          obtain ⟨js, rfl⟩ := jtyp_arr hj
          simp only [JVal.size] at hs
          have hel := tree_elems ht
          have hlen := hel.length
          dsimp only at hlen ⊢
          rw [hlen]
          have hz : ∀ m, ∀ x ∈ List.replicate m (E.U.zero e), HasTy E.U e x := by
            intro m x hx; rw [(List.mem_replicate.1 hx).2]; exact hasTy_zero hE.univ e
          rcases hv.inv_slice hbt with rfl | ⟨arr, len, rfl, hle, hh⟩
          · simp only [sliceOf]
            by_cases hl : js = []
            · subst hl
              simp only [List.length_nil, Nat.lt_irrefl, if_false]
              exact .inl ⟨_, _, rfl, .sliceNil hm hbt, .nilSlice hbt⟩
            · have : 0 < js.length := List.length_pos_iff.2 hl
              rw [if_pos (by simpa using this)]
              simp only [Nat.zero_add]
              have := runSlice_stores (ih h0 hce) (len := js.length) (pre := [])
                (arr := List.replicate js.length (E.U.zero e)) hel (by omega) (by simp) (by simp) (hz _)
              simp only [List.length_nil, List.nil_append] at this
              rcases this with ⟨arr', err, g1, g2, g3, g4⟩ | ⟨g1, g2⟩ <;> rw [g1]
              · exact .inl ⟨_, _, rfl, .sliceNew hm hbt hl g2, .slice hbt (by rw [g3]; simp) g4⟩
              · exact .inr ⟨rfl, .sliceNew hm hbt g2⟩
          · simp only [sliceOf]
            by_cases hl : arr.length < js.length
            · rw [if_pos hl]
              have := runSlice_stores (ih h0 hce) (len := len + js.length) (pre := [])
                (arr := List.replicate (len + js.length) (E.U.zero e)) hel (by omega) (by simp) (by simp) (hz _)
              simp only [List.length_nil, List.nil_append] at this
              rcases this with ⟨arr', err, g1, g2, g3, g4⟩ | ⟨g1, g2⟩ <;> rw [g1]
              · exact .inl ⟨_, _, rfl, .sliceGrow hm hbt hl g2, .slice hbt (by rw [g3]; simp) g4⟩
              · exact .inr ⟨rfl, .sliceGrow hm hbt hl g2⟩
            · rw [if_neg hl]
              have := runSlice_stores (ih h0 hce) (len := js.length) (pre := []) (arr := arr) hel (by omega)
                (by omega) (by simp) hh
              simp only [List.length_nil, List.nil_append] at this
              rcases this with ⟨arr', err, g1, g2, g3, g4⟩ | ⟨g1, g2⟩ <;> rw [g1]
              · exact .inl ⟨_, _, rfl, .sliceFit hm hbt (by omega) g2, .slice hbt (by omega) g4⟩
              · exact .inr ⟨rfl, .sliceFit hm hbt (by omega) g2⟩
        · rw [if_neg hj]
          by_cases hj' : jtyp j = tNull
          · rw [if_pos hj']
            obtain rfl := jtyp_null hj'
            exact .inl ⟨_, _, rfl, .sliceNull hm hbt, .nilSlice hbt⟩
          · rw [if_neg hj', uTypeErr, tree_typ ht]
            exact .inl ⟨_, _, rfl, .sliceErr hm hbt hj hj', hv⟩
      | map k e =>
        rw [hbt] at hb
        obtain ⟨x, h0, rfl⟩ := mapR_ok.1 hb
        obtain ⟨hce, -, hk⟩ := hc.inv_map hm hbt
        rw [UBlock.run.eq_def]
        dsimp only
        rw [tree_typ ht]
        by_cases hj : jtyp j = tNull
        · rw [if_pos hj]
          obtain rfl := jtyp_null hj
          exact .inl ⟨_, _, rfl, .mapNull hm hbt, .nilMap hbt⟩
        · rw [if_neg hj]
          by_cases hj' : jtyp j = tObject
          · rw [if_pos hj']
            obtain ⟨ms, rfl⟩ := jtyp_obj hj'
            simp only [JVal.size] at hs
            rcases hv.inv_map hbt with rfl | ⟨es, rfl, h1, h2⟩
            · rcases runMap_stores hE.univ (ih h0 hce) hk (es := []) (tree_members ht) (by omega) (by simp) (by simp) with
                ⟨es', err, g1, g2, g3, g4⟩ | ⟨g1, g2⟩ <;> simp only [g1]
              · exact .inl ⟨_, _, rfl, .mapNew hm hbt g2, .map hbt g3 g4⟩
              · exact .inr ⟨trivial, .map hm hbt g2⟩
            · rcases runMap_stores hE.univ (ih h0 hce) hk (es := es) (tree_members ht) (by omega) h1 h2 with
                ⟨es', err, g1, g2, g3, g4⟩ | ⟨g1, g2⟩ <;> simp only [g1]
              · exact .inl ⟨_, _, rfl, .map hm hbt g2, .map hbt g3 g4⟩
              · exact .inr ⟨trivial, .map hm hbt g2⟩
          · rw [if_neg hj', uTypeErr, tree_typ ht]
            exact .inl ⟨_, _, rfl, .mapErr hm hbt hj' hj, hv⟩
      | bool =>
        rw [hbt] at hb; cases hb
        rw [UBlock.run]
        by_cases hj : jtyp j = tBoolean
        · obtain ⟨b, rfl⟩ := jtyp_bool hj
          rw [tree_bool ht]
          exact .inl ⟨_, _, rfl, .bool hm hbt, .bool hbt⟩
        · rw [if_neg (by rw [tree_not_bool ht hj]; simp), uTypeErr, tree_typ ht]
          exact .inl ⟨_, _, rfl, .boolErr hm hbt hj, hv⟩
      | string =>
        rw [hbt] at hb; cases hb
        rw [UBlock.run, tree_unescaped ht]
        by_cases hj : jtyp j = tString
        · obtain ⟨s, rfl⟩ := jtyp_str hj
          exact .inl ⟨_, _, rfl, .str hm hbt, .str hbt⟩
        · rw [if_neg hj]
          exact .inl ⟨_, _, rfl, .strOther hm hbt hj, .str hbt⟩
      | int k =>
        rw [hbt] at hb; cases hb
        rw [UBlock.run, tree_toInt ht]
        cases hp : (NumJson.parseInt (jraw j)).2 with
        | true =>
          rw [if_pos rfl, hbt]
          exact .inl ⟨_, _, rfl, .int hm hbt hp, .int hbt (wrapInt_range _ _).1 (wrapInt_range _ _).2⟩
        | false =>
          rw [if_neg (by simp), uTypeErr, tree_typ ht]
          exact .inl ⟨_, _, rfl, .intErr hm hbt hp, hv⟩
      | uint k =>
        rw [hbt] at hb; cases hb
        rw [UBlock.run, tree_toUint ht]
        cases hp : (NumJson.parseUint (jraw j)).2 with
        | true =>
          rw [if_pos rfl, hbt]
          exact .inl ⟨_, _, rfl, .uint hm hbt hp, .uint hbt (wrapUint_range _ _)⟩
        | false =>
          rw [if_neg (by simp), uTypeErr, tree_typ ht]
          exact .inl ⟨_, _, rfl, .uintErr hm hbt hp, hv⟩
      | float k =>
        rw [hbt] at hb; cases hb
        rw [UBlock.run, tree_toFloat ht]
        by_cases hp : NumJson.parseFloat (jraw j) = .nan
        · rw [if_neg (by simp [hp]), uTypeErr, tree_typ ht]
          exact .inl ⟨_, _, rfl, .floatErr hm hbt hp, hv⟩
        · rw [if_pos (by simp [hp]), hbt]
          exact .inl ⟨_, _, rfl, .float hm hbt hp, .float hbt⟩
      | iface m i => exact (hc.not_iface hm hbt).elim
      | _ => rw [hbt] at hb; cases hb

theorem runUnmarshaler_eq {E : Env} {h : Heap} {n : Node} {j : JVal} (ht : Tree h n j) (fuel : Nat) (b : UBlock) (t : Ty) (v : GV) :
    runUnmarshaler E h fuel b t v n = if jtyp j = tNull then some (.done v none) else b.run E h fuel t v n := by
  unfold runUnmarshaler
  rw [tree_typ ht, if_neg]
  · cases j <;> simp only [jtyp] <;> decide

end Verif.Gen
