import Verif.Proofs.UnEncTotal

/-! # More fuel does not change what encoding and decoding return -/

namespace Verif.Unjson
open Verif Verif.Float Verif.Spec Verif.Njson

/-- `b` is `a`, or `a` did not return. -/
def OLe {α : Type} (a b : Option α) : Prop := a = none ∨ b = a

theorem OLe.refl {α : Type} (a : Option α) : OLe a a := .inr rfl
theorem OLe.none {α : Type} (a : Option α) : OLe none a := .inl rfl

theorem OLe.andThen {α β : Type} {x y : Option (Out α)} {fail : α → β} {f g : α → Option (Out β)} (h : OLe x y) (hf : ∀ a, OLe (f a) (g a)) :
    OLe (andThen x fail f) (andThen y fail g) := by
  rcases h with rfl | rfl
  · exact .inl rfl
  · rcases y with _ | ⟨a, _ | e⟩ | _
    · exact .inl rfl
    · exact hf a
    · exact .inr rfl
    · exact .inr rfl

theorem omitAll_le {r s : RV → Option (Out Bool)} (h : ∀ x, OLe (r x) (s x)) : ∀ xs, OLe (omitAll r xs) (omitAll s xs)
  | [] => .refl _
  | x :: xs => by
    unfold omitAll
    refine (h x).andThen fun b => ?_
    cases b
    · exact .refl _
    · exact omitAll_le h xs

theorem omitFields_le {U : Univ} {r s : Omiter → RV → Option (Out Bool)} (h : ∀ o x, OLe (r o x) (s o x)) (rv : RV) :
    ∀ cs, OLe (omitFields U r rv cs) (omitFields U s rv cs)
  | [] => .refl _
  | c :: cs => by
    unfold omitFields
    split
    · exact .refl _
    · exact omitFields_le h rv cs
    · refine (h _ _).andThen fun b => ?_
      cases b
      · exact .refl _
      · exact omitFields_le h rv cs

theorem omitRun_le (U : Univ) (objs : List Obj) : ∀ fuel o rv, OLe (omitRun U objs fuel o rv) (omitRun U objs (fuel + 1) o rv)
  | 0, _, _ => by rw [omitRun]; exact .none _
  | fuel + 1, o, rv => by
    have ih := omitRun_le U objs fuel
    rw [omitRun.eq_def U objs (fuel + 1), omitRun.eq_def U objs (fuel + 1 + 1)]
    simp only
    cases o with
    | array n o =>
      simp only
      split
      · split
        · exact omitAll_le (ih o) _
        · exact .refl _
      · exact .refl _
    | struct r =>
      simp only
      split
      · exact omitFields_le ih _ _
      · exact .refl _
    | _ => exact .refl _

theorem encElems_le {r s : Bytes → RV → Option (Out Bytes)} (h : ∀ b x, OLe (r b x) (s b x)) : ∀ xs first b, OLe (encElems r xs first b) (encElems s xs first b)
  | [], _, _ => .refl _
  | x :: xs, first, b => by
    unfold encElems
    exact (h _ _).andThen fun b => encElems_le h xs false b

theorem encEntries_le {k k' r s : Bytes → RV → Option (Out Bytes)} (hk : ∀ b x, OLe (k b x) (k' b x)) (h : ∀ b x, OLe (r b x) (s b x)) :
    ∀ xs first b, OLe (encEntries k r xs first b) (encEntries k' s xs first b)
  | [], _, _ => .refl _
  | (_, x) :: xs, first, b => by
    unfold encEntries
    exact (hk _ _).andThen fun b => (h _ _).andThen fun b => encEntries_le hk h xs false b

theorem encFields_le {U : Univ} {r s : Enc → Bytes → RV → Option (Out Bytes)} {om om' : Omiter → RV → Option (Out Bool)} (h : ∀ e b x, OLe (r e b x) (s e b x))
    (ho : ∀ o x, OLe (om o x) (om' o x)) (rv : RV) : ∀ cs more b, OLe (encFields U r om rv cs more b) (encFields U s om' rv cs more b)
  | [], _, _ => .refl _
  | c :: cs, more, b => by
    unfold encFields
    split
    · exact .refl _
    · exact encFields_le h ho rv cs more b
    · refine (ho _ _).andThen fun skip => ?_
      split
      · exact encFields_le h ho rv cs more b
      · exact (h _ _ _).andThen fun b => encFields_le h ho rv cs true b

theorem newTypeEncoder_le (U : Univ) (o : Options) (fuel : Nat) (t : Ty) :
    newTypeEncoder U o fuel t = .diverge ∨ newTypeEncoder U o (fuel + 1) t = newTypeEncoder U o fuel t := by
  have key : ∀ mt pt : Ty,
      (match encMeth U pt with | some e => Res.ok (⟨mt, e, []⟩ : TypeEncoder) | none => match newEncoder U o.normalize fuel mt Hint.none Codecs.empty with
        | .ok (e, c) => .ok ⟨mt, e, c.objs⟩ | .err e => .err e | .diverge => .diverge) = .diverge ∨
      (match encMeth U pt with | some e => Res.ok (⟨mt, e, []⟩ : TypeEncoder) | none => match newEncoder U o.normalize (fuel + 1) mt Hint.none Codecs.empty with
        | .ok (e, c) => .ok ⟨mt, e, c.objs⟩ | .err e => .err e | .diverge => .diverge) =
      (match encMeth U pt with | some e => Res.ok (⟨mt, e, []⟩ : TypeEncoder) | none => match newEncoder U o.normalize fuel mt Hint.none Codecs.empty with
        | .ok (e, c) => .ok ⟨mt, e, c.objs⟩ | .err e => .err e | .diverge => .diverge) := by
    intro mt pt
    rcases (build_le U o.normalize fuel).2.2.2.1 mt Hint.none Codecs.empty with h | h
    · rw [h]
      split
      · exact .inr rfl
      · exact .inl rfl
    · rw [h]; exact .inr rfl
  unfold newTypeEncoder
  cases hb : U.base t <;> exact key _ _

theorem newTypeDecoder_le (U : Univ) (tag : Bytes) (fuel : Nat) (t : Ty) :
    newTypeDecoder U tag fuel t = .diverge ∨ newTypeDecoder U tag (fuel + 1) t = newTypeDecoder U tag fuel t := by
  unfold newTypeDecoder
  cases U.base t with
  | ptr e =>
    simp only
    rcases (build_le U { tag := if tag = [] then defaultTag else tag } fuel).2.1 e Codecs.empty with h | h
    · rw [h]
      simp only
      repeat' split
      all_goals first | exact .inr rfl | exact .inl rfl
    · rw [h]; exact .inr rfl
  | _ => exact .inr rfl

theorem encode_le (U : Univ) : ∀ fuel objs e b rv, OLe (encode U objs fuel e b rv) (encode U objs (fuel + 1) e b rv)
  | 0, objs, _, _, _ => by rw [encode]; exact .none _
  | fuel + 1, objs, e, b, rv => by
    have ih := encode_le U fuel
    rw [encode.eq_def U objs (fuel + 1), encode.eq_def U objs (fuel + 1 + 1)]
    simp only
    cases e with
    | ptr r =>
      simp only
      split <;> first | exact .refl _ | exact ih _ _ _ _
    | slice r =>
      simp only
      split <;> first | exact .refl _ | exact (encElems_le (ih _ _) _ _ _).andThen fun _ => .refl _
    | array r =>
      simp only
      split
      · split
        · exact (encElems_le (ih _ _) _ _ _).andThen fun _ => .refl _
        · exact .refl _
      · exact .refl _
    | map r =>
      simp only
      split <;> first | exact .refl _ | exact (encEntries_le (ih _ _) (ih _ _) _ _ _).andThen fun _ => .refl _
    | struct r =>
      simp only
      split
      · exact encFields_le (ih _) (omitRun_le U objs fuel) _ _ _ _
      · exact .refl _
    | iface =>
      simp only
      split
      · exact .refl _
      · rename_i t v _
        rcases newTypeEncoder_le U {} fuel t with h | h
        · rw [h]; exact .none _
        · rw [h]
          cases newTypeEncoder U {} fuel t with
          | ok m =>
            simp only
            split
            · split
              · exact ih _ _ _ _
              · exact .refl _
            · exact .refl _
            · split
              · exact ih _ _ _ _
              · exact .refl _
          | _ => exact .refl _
      · exact .refl _
    | _ => exact .refl _

theorem appendElems_le {r s : Bytes → Nat → Option (Bytes × Bool)} (h : ∀ b i, OLe (r b i) (s b i)) :
    ∀ vs first b, OLe (appendElems r vs first b) (appendElems s vs first b)
  | [], _, _ => .refl _
  | v :: vs, first, b => by
    unfold appendElems
    rcases h (if first then b else b ++ [44]) v.id with h' | h'
    · rw [h']; exact .none _
    · rw [h']
      split
      · exact .refl _
      · exact .refl _
      · exact appendElems_le h vs false _

theorem appendMembers_le {r s : Bytes → Nat → Option (Bytes × Bool)} (h : ∀ b i, OLe (r b i) (s b i)) :
    ∀ vs first b, OLe (appendMembers r vs first b) (appendMembers s vs first b)
  | [], _, _ => .refl _
  | v :: vs, first, b => by
    unfold appendMembers
    rcases h ((if first then b else b ++ [44]) ++ [34] ++ v.key ++ [34, 58]) v.id with h' | h'
    · rw [h']; exact .none _
    · rw [h']
      split
      · exact .refl _
      · exact .refl _
      · exact appendMembers_le h vs false _

theorem docAppend_le (get : Nat → Option NodeD) : ∀ fuel b i, OLe (Njson.appendJSON get fuel b i) (Njson.appendJSON get (fuel + 1) b i)
  | 0, _, _ => by rw [Njson.appendJSON]; exact .none _
  | fuel + 1, b, i => by
    have ih := docAppend_le get fuel
    rw [Njson.appendJSON.eq_def get (fuel + 1), Njson.appendJSON.eq_def get (fuel + 1 + 1)]
    simp only
    split
    · exact .refl _
    · split
      · rcases appendMembers_le ih (by assumption : NodeD).values.vis true (b ++ [123]) with h | h
        · rw [h]; exact .none _
        · rw [h]; exact .refl _
      · split
        · rcases appendElems_le ih (by assumption : NodeD).values.vis true (b ++ [91]) with h | h
          · rw [h]; exact .none _
          · rw [h]; exact .refl _
        · exact .refl _

theorem toAnySlice_le {r s : Nat → Option (Option GV)} (h : ∀ i, OLe (r i) (s i)) : ∀ vs xs, OLe (toAnySlice r vs xs) (toAnySlice s vs xs)
  | [], _ => .refl _
  | v :: vs, xs => by
    unfold toAnySlice
    rcases h v.id with h' | h'
    · rw [h']; exact .none _
    · rw [h']
      split
      · exact .refl _
      · exact .refl _
      · exact toAnySlice_le h vs _

theorem toAnyMap_le {r s : Nat → Option (Option GV)} (h : ∀ i, OLe (r i) (s i)) : ∀ vs xs, OLe (toAnyMap r vs xs) (toAnyMap s vs xs)
  | [], _ => .refl _
  | v :: vs, xs => by
    unfold toAnyMap
    rcases h v.id with h' | h'
    · rw [h']; exact .none _
    · rw [h']
      split
      · exact .refl _
      · exact .refl _
      · exact toAnyMap_le h vs _

theorem toAny_le (get : Nat → Option NodeD) : ∀ fuel i, OLe (toAny get fuel i) (toAny get (fuel + 1) i)
  | 0, _ => by rw [toAny]; exact .none _
  | fuel + 1, i => by
    have ih := toAny_le get fuel
    rw [toAny.eq_def get (fuel + 1), toAny.eq_def get (fuel + 1 + 1)]
    simp only
    split
    · exact .refl _
    · split
      · exact toAnyMap_le ih _ _
      · split
        · exact toAnySlice_le ih _ _
        · exact .refl _

theorem decMethod_le (U : Univ) (m : Meth) (fuel : Nat) (h : Heap) (n : Node) (t : Ty) (v : GV) :
    OLe (decMethod U m fuel h n t v) (decMethod U m (fuel + 1) h n t v) := by
  have key : OLe (n.wrapUnmarshalJSON h fuel) (n.wrapUnmarshalJSON h (fuel + 1)) := by
    have happ : OLe (n.appendJSON h fuel []) (n.appendJSON h (fuel + 1) []) := by
      unfold Node.appendJSON
      split
      · exact docAppend_le ..
      · exact .refl _
    unfold Node.wrapUnmarshalJSON
    rcases happ with h' | h'
    · simp only [h']
      repeat' split
      all_goals first | exact .refl _ | exact .none _
    · rw [h']; exact .refl _
  unfold decMethod
  split
  · exact .refl _
  · exact .refl _
  · rcases key with h' | h'
    · rw [h']; exact .none _
    · rw [h']; exact .refl _

theorem decMethodRV_le (U : Univ) (m : Meth) (fuel : Nat) (h : Heap) (n : Node) (rv : RV) :
    OLe (decMethodRV U m fuel h n rv) (decMethodRV U m (fuel + 1) h n rv) := by
  unfold decMethodRV
  split
  · exact .refl _
  · split
    · rename_i t v _ _
      rcases decMethod_le U m fuel h n t v with h' | h'
      · rw [h']; left; split
        · rename_i h; cases h
        · rfl
      · rw [h']; exact .refl _
    · exact .refl _

theorem decArray_le {r s : Node → GV → Option (Out GV)} (h : ∀ n v, OLe (r n v) (s n v)) (zero : GV) : ∀ xs ns, OLe (decArray r zero xs ns) (decArray s zero xs ns)
  | [], _ => by unfold decArray; exact .refl _
  | _ :: _, [] => .refl _
  | x :: xs, n :: ns => by
    unfold decArray
    rcases h n x with h' | h'
    · rw [h']; exact .none _
    · rw [h']
      split
      · exact .refl _
      · exact .refl _
      · rcases decArray_le h zero xs ns with h'' | h''
        · rw [h'']; exact .none _
        · rw [h'']; exact .refl _

theorem decSlice_le {r s : Node → GV → Option (Out GV)} (h : ∀ n v, OLe (r n v) (s n v)) : ∀ ns i arr len, OLe (decSlice r ns i arr len) (decSlice s ns i arr len)
  | [], _, _, _ => .refl _
  | n :: ns, i, arr, len => by
    unfold decSlice
    split
    · exact .refl _
    · rename_i x _
      rcases h n x with h' | h'
      · rw [h']; exact .none _
      · rw [h']
        split
        · exact .refl _
        · exact .refl _
        · exact decSlice_le h ns _ _ _
        · exact .refl _

theorem decMap_le {r s : Node → GV → Option (Out GV)} (h : ∀ n v, OLe (r n v) (s n v)) (zero : GV) (k : Bool) : ∀ ns m, OLe (decMap r zero k ns m) (decMap s zero k ns m)
  | [], _ => .refl _
  | (key, n) :: ns, m => by
    unfold decMap
    refine (h _ _).andThen fun y => ?_
    split
    · split
      · exact decMap_le h zero k ns _
      · exact .refl _
    · exact .refl _

theorem decodeAt_le {U : Univ} {f g : RV → Option (Out GV)} (h : ∀ rv, OLe (f rv) (g rv)) : ∀ is rv, OLe (decodeAt U f is rv) (decodeAt U g is rv)
  | [], rv => h rv
  | i :: is, rv => by
    unfold decodeAt
    split
    · split
      · rename_i t _ _
        rcases decodeAt_le h is ⟨t, U.zero t, true⟩ with h' | h'
        · rw [h']; exact .none _
        · rw [h']; exact .refl _
      · rename_i t v _ _
        rcases decodeAt_le h is ⟨t, v, true⟩ with h' | h'
        · rw [h']; exact .none _
        · rw [h']; exact .refl _
      · exact .refl _
    · split
      · rename_i x fs _ _
        rcases decodeAt_le h is x with h' | h'
        · rw [h']; exact .none _
        · rw [h']; exact .refl _
      · exact .refl _

theorem decFields_le {U : Univ} {r s : Dec → Node → RV → Option (Out GV)} (h : ∀ d n v, OLe (r d n v) (s d n v)) (fs : List Codec) (t : Ty) :
    ∀ ns v, OLe (decFields U r fs t ns v) (decFields U s fs t ns v)
  | [], _ => .refl _
  | (k, n) :: ns, v => by
    unfold decFields
    split
    · exact decFields_le h fs t ns v
    · split
      · exact decFields_le h fs t ns v
      · exact (decodeAt_le (h _ _) _ _).andThen fun v => decFields_le h fs t ns v

theorem decode_le (U : Univ) (objs : List Obj) (h : Heap) : ∀ fuel d n rv, OLe (decode U objs h fuel d n rv) (decode U objs h (fuel + 1) d n rv)
  | 0, _, _, _ => by rw [decode]; exact .none _
  | fuel + 1, d, n, rv => by
    have ih := decode_le U objs h fuel
    have key : ∀ d n rv, OLe (match Unjson.decode U objs h fuel d n rv with | some (.done x e) => some (.done (.ptr x) e) | r => r)
        (match Unjson.decode U objs h (fuel + 1) d n rv with | some (.done x e) => some (.done (GV.ptr x) e) | r => r) := by
      intro d n rv
      rcases ih d n rv with h' | h'
      · rw [h']; exact .none _
      · rw [h']; exact .refl _
    rw [decode.eq_def U objs h (fuel + 1), decode.eq_def U objs h (fuel + 1 + 1)]
    simp only
    cases d with
    | njson => exact decMethodRV_le ..
    | json => exact decMethodRV_le ..
    | text =>
      simp only
      split
      · exact decMethodRV_le ..
      · exact .refl _
    | iface =>
      simp only
      unfold decIface
      rcases toAny_le (getOf h (n.document h)) fuel n.id with h' | h'
      · rw [h']; exact .none _
      · rw [h']; exact .refl _
    | ptr r =>
      simp only
      split
      · split
        · split
          · split
            · exact .refl _
            · exact key _ _ _
          · exact .refl _
        · exact .refl _
      · exact .refl _
    | slice r =>
      simp only
      split
      · split
        · exact .refl _
        · split
          · split
            · exact .refl _
            · rename_i t d _ _ _ _ arr _
              rcases decSlice_le (fun n v => ih d n ⟨U.elem t, v, true⟩) ((kids h n).map (·.2)) 0 arr ((kids h n).map (·.2)).length with h' | h'
              · left; rw [h']
              · rw [h']; exact .refl _
          · exact .refl _
      · exact .refl _
    | array r =>
      simp only
      split
      · split
        · split
          · rename_i size el d xs _ _ _ _
            rcases decArray_le (fun n v => ih d n ⟨el, v, true⟩) (U.zero el) xs ((kids h n).map (·.2)) with h' | h'
            · left; rw [h']
            · rw [h']; exact .refl _
          · exact .refl _
        · exact .refl _
      · exact .refl _
    | map r =>
      simp only
      split
      · split
        · exact .refl _
        · split
          · exact decMap_le (fun n v => ih _ n _) _ _ _ _
          · exact .refl _
      · exact .refl _
    | struct r =>
      simp only
      split
      · split
        · exact .refl _
        · split
          · exact decFields_le ih _ _ _ _
          · exact .refl _
      · exact .refl _
    | _ => exact .refl _

/-- From one unit of fuel to any more. -/
theorem OLe.steps {α : Type} {f : Nat → Option α} (h : ∀ n, OLe (f n) (f (n + 1))) {a b : Nat} (hab : a ≤ b) : OLe (f a) (f b) := by
  obtain ⟨k, rfl⟩ : ∃ k, b = a + k := ⟨b - a, by omega⟩
  induction k with
  | zero => exact .refl _
  | succ k ih =>
    rcases ih (by omega) with h' | h'
    · exact .inl h'
    · rcases h (a + k) with h'' | h''
      · left; rw [← h', h'']
      · right; rw [← h']; exact h''

theorem typeEncode_le (U : Univ) (m : TypeEncoder) (b : Bytes) (t : Ty) (v : GV) (fuel : Nat) : OLe (m.encode U fuel b t v) (m.encode U (fuel + 1) b t v) := by
  unfold TypeEncoder.encode
  repeat' split
  all_goals first | exact .refl _ | exact encode_le ..

theorem appendJSON_le (U : Univ) (out : Bytes) (x : Option (Ty × GV)) (fuel : Nat) :
    OLe (Unjson.appendJSON U fuel out x) (Unjson.appendJSON U (fuel + 1) out x) := by
  unfold Unjson.appendJSON
  split
  · exact .refl _
  · rename_i t v
    rcases newTypeEncoder_le U {} fuel t with h | h
    · rw [h]; exact .none _
    · rw [h]
      split
      · exact .refl _
      · exact .refl _
      · exact typeEncode_le ..

theorem typeDecode_le (U : Univ) (c : TypeDecoder) (h : Heap) (n : Node) (t : Ty) (v : GV) (fuel : Nat) :
    OLe (c.decode U fuel h n t v) (c.decode U (fuel + 1) h n t v) := by
  have key : ∀ objs d n rv, OLe (match Unjson.decode U objs h fuel d n rv with | some (.done x e) => some (.done (.ptr x) e) | r => r)
      (match Unjson.decode U objs h (fuel + 1) d n rv with | some (.done x e) => some (.done (GV.ptr x) e) | r => r) := by
    intro objs d n rv
    rcases decode_le U objs h fuel d n rv with h' | h'
    · rw [h']; exact .none _
    · rw [h']; exact .refl _
  unfold TypeDecoder.decode
  cases c with
  | iface =>
    simp only
    rcases toAny_le (getOf h (n.document h)) fuel n.id with h' | h'
    · simp only [h']
      repeat' split
      all_goals first | exact .refl _ | exact .none _
    · rw [h']; exact .refl _
  | typ ty d objs =>
    simp only
    split
    · split
      · exact key _ _ _ _
      all_goals exact .refl _
    · exact .refl _
  | _ =>
    simp only
    split
    · exact decMethod_le ..
    · exact .refl _

theorem unmarshal_le (U : Univ) (d : Doc) (s : Bytes) (x : Option (Ty × GV)) (fuel : Nat) : OLe (unmarshal U fuel d s x) (unmarshal U (fuel + 1) d s x) := by
  unfold unmarshal
  split
  · exact .refl _
  · rename_i t v
    rcases newTypeDecoder_le U [] fuel t with h | h
    · rw [h]; exact .none _
    · rw [h]
      split
      · exact .refl _
      · exact .refl _
      · split
        · rename_i c _ _ h n _ _ _
          rcases typeDecode_le U c h n t v fuel with h' | h'
          · rw [h']; exact .none _
          · rw [h']; exact .refl _
        · exact .refl _
        · exact .refl _

end Verif.Unjson
