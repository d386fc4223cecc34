import Verif.Model.Node

/-!
# Model of the read accessors of `node.go` and `document.go`: iteration, conversion, unmarshal hooks

The iterator's `values` is a snapshot: in Go it shares the backing array with the node, so edits made through
the API *during* an iteration may be visible to it. This file is about iterations without such edits;
Model/Live.lean is about iterations with them.
-/

namespace Verif.Njson
open Verif

/-! ## Iterator -/

/-- node.go:450-456 `IterV` (the embedded `V` is `v`). -/
structure IterV where
  v : V
  index : Int
  values : List V
  node : Node
  deriving DecidableEq

/-- node.go:143-148 `Values` -/
def Node.iter (h : Heap) (n : Node) : IterV :=
  match n.get h with
  | some d => ⟨V.zero, 0, d.values.vis, n⟩
  | none => ⟨V.zero, 0, [], Node.zero⟩

/-- node.go:458-461 `Reset` -/
def IterV.reset (i : IterV) : IterV := { i with index := 0, v := { i.v with id := maxUint } }

/-- node.go:464-471 `Close` -/
def IterV.close (_ : IterV) : IterV := ⟨⟨maxUint, []⟩, -1, [], Node.zero⟩

/-- node.go:474-484 `Next` -/
def IterV.next (i : IterV) : Bool × IterV :=
  if 0 ≤ i.index ∧ i.index < i.values.length then
    (true, { i with v := i.values.getD i.index.toNat V.zero, index := i.index + 1 })
  else (false, { i with v := { i.v with id := maxUint }, index := -1 })

/-- node.go:487-489 `Len` -/
def IterV.len (i : IterV) : Nat := i.values.length
/-- node.go:494-496 `Index` -/
def IterV.indexOf (i : IterV) : Int := i.index - 1
/-- node.go:499-501 `Value` -/
def IterV.value (i : IterV) : Node := i.node.with_ i.v.id

/-! ## Conversion to Go values -/

/-- The dynamic values `ToInterface` builds; `F` is the type of floats. A Go map is its lookup function. -/
inductive GoVal (F : Type) where
  | nil
  | bool (b : Bool)
  | float (f : F)
  | str (s : Bytes)
  | slice (xs : List (GoVal F))
  | map (m : Bytes → Option (GoVal F))

/-- document.go:239-249: the loop of `toInterfaceSlice`; `rec` is `toInterface`. The inner `none` is `ok = false`. -/
def toInterfaceSlice {F : Type} (rec : Nat → Option (Option (GoVal F))) : List V → List (GoVal F) → Option (Option (GoVal F))
  | [], x => some (some (.slice x))
  | v :: vs, x =>
    match rec v.id with
    | none => none
    | some none => some none
    | some (some g) => toInterfaceSlice rec vs (x ++ [g])

/-- document.go:223-235: the loop of `toInterfaceMap`: later members overwrite earlier ones. -/
def toInterfaceMap {F : Type} (rec : Nat → Option (Option (GoVal F))) :
    List V → (Bytes → Option (GoVal F)) → Option (Option (GoVal F))
  | [], m => some (some (.map m))
  | v :: vs, m =>
    match rec v.id with
    | none => none
    | some none => some none
    | some (some g) => toInterfaceMap rec vs (fun k => if k = v.key then some g else m k)

/-- document.go:192-221 `toInterface`. `pf` is `numjson.ParseFloat`, `none` for NaN. The outer `none` means that the
recursion does not end (cyclic document); the inner `none` is `ok = false`, whose accompanying value is not modelled. -/
def toInterface {F : Type} (pf : Bytes → Option F) (get : Nat → Option NodeD) : Nat → Nat → Option (Option (GoVal F))
  | 0, _ => none
  | fuel + 1, id =>
    match get id with
    | none => some none
    | some n =>
      if n.typ = tObject then toInterfaceMap (toInterface pf get fuel) n.values.vis (fun _ => none)
      else if n.typ = tArray then toInterfaceSlice (toInterface pf get fuel) n.values.vis []
      else if n.typ = tString then some (some (.str (StrJson.unescaped n.raw)))
      else if n.typ = tBoolean then
        if n.raw = strTrue then some (some (.bool true))
        else if n.raw = strFalse then some (some (.bool false))
        else some none
      else if n.typ = tNull then some (some .nil)
      else if n.typ = tNumber then
        match pf n.raw with
        | some f => some (some (.float f))
        | none => some none
      else some none

/-- node.go:161-163 `ToInterface` -/
def Node.toInterface {F : Type} (pf : Bytes → Option F) (h : Heap) (fuel : Nat) (n : Node) : Option (Option (GoVal F)) :=
  Njson.toInterface pf (getOf h (n.document h)) fuel n.id

/-! ## Unmarshal hooks -/

/-- What a wrapper did: called the hook with some bytes, or returned an error without calling it. -/
inductive Hook
  | called (data : Bytes)
  | typeError (got want : Typ)
  | jsonError
  deriving DecidableEq

/-- node.go:192-220 `WrapUnmarshalJSON`. The buffer comes from a pool and is handed back after the call; a hook that
keeps a reference to its argument (which encoding/json forbids) is not modelled. -/
def Node.wrapUnmarshalJSON (h : Heap) (fuel : Nat) (n : Node) : Option Hook :=
  match n.get h with
  | none => some (.typeError tInvalid tAnyValue)
  | some d =>
    if d.typ = tArray ∧ d.values.vis.length = 0 then some (.called [91, 93])
    else if d.typ = tObject ∧ d.values.vis.length = 0 then some (.called [123, 125])
    else if d.typ = tString ∧ d.raw = [] then some (.called [34, 34])
    else if d.typ = tInvalid then some (.typeError tInvalid tAnyValue)
    else
      match n.appendJSON h fuel [] with
      | none => none
      | some (data, false) => some (.called data)
      | some (_, true) => some .jsonError

/-- node.go:224-238 `WrapUnmarshalText` -/
def Node.wrapUnmarshalText (h : Heap) (n : Node) : Hook :=
  match n.get h with
  | none => .typeError tInvalid tString
  | some d => if d.typ = tString then .called d.raw else .typeError d.typ tString

/-- node.go:177-190 `PrintJSON`: the bytes passed to the writer (`none` when nothing is written), and whether an error
is returned although the writer accepts everything. -/
def Node.printJSON (h : Heap) (fuel : Nat) (n : Node) : Option (Option Bytes × Bool) :=
  match n.appendJSON h fuel [] with
  | none => none
  | some (data, false) => some (some data, false)
  | some (_, true) => some (none, true)

end Verif.Njson
