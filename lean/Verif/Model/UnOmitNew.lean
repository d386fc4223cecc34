import Verif.Model.UnCodec

/-!
# Omiters of interface types

UnCodec.lean leaves the methods of interface types out. Here `newCustomOmiter` and `newOmiter` are followed for all types: `MethodByName` of an
interface type finds the methods of the interface, but `Func` of what it returns is the zero `reflect.Value`, so `method.Func.Type()` panics.
-/

namespace Verif.Unjson
open Verif

/-- `reflect.Type.MethodByName`: `some true` is a method without parameters and with one result of kind bool, `some false` any other method. -/
abbrev ByName := Ty → Bytes → Option Bool

/-- A constructor that may panic. -/
inductive Made (α : Type)
  | panic
  | made (o : α)
  deriving DecidableEq

/-- `reflect.Type.Kind` is `Interface` -/
def Univ.isIface (U : Univ) (t : Ty) : Bool :=
  match U.base t with
  | .iface _ _ => true
  | _ => false

/-- omit.go:85-93 `customOmiter`: whether there is an omiter -/
def customOmiterP (U : Univ) (M : ByName) (t : Ty) (name : Bytes) : Made Bool :=
  match M t name with
  | none => .made false
  | some sig => if U.isIface t then .panic else .made sig

/-- omit.go:115-140 `newCustomOmiter` -/
def newCustomOmiterP (U : Univ) (M : ByName) (t : Ty) (name : Bytes) : Made (Option Omiter) :=
  let name := if name = [] then defaultOmitMethod else name
  match customOmiterP U M t name with
  | .panic => .panic
  | .made true => .made (some (.method name t))
  | .made false =>
    match U.base t with
    | .ptr e =>
      match customOmiterP U M e name with
      | .panic => .panic
      | .made b => .made (if b then some (.ptrMethod name e) else none)
    | _ =>
      match customOmiterP U M (.ptr t) name with
      | .panic => .panic
      | .made b => .made (if b then some (.elemMethod name (.ptr t)) else none)

/-- omit.go:166-198 `newOmiter`; `none` is an exhausted budget -/
def newOmiterP (U : Univ) (M : ByName) (name : Bytes) : Nat → Ty → Option (Made Omiter)
  | 0, _ => none
  | fuel + 1, t =>
    match newCustomOmiterP U M t name with
    | .panic => some .panic
    | .made (some o) => some (.made o)
    | .made none =>
      match U.base t with
      | .ptr _ => some (.made .nil)
      | .struct _ => some (.made .never)
      | .slice _ => some (.made .zeroLen)
      | .map _ _ => some (.made .zeroLen)
      | .string => some (.made .zeroLen)
      | .array n e =>
        match newOmiterP U M name fuel e with
        | some (.made o) => some (.made (.array n o))
        | r => r
      | .iface m _ => some (.made (if m = 0 then .nil else .always))
      | .int _ => some (.made .int)
      | .uint _ => some (.made .uint)
      | .float _ => some (.made .float)
      | .bool => some (.made .bool)
      | .other => some (.made .always)
      | .named _ => some (.made .always)

end Verif.Unjson
