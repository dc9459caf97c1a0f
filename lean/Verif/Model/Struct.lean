import Verif.Model.Handler
/-!
# Struct controllers: the values behind them (reflect.go:16-104, 106-135, 259-307, conn_handler.go:117-280)

A struct controller with a field of type `*NSConn` is dynamic: every NSConn gets a struct
value of its own, made when OnNamespaceConnect fires. Here are the fields of that value,
and the namespace of a controller.

A reflect.Value is its content and two flags: `ro`, it was obtained through an unexported
field and must not be read by `Interface`, called or set (reflect's flagRO), and `sticky`,
the part of this that goes on to the fields of the value (flagStickyRO). A panic is `none`.
Simplified: user methods return; field types are not compared, `Set` is applied to values of
the right type; embedded struct types are distinct and not recursive.
-/
namespace Neffos

/-- how a field is declared: exported; unexported; embedded with an unexported type -/
inductive Vis where
  | exported | hidden | embedded
  deriving DecidableEq

/-- the result types of a user-defined `IsZero` that make a difference: `bool`, another type
of kind Bool, any other type -/
inductive OutTy where
  | bool | namedBool | other
  deriving DecidableEq

/-- an `IsZero` method of a struct type: the number of its arguments, its result types, and
its first result for the value at hand -/
structure IsZ where
  args : Nat
  outs : List OutTy
  says : Bool
  deriving DecidableEq

/-- a value as `isZero` sees it, reflect.go:16-63 -/
inductive RVal where
  /-- a comparable kind: numbers, strings, booleans, pointers, …; 0 is its zero value -/
  | leaf (v : Nat)
  /-- a func, map or slice: nil or something -/
  | ref (v : Option Nat)
  | array (es : List RVal)
  | struct (isz : Option IsZ) (fs : List (Vis × RVal))

/-- reflect.go:24-41: the user-defined `IsZero` decides, if there is a usable one; `z` is what
the fields said. `NumOut() != 1 && Out(0).Kind() != Bool` is what the code has. -/
def isZeroMethod (ro : Bool) (isz : Option IsZ) (z : Bool) : Option Bool :=
  match isz with
  | none => some z
  | some m =>
    if m.args > 0 then some z
    else match m.outs with
      | [] => none
      | o :: rest =>
        if rest ≠ [] ∧ o = .other then some z
        else if ro then none
        else if o = .bool then some m.says
        else none

mutual
/-- reflect.go:16-63 `isZero` -/
def isZero (sticky ro : Bool) : RVal → Option Bool
  | .leaf v => if ro then some false else some (v == 0)
  | .ref v => some v.isNone
  | .array es => elemsZero ro es
  | .struct isz fs =>
    match fieldsZero sticky fs with
    | none => none
    | some z => isZeroMethod ro isz z
/-- reflect.go:46-50; `zero && isZero(…)` stops at the first that is not zero -/
def elemsZero (ro : Bool) : List RVal → Option Bool
  | [] => some true
  | v :: t =>
    match isZero ro ro v with
    | none => none
    | some false => some false
    | some true => elemsZero ro t
/-- reflect.go:19-22 -/
def fieldsZero (sticky : Bool) : List (Vis × RVal) → Option Bool
  | [] => some true
  | (vis, v) :: t =>
    match isZero (sticky || vis = .hidden) (sticky || vis ≠ .exported) v with
    | none => none
    | some false => some false
    | some true => fieldsZero sticky t
end

mutual
/-- the zero value of the same type -/
def zeroVal : RVal → RVal
  | .leaf _ => .leaf 0
  | .ref _ => .ref none
  | .array es => .array (zeroVals es)
  | .struct isz fs => .struct isz (zeroFields fs)
def zeroVals : List RVal → List RVal
  | [] => []
  | v :: t => zeroVal v :: zeroVals t
def zeroFields : List (Vis × RVal) → List (Vis × RVal)
  | [] => []
  | (vis, v) :: t => (vis, zeroVal v) :: zeroFields t
end

/-- reflect.go:80-98 `getNonZeroFields` of the struct that a pointer points to: for every
field whether it is in the result -/
def nonZeroFields : List (Vis × RVal) → Option (List Bool)
  | [] => some []
  | (vis, v) :: t =>
    match isZero (vis = .hidden) (vis ≠ .exported) v with
    | none => none
    | some z =>
      match nonZeroFields t with
      | none => none
      | some l => some ((!z) :: l)

/-- `v.Field(i).Set(x)` -/
def setField (fs : List (Vis × RVal)) (i : Nat) (x : RVal) : Option (List (Vis × RVal)) :=
  match fs[i]? with
  | some (.exported, _) => some (fs.set i (.exported, x))
  | _ => none

/-- reflect.go:293-295 the loop over the static fields, in the order `order` -/
def setStatics (orig : List (Vis × RVal)) : List Nat → List (Vis × RVal) → Option (List (Vis × RVal))
  | [], fs => some fs
  | i :: t, fs =>
    match orig[i]? with
    | none => none
    | some (_, x) =>
      match setField fs i x with
      | none => none
      | some fs => setStatics orig t fs

/-- reflect.go:286-299 the value made for an NSConn: `fresh` is what the injector returned,
`nsIdx` the field of type `*NSConn`, `order` the static fields as `range` gives them -/
def makeInstance (orig fresh : List (Vis × RVal)) (nsIdx : Nat) (order : List Nat) (conn : RVal) :
    Option (List (Vis × RVal)) :=
  match setField fresh nsIdx conn with
  | none => none
  | some fs => setStatics orig order fs

/-- `order` is what `range` may give for the static fields -/
def RangeOf (statics : List Bool) (order : List Nat) : Prop :=
  order.Nodup ∧ ∀ i, i ∈ order ↔ statics[i]? = some true

/-! ## The namespace of a controller -/

/-- a field of a struct type, as `FieldByNameFunc` and `String` see it: its name, whether its
kind is string and its value then; for an embedded struct the name of its type and its fields -/
inductive SField where
  | mk (name : Bytes) (isStr : Bool) (value : Bytes) (sub : Option (Bytes × List SField))

def SField.name : SField → Bytes
  | .mk n _ _ _ => n
def SField.isStr : SField → Bool
  | .mk _ s _ _ => s
def SField.value : SField → Bytes
  | .mk _ _ v _ => v
def SField.sub : SField → Option (Bytes × List SField)
  | .mk _ _ _ s => s
/-- the fields of an embedded struct -/
def SField.fields (f : SField) : List SField := match f.sub with
  | some (_, l) => l
  | none => []

mutual
def SField.size : SField → Nat
  | .mk _ _ _ none => 1
  | .mk _ _ _ (some (_, l)) => 1 + sizes l
def sizes : List SField → Nat
  | [] => 0
  | f :: t => f.size + sizes t
end

/-- reflect's `FieldByNameFunc`: breadth first over the embedded structs; a name that appears
twice at the first depth where it appears is no match. The result is the index of the field
of the outermost struct that leads to it, and the field. `fuel` bounds the depth. -/
def fieldByName (name : Bytes) : Nat → List (Nat × SField) → Option (Nat × SField)
  | 0, _ => none
  | fuel + 1, level =>
    match level.filter (fun p => p.2.name = name) with
    | [p] => some p
    | _ :: _ :: _ => none
    | [] => fieldByName name fuel (level.flatMap (fun p => p.2.fields.map (fun f => (p.1, f))))

/-- `v.String()` of a reflect.Value: the string, or a placeholder for other kinds -/
def reflectString (f : SField) : Bytes :=
  if f.isStr then f.value
  else match f.sub with
    | some (typ, _) => b! "<" ++ typ ++ b! " Value>"
    | none => b! "<other Value>"

/-- a controller: the result of its method `Namespace() string` if it has one, and its fields -/
structure Ctl where
  nsMethod : Option Bytes
  fields : List SField

/-- reflect.go:106-135 `resolveStructNamespace`; a field is found by name at any depth but its
value is read at `f.Index[0]` -/
def resolveStructNamespace (c : Ctl) : Option Bytes :=
  match c.nsMethod with
  | some ns => some ns
  | none =>
    match fieldByName (b! "Namespace") (sizes c.fields + 1) (c.fields.zipIdx.map (fun p => (p.2, p.1))) with
    | some (i, f) =>
      if f.isStr then
        match c.fields[i]? with
        | some g => some (reflectString g)
        | none => none
      else none
    | none => none

/-- conn_handler.go:117-131 the settings of a `Struct`; `built` is what `Events` has cached -/
structure StructH where
  ns : Bytes := []
  matcher : Option Matcher := none
  injector : Option Nat := none
  read : Int := 0
  write : Int := 0
  built : Option (Option Matcher × Option Nat) := none

/-- the calls on a `Struct` -/
inductive StructOp where
  /-- conn_handler.go:136-139 -/
  | setNamespace (ns : Bytes)
  /-- conn_handler.go:168-171 -/
  | setMatcher (m : Option Matcher)
  /-- conn_handler.go:177-182 -/
  | setTimeouts (read write : Int)
  /-- conn_handler.go:191-194 -/
  | setInjector (i : Option Nat)
  /-- conn_handler.go:261-268 -/
  | events
  /-- conn_handler.go:272-280 -/
  | getNamespaces

/-- conn_handler.go:261-268 `Events`: built once, with the matcher and the injector of then -/
def StructH.events (s : StructH) : StructH × (Option Matcher × Option Nat) :=
  match s.built with
  | some e => (s, e)
  | none => ({ s with built := some (s.matcher, s.injector) }, (s.matcher, s.injector))

/-- conn_handler.go:272-280 `GetNamespaces` -/
def StructH.getNamespaces (c : Ctl) (s : StructH) : StructH × (Bytes × (Option Matcher × Option Nat)) :=
  let s := if s.ns = [] then { s with ns := (resolveStructNamespace c).getD [] } else s
  let (s', e) := s.events
  (s', (s'.ns, e))

/-- one call -/
def StructH.step (c : Ctl) (s : StructH) : StructOp → StructH
  | .setNamespace ns => { s with ns := ns }
  | .setMatcher m => { s with matcher := m }
  | .setTimeouts r w => { s with read := r, write := w }
  | .setInjector i => { s with injector := i }
  | .events => s.events.1
  | .getNamespaces => (s.getNamespaces c).1

end Neffos
