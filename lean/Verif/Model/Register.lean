import Verif.Model.Handler
/-!
# Registering callbacks, accepting structs, marshaling bodies (conn_handler.go:53-77, 211-254, message.go:151-186)
-/
namespace Neffos

/-! ### On -/

/-- conn_handler.go:53-55 `Events.On`. `none`: assignment to an entry of a nil map, a panic. -/
def eventsOn {α : Type} (heap : Heap α) (e : Option Nat) (ev : Bytes) (cb : α) : Option (Heap α) :=
  e.map fun p => heap.put p ev cb

/-- conn_handler.go:70-77 `Namespaces.On`: the heap, the namespaces and the map that is returned -/
def namespacesOn {α : Type} (heap : Heap α) (nss : Option NsMap) (ns ev : Bytes) (cb : α) :
    Option (Heap α × NsMap × Nat) :=
  match nss with
  | none => none
  | some m =>
    match mapGet m ns with
    | some (some p) => some (heap.put p ev cb, m, p)
    | _ => some ((heap ++ [[]]).put heap.length ev cb, mapSet m ns (some heap.length), heap.length)

/-- one call of `Namespaces.On` after the other -/
def onAll {α : Type} (heap : Heap α) (m : NsMap) : List (Bytes × Bytes × α) → Heap α × NsMap
  | [] => (heap, m)
  | (ns, ev, cb) :: t =>
    match namespacesOn heap (some m) ns ev cb with
    | some (heap', m', _) => onAll heap' m' t
    | none => (heap, m)

/-! ### NewStruct -/

/-- what `NewStruct` asks about its argument, by reflection -/
structure StructArg where
  isNil : Bool := false
  /-- it is a *Struct already -/
  isHandler : Bool := false
  valid : Bool := true
  isPtr : Bool := true
  /-- its type is convertible to *NSConn -/
  toNSConn : Bool := false
  toStruct : Bool := true
  /-- the exported methods -/
  methods : List Method := []

/-- conn_handler.go:211-254 `NewStruct`: the text of its panic, or whether the argument was returned as it is -/
def newStruct (a : StructArg) : Except Bytes Bool :=
  if a.isNil then .error (b! "NewStruct: value is nil")
  else if a.isHandler then .ok true
  else if !a.valid then .error (b! "NewStruct: value is not a valid one")
  else if !a.isPtr then .error (b! "NewStruct: value should be a pointer")
  else if a.toNSConn then .error (b! "NewStruct: conversion is not allowed")
  else if !a.toStruct then .error (b! "NewStruct: value does not points to a struct")
  else if a.methods.length = 0 ∨ a.methods.length = 1 ∧ a.methods.any (·.name = b! "Namespace") then
    .error (b! "NewStruct: value does not contain any exported methods")
  else .ok false

/-! ### Marshal -/

/-- a value: the result of its method `Marshal`, if it has one, and of the default marshaler -/
structure Marshalable where
  own : Option (Except GoErr Bytes)
  default : Except GoErr Bytes

/-- message.go:151-171 `Marshal`. `none`: panic -/
def marshal : Option Marshalable → Option Bytes
  | none => none
  | some v =>
    match (match v.own with | some r => r | none => v.default) with
    | .error e => some e.errorText
    | .ok b => some b

/-- a pointer to a value of type `α`: its method `Unmarshal`, if it has one, and the default unmarshaler -/
structure Unmarshalable (α : Type) where
  own : Option (Bytes → Except GoErr α)
  default : Bytes → Except GoErr α

/-- message.go:176-186 `Unmarshal`. `none`: panic -/
def unmarshal {α : Type} (body : Bytes) : Option (Unmarshalable α) → Option (Except GoErr α)
  | none => none
  | some u => some (match u.own with | some f => f body | none => u.default body)

end Neffos
