import Verif.Model.Struct
/-!
# What is expected of struct controllers
-/
set_option autoImplicit false
namespace Neffos.Spec

/-- all its parts are the zero value of their type -/
inductive Blank : RVal → Prop
  | leaf : Blank (.leaf 0)
  | ref : Blank (.ref none)
  | array {es : List RVal} : (∀ e ∈ es, Blank e) → Blank (.array es)
  | struct {isz : Option IsZ} {fs : List (Vis × RVal)} : (∀ f ∈ fs, Blank f.2) → Blank (.struct isz fs)

/-- Every `IsZero` method in it is `IsZero() bool`, says true only of zero values, and is not reached
through an unexported field; or it is not asked, as it has arguments, or several results the first of which is not a
boolean. -/
inductive Fair : Bool → Bool → RVal → Prop
  | leaf {sticky ro : Bool} (v : Nat) : Fair sticky ro (.leaf v)
  | ref {sticky ro : Bool} (v : Option Nat) : Fair sticky ro (.ref v)
  | array {sticky ro : Bool} {es : List RVal} : (∀ e ∈ es, Fair ro ro e) → Fair sticky ro (.array es)
  | noMethod {sticky ro : Bool} {fs : List (Vis × RVal)} :
      (∀ f ∈ fs, Fair (sticky || f.1 = .hidden) (sticky || f.1 ≠ .exported) f.2) →
      Fair sticky ro (.struct none fs)
  | method {sticky : Bool} {says : Bool} {fs : List (Vis × RVal)} :
      (∀ f ∈ fs, Fair (sticky || f.1 = .hidden) (sticky || f.1 ≠ .exported) f.2) →
      (says = true → ∀ f ∈ fs, Blank f.2) → Fair sticky false (.struct (some ⟨0, [.bool], says⟩) fs)
  | notAsked {sticky ro : Bool} {m : IsZ} {fs : List (Vis × RVal)} :
      (∀ f ∈ fs, Fair (sticky || f.1 = .hidden) (sticky || f.1 ≠ .exported) f.2) →
      (0 < m.args ∨ ∃ o l, m.outs = .other :: o :: l) → Fair sticky ro (.struct (some m) fs)

/-- two struct values of one type have fields of the same visibility -/
def SameShape (a b : List (Vis × RVal)) : Prop := a.map (·.1) = b.map (·.1)

/-- a field of this name is in the struct or in an embedded one, at some depth -/
inductive HasField (name : Bytes) : List SField → Prop
  | here {fs : List SField} {f : SField} : f ∈ fs → f.name = name → HasField name fs
  | sub {fs : List SField} {f : SField} : f ∈ fs → HasField name f.fields → HasField name fs

/-- the last value that the calls set -/
def lastSet {α : Type} (get : StructOp → Option α) (ops : List StructOp) (d : α) : α :=
  ((ops.filterMap get).getLast?).getD d

def nsOf : StructOp → Option Bytes
  | .setNamespace ns => some ns
  | _ => none
def matcherOf : StructOp → Option (Option Matcher)
  | .setMatcher m => some m
  | _ => none
def injectorOf : StructOp → Option (Option Nat)
  | .setInjector i => some i
  | _ => none
def timeoutsOf : StructOp → Option (Int × Int)
  | .setTimeouts r w => some (r, w)
  | _ => none

/-- the calls that build the events -/
def BuildsEvents : StructOp → Bool
  | .events => true
  | .getNamespaces => true
  | _ => false

/-- the calls before the events were built -/
def beforeUse (ops : List StructOp) : List StructOp := ops.takeWhile (fun o => !BuildsEvents o)

end Neffos.Spec
