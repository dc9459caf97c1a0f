import Verif.Model.Struct
set_option autoImplicit false
/-!
# Fields of embedded structs, by their index path (Go specification, Selectors)
-/
namespace Neffos.Spec

/-- the field at an index path: the first index is a field of the struct, every further one a field of
the embedded struct before it -/
def fieldAt (fs : List SField) : List Nat → Option SField
  | [] => none
  | i :: p => match fs[i]? with
    | none => none
    | some f => if p = [] then some f else fieldAt f.fields p

/-- the path that `x.name` means: a field of that name with all other such fields deeper -/
def Selects (fs : List SField) (name : Bytes) (p : List Nat) (f : SField) : Prop :=
  fieldAt fs p = some f ∧ f.name = name ∧
    ∀ q g, fieldAt fs q = some g → g.name = name → q = p ∨ p.length < q.length

end Neffos.Spec
