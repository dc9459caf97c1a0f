import Verif.Model.Register
/-!
# What a value is sent as, and what is made of it (for C126)
-/
set_option autoImplicit false
namespace Neffos.Spec

/-- The value is marshaled with this result: by its own method if it has one, else by the default. -/
inductive Marshals (v : Marshalable) : Except GoErr Bytes → Prop where
  | own {r : Except GoErr Bytes} (h : v.own = some r) : Marshals v r
  | default (h : v.own = none) : Marshals v v.default

/-- The bytes are unmarshaled with this result: by the pointer's own method if it has one, else by the default. -/
inductive Unmarshals {V : Type} (u : Unmarshalable V) (b : Bytes) : Except GoErr V → Prop where
  | own {f : Bytes → Except GoErr V} (h : u.own = some f) : Unmarshals u b (f b)
  | default (h : u.own = none) : Unmarshals u b (u.default b)

/-- The body that stands for a result of marshaling: the bytes, or the text of the error. -/
inductive Stands : Except GoErr Bytes → Bytes → Prop where
  | bytes (b : Bytes) : Stands (.ok b) b
  | text (e : GoErr) : Stands (.error e) e.errorText

end Neffos.Spec
