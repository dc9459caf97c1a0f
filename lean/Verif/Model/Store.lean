import Verif.Model.Bytes
/-!
# The store of a connection (conn.go:186-269)

Every `Set` and `Get` holds the mutex from start to end, so it is one atomic step;
`Increment` and `Decrement` are a `Get` and a `Set`.
-/
namespace Neffos

/-- A stored value: nil, an int (64 bits), or a value of another type. -/
inductive Val where
  | nil
  | int (n : BitVec 64)
  | other (x : Nat)
  deriving DecidableEq

/-- conn.go:51 the map of the store; a missing key and a nil map read as nil -/
abbrev Store := Bytes → Val

/-- conn.go:187-194 `Set` -/
def Store.set (st : Store) (key : Bytes) (v : Val) : Store :=
  fun k => if k = key then v else st k

/-- conn.go:219-237 the value that `Increment` stores and returns -/
def incremented : Val → BitVec 64
  | .nil => 1
  | .other _ => 1
  | .int n => n + 1

/-- conn.go:252-269 the value that `Decrement` stores and returns -/
def decremented : Val → BitVec 64
  | .nil => -1
  | .other _ => -1
  | .int n => n - 1

/-- an operation on the store -/
inductive StoreOp where
  | set (key : Bytes) (v : Val)
  | get (key : Bytes)
  | inc (key : Bytes)
  | dec (key : Bytes)
  deriving DecidableEq

/-- the key of an operation -/
def StoreOp.key : StoreOp → Bytes
  | .set k _ => k
  | .get k => k
  | .inc k => k
  | .dec k => k

/-- one operation without interference: the store after it and the value it returned -/
def StoreOp.run (st : Store) : StoreOp → Store × Val
  | .set k v => (st.set k v, .nil)
  | .get k => (st, st k)
  | .inc k => (st.set k (.int (incremented (st k))), .int (incremented (st k)))
  | .dec k => (st.set k (.int (decremented (st k))), .int (decremented (st k)))

/-! ## Many goroutines -/

/-- a goroutine: the operations still to be done and, between the `Get` and the `Set` of the
first of them, the value it got -/
structure Client where
  todo : List StoreOp
  got : Option Val
  /-- what its operations returned, oldest first -/
  results : List Val
  deriving DecidableEq

/-- the store and its users -/
structure StoreSys where
  store : Store
  clients : List Client

/-- the next step of a client: the store and the client after it -/
def Client.next (st : Store) (c : Client) : Option (Store × Client) :=
  match c.todo with
  | [] => none
  | .set k v :: rest => some (st.set k v, ⟨rest, none, c.results ++ [.nil]⟩)
  | .get k :: rest => some (st, ⟨rest, none, c.results ++ [st k]⟩)
  | .inc k :: rest =>
    match c.got with
    | none => some (st, { c with got := some (st k) })
    | some v => some (st.set k (.int (incremented v)), ⟨rest, none, c.results ++ [.int (incremented v)]⟩)
  | .dec k :: rest =>
    match c.got with
    | none => some (st, { c with got := some (st k) })
    | some v => some (st.set k (.int (decremented v)), ⟨rest, none, c.results ++ [.int (decremented v)]⟩)

/-- client `i` makes a step -/
def StoreSys.step (s : StoreSys) (i : Nat) : Option StoreSys :=
  match s.clients[i]? with
  | none => none
  | some c =>
    match c.next s.store with
    | none => none
    | some (st, c') => some ⟨st, s.clients.set i c'⟩

/-- the start: a store and what each client will do -/
def StoreSys.init (st : Store) (progs : List (List StoreOp)) : StoreSys :=
  ⟨st, progs.map (fun p => ⟨p, none, []⟩)⟩

/-- all states under any interleaving -/
inductive StoreSys.Reach (st : Store) (progs : List (List StoreOp)) : StoreSys → Prop
  | init : StoreSys.Reach st progs (StoreSys.init st progs)
  | step {s s' : StoreSys} {i : Nat} : StoreSys.Reach st progs s → s.step i = some s' →
      StoreSys.Reach st progs s'

end Neffos
