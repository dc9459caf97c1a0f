import Verif.Model.Conn
/-!
# Connection handlers (conn_handler.go, reflect.go:176-213, 228-310)

A Go map value is a reference: an `Events` map lives at an address of a heap, so that it can
be seen which maps are written. A nil map is `none`.
-/
namespace Neffos

/-! ## Dispatch -/

/-- event.go:15 `MessageHandlerFunc`: a callback changes the world and returns an error -/
abbrev MsgHandler (σ : Type) := Nat → Message → σ → σ × Option GoErr

/-- conn_handler.go:39-49 `fireEvent` -/
def fireEvent {σ : Type} (e : List (Bytes × MsgHandler σ)) (c : Nat) (msg : Message) (w : σ) :
    σ × Option GoErr :=
  match mapGet e msg.event with
  | some h => h c msg w
  | none =>
    match mapGet e OnAnyEvent with
    | some h => h c msg w
    | none => (w, none)

/-! ## Joining -/

/-- the `Events` maps that exist, by address -/
abbrev Heap (α : Type) := List (List (Bytes × α))

/-- the content of the map at an address -/
def Heap.at {α : Type} (h : Heap α) (p : Nat) : List (Bytes × α) := (h[p]?).getD []

/-- `m[k] = v` for the map at an address -/
def Heap.put {α : Type} (h : Heap α) (p : Nat) (k : Bytes) (v : α) : Heap α :=
  h.modify p (fun m => mapSet m k v)

/-- conn_handler.go:63 `Namespaces`: a map to `Events`, which may be nil -/
abbrev NsMap := List (Bytes × Option Nat)

/-- conn_handler.go:12-14, 84-90, 117-131 the kinds of `ConnHandler`; a `Struct` is given by
its namespace, its timeouts and the map that `Events()` returns. -/
inductive Handlers where
  | events (e : Option Nat)
  | namespaces (m : NsMap)
  | withTimeout (read write : Int) (m : NsMap) (e : Option Nat)
  | struct (read write : Int) (ns : Bytes) (e : Nat)

/-- conn_handler.go:98-110 `getTimeouts` -/
def getTimeouts : Handlers → Int × Int
  | .withTimeout r w _ _ => (r, w)
  | .struct r w _ _ => (r, w)
  | _ => (0, 0)

/-- the heap, the number of `range` loops started so far, and the result of
`JoinConnHandlers` as built so far -/
structure JoinSt (α : Type) where
  heap : Heap α
  tick : Nat
  out : List (Bytes × Nat)

/-- the iteration order of the n-th `range` loop -/
structure Ranges where
  order : Nat → List Bytes → List Bytes
  perm : ∀ n xs, (order n xs).Perm xs

/-- `for evt, cb := range m[src] { m[dst][evt] = cb }`, conn_handler.go:296-298, 302-304 -/
def copyInto {α : Type} (rg : Ranges) (src dst : Nat) (s : JoinSt α) : JoinSt α :=
  { s with
    tick := s.tick + 1
    heap := (rg.order s.tick ((s.heap.at src).map (·.1))).foldl (fun h evt =>
      match mapGet (h.at src) evt with
      | some cb => h.put dst evt cb
      | none => h) s.heap }

/-- conn_handler.go:291-309 one round of the inner loop -/
def joinOne {α : Type} (rg : Ranges) (nss : NsMap) (s : JoinSt α) (ns : Bytes) : JoinSt α :=
  match mapGet nss ns with
  | none => s
  | some none => s
  | some (some p) =>
    let cloned := s.heap.length
    let s := copyInto rg p cloned { s with heap := s.heap ++ [[]] }
    match mapGet s.out ns with
    | some cur => copyInto rg cloned cur s
    | none => { s with out := mapSet s.out ns cloned }

/-- conn_handler.go:289-310 one handler -/
def joinNs {α : Type} (rg : Ranges) (s : JoinSt α) (nss : NsMap) : JoinSt α :=
  (rg.order s.tick (nss.map (·.1))).foldl (joinOne rg nss) { s with tick := s.tick + 1 }

/-- conn_handler.go:285-314 `JoinConnHandlers`, given the namespaces of its arguments -/
def joinConnHandlers {α : Type} (rg : Ranges) (hs : List NsMap) (heap : Heap α) : JoinSt α :=
  hs.foldl (joinNs rg) ⟨heap, 0, []⟩

/-- conn_handler.go:35-37, 66, 94-96, 272-280 `GetNamespaces`; the first part is the heap
after it -/
def getNamespaces {α : Type} (rg : Ranges) (heap : Heap α) : Handlers → Heap α × NsMap
  | .events e => (heap, [([], e)])
  | .namespaces m => (heap, m)
  | .withTimeout _ _ m e =>
    let r := joinConnHandlers rg [m, [([], e)]] heap
    (r.heap, r.out.map (fun p => (p.1, some p.2)))
  | .struct _ _ ns e => (heap, [(ns, some e)])

/-- conn_handler.go:285-314 `JoinConnHandlers` of any handlers. All `GetNamespaces` are called
first here; the code calls them one after the other, but no `GetNamespaces` depends on what
was joined before. -/
def joinHandlers {α : Type} (rg : Ranges) (heap : Heap α) (hs : List Handlers) :
    Heap α × Handlers :=
  let g := hs.foldl (fun (acc : Heap α × List NsMap) h =>
    let r := getNamespaces rg acc.1 h
    (r.1, acc.2 ++ [r.2])) (heap, [])
  let r := joinConnHandlers rg g.2 g.1
  (r.heap, .namespaces (r.out.map (fun p => (p.1, some p.2))))

/-! ## Structs -/

/-- conn_handler.go:113 `EventMatcherFunc` -/
abbrev Matcher := Bytes → Option Bytes

/-- conn_handler.go:143-151 `EventPrefixMatcher` -/
def eventPrefixMatcher (pfx : Bytes) : Matcher := fun name =>
  if pfx.isPrefixOf name then some name else none

/-- conn_handler.go:155-163 `EventTrimPrefixMatcher` -/
def eventTrimPrefixMatcher (pfx : Bytes) : Matcher := fun name =>
  if pfx.isPrefixOf name then some (name.drop pfx.length) else none

/-- reflect.go:176-199 the event name in `makeEventFromMethod` -/
def eventOfMethod (matcher : Option Matcher) (method : Bytes) : Option Bytes :=
  let name := if isSystemEvent (95 :: method) then 95 :: method else method
  if !isSystemEvent name then
    match matcher with
    | some f => f method
    | none => some name
  else some name

/-- a method of a struct: its name and whether it has the type of an event callback,
reflect.go:143-160, 240-242 -/
structure Method where
  name : Bytes
  fits : Bool
  deriving DecidableEq

/-- the callback of an event of a struct -/
inductive StructCb where
  /-- the method of the struct, reflect.go:201-212 -/
  | call (method : Bytes)
  /-- reflect.go:285-306: a new struct value is made for the NSConn, then the method, if any,
  is called -/
  | inject (method : Option Bytes)
  deriving DecidableEq

/-- the method behind a callback -/
def StructCb.method : StructCb → Option Bytes
  | .call m => some m
  | .inject m => m

/-- reflect.go:237-254 one round of the loop over the methods -/
def addMethod (matcher : Option Matcher) (evs : List (Bytes × StructCb)) (m : Method) :
    List (Bytes × StructCb) :=
  if !m.fits then evs
  else match eventOfMethod matcher m.name with
    | none => evs
    | some ev => mapSet evs ev (.call m.name)

/-- reflect.go:228-254 the events of the methods -/
def eventsOfMethods (matcher : Option Matcher) (ms : List Method) : List (Bytes × StructCb) :=
  ms.foldl (addMethod matcher) []

/-- reflect.go:228-310 `makeEventsFromStruct`; a struct is dynamic when it has a field of
type `*NSConn` -/
def makeEventsFromStruct (matcher : Option Matcher) (dynamic : Bool) (ms : List Method) :
    List (Bytes × StructCb) :=
  let evs := eventsOfMethods matcher ms
  if dynamic then
    mapSet evs OnNamespaceConnect
      (.inject (match mapGet evs OnNamespaceConnect with
        | some cb => cb.method
        | none => none))
  else evs

end Neffos
