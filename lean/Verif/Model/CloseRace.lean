import Verif.Model.Bytes
/-!
# Close against everything that changes membership, step by step

One connection, any number of goroutines in `Close` (conn.go:1007-1040), in a `Connect` or in the answer
to one (conn.go:603-698), in a `Disconnect` or in the answer to one (conn.go:737-822), in a `JoinRoom` or
in the answer to one (conn_namespace.go:176-235) and in a `Leave` or in the answer to one
(conn_namespace.go:237-323). One step is one access of a map under its mutex, one taking or release of a mutex
that is held for longer, one callback, or one of the last operations of `Close`.

Namespaces, rooms and NSConns are numbers; the NSConns are numbered in the order in which they are made.

Simplifications:
* a mutex that is held around one map access only is not a step of its own: such an access waits while another
  goroutine holds the mutex for longer. `connectedNamespacesMutex` is held for longer by `Close` only
  (`DisconnectAll` is `Model/Bulk.lean`), `roomsMutex` by `forceLeaveAll` only;
* callbacks make no calls; what calls they may make is `Model/Locks.lean`. The choice `c` of a step decides
  whether a callback returns an error, and which entry of a map comes next in a `range`;
* an `Ask` is not a step: it changes nothing here, and a call whose `Ask` fails is one that stays where it is;
* the connection is a server's; on a client only the step `notify` is missing. A client's answer to a leave request
  ignores the error of OnRoomLeave, which is the choice 0 here;
* `waitingMessages` is left out.
-/
namespace Neffos

inductive RKind where
  /-- conn.go:1007 -/
  | close
  /-- conn.go:603, 664 -/
  | connect (n : Nat)
  /-- conn.go:737 and 778 on a client (`false`), where OnNamespaceDisconnect comes last, and 778 on a server (`true`),
  where it comes first and can refuse -/
  | disc (n : Nat) (srv : Bool)
  /-- conn_namespace.go:176, 211 of an NSConn -/
  | join (o r : Nat)
  /-- conn_namespace.go:237, 281 -/
  | leave (o r : Nat)
  deriving DecidableEq

/-- the next step of a goroutine -/
inductive ClosePc where
  | start
  /-- conn.go:1011 -/
  | lockNs
  /-- conn.go:1012 the next namespace -/
  | nsLoop
  /-- conn_namespace.go:147 -/
  | lockR (n o : Nat)
  /-- conn_namespace.go:151 the next room, and its OnRoomLeave -/
  | rooms (n o : Nat)
  /-- conn_namespace.go:155 -/
  | roomDel (n o r : Nat)
  /-- conn_namespace.go:157-158 -/
  | roomLeft (n o r : Nat)
  /-- conn.go:1017, 772, 801: OnNamespaceDisconnect -/
  | disc (n o : Nat)
  /-- conn.go:1018, 765, 796, 816 -/
  | del (n o : Nat)
  /-- conn.go:806 -/
  | veto (n o : Nat)
  /-- conn.go:1029 -/
  | ack
  /-- conn.go:1032 -/
  | notify
  /-- conn.go:1037 -/
  | closeCh
  /-- conn.go:1038 -/
  | net
  /-- conn.go:630, 684: OnNamespaceConnect -/
  | fire (n o : Nat)
  /-- conn.go:650, 692 -/
  | set (n o : Nat)
  /-- conn.go:702: OnNamespaceConnected -/
  | tell (n o : Nat)
  /-- conn_namespace.go:196, 220: OnRoomJoin -/
  | joinFire
  /-- conn_namespace.go:203, 227 -/
  | joinAdd
  /-- conn_namespace.go:207, 231: OnRoomJoined -/
  | joined
  /-- conn_namespace.go:260, 294, 308: OnRoomLeave -/
  | leaveFire
  /-- conn_namespace.go:269, 297, 316 -/
  | leaveDel
  /-- conn_namespace.go:276, 303, 320: OnRoomLeft -/
  | left
  | done
  deriving DecidableEq

/-- what happens, as the others see it -/
inductive REv where
  | connect (o : Nat)
  | connected (o : Nat)
  | disc (o : Nat)
  | join (o r : Nat)
  | joined (o r : Nat)
  | leave (o r : Nat)
  | left (o r : Nat)
  /-- the goroutine of conn.go:1032-1034 -/
  | notify
  | closeCh
  | net
  deriving DecidableEq

structure RThr where
  kind : RKind
  pc : ClosePc := .start
  /-- for the statements only: it won the compare-and-swap of `Close` -/
  won : Bool := false
  /-- for the statements only: the map when the mutex was taken -/
  snap : List (Nat × Nat) := []
  /-- for the statements only: the NSConns whose rooms were left, with their rooms when the mutex was taken -/
  seen : List (Nat × List Nat) := []
  deriving DecidableEq

structure RSt where
  closed : Bool := false
  /-- how many NSConns were made -/
  objs : Nat := 0
  /-- conn.go:81 `connectedNamespaces` -/
  conn : List (Nat × Nat) := []
  /-- conn_namespace.go:25 `rooms` of each NSConn -/
  rooms : Nat → List Nat := fun _ => []
  /-- who holds `connectedNamespacesMutex` for longer -/
  nsHold : Option Nat := none
  /-- who holds the `roomsMutex` of each NSConn for longer -/
  roomHold : Nat → Option Nat := fun _ => none
  thr : List RThr := []
  /-- what happened, and which goroutine did it -/
  log : List (Nat × REv) := []

/-- change a function at one point -/
def updAt {α : Type} (f : Nat → α) (o : Nat) (v : α) : Nat → α := fun x => if x = o then v else f x

/-- look up a key of a Go map -/
def rGet (m : List (Nat × Nat)) (n : Nat) : Option Nat := (m.find? (·.1 = n)).map (·.2)

/-- `delete(m, n)` -/
def rDel (m : List (Nat × Nat)) (n : Nat) : List (Nat × Nat) := m.filter (·.1 ≠ n)

namespace RSt

def put (s : RSt) (i : Nat) (t : RThr) : RSt := { s with thr := s.thr.set i t }

def say (s : RSt) (i : Nat) (e : REv) : RSt := { s with log := s.log ++ [(i, e)] }

/-- the first step of a call -/
def begin (s : RSt) (i : Nat) (t : RThr) : Option RSt :=
  match t.kind with
  | .close =>
    -- conn.go:1008
    if s.closed then some (s.put i { t with pc := .done })
    else some ({ s with closed := true }.put i { t with pc := .lockNs, won := true })
  | .connect n =>
    -- conn.go:613-616, 669-674 and 629, 683
    if s.nsHold = none then
      match rGet s.conn n with
      | some _ => some (s.put i { t with pc := .done })
      | none => some ({ s with objs := s.objs + 1 }.put i { t with pc := .fire n s.objs })
    else none
  | .disc n srv =>
    -- conn.go:742-749, 783-787
    if s.nsHold = none then
      match rGet s.conn n with
      | none => some (s.put i { t with pc := .done })
      | some o => some (s.put i { t with pc := if srv then .veto n o else .lockR n o })
    else none
  | .join o r =>
    -- conn_namespace.go:177-182, 216-218; without an NSConn 91-93, 212
    if s.objs ≤ o then some (s.put i { t with pc := .done })
    else if s.roomHold o = none then
      some (s.put i { t with pc := if r ∈ s.rooms o then .done else .joinFire })
    else none
  | .leave o r =>
    -- conn_namespace.go:242-252, 286-290; without an NSConn 238-240, 282
    if s.objs ≤ o then some (s.put i { t with pc := .done })
    else if s.roomHold o = none then
      some (s.put i { t with pc := if r ∈ s.rooms o then .leaveFire else .done })
    else none

/-- what follows `forceLeaveAll`, conn.go:1014, 759, 793, 813 -/
def afterRooms (k : RKind) (n o : Nat) : ClosePc :=
  match k with
  | .close => .disc n o
  | _ => .del n o

/-- what follows the deletion of the namespace, conn.go:1018, 765, 796, 816 -/
def afterDel (k : RKind) (n o : Nat) : ClosePc :=
  match k with
  | .close => .nsLoop
  | .disc _ true => .done
  | _ => .disc n o

/-- what follows OnNamespaceDisconnect -/
def afterDisc (k : RKind) (n o : Nat) : ClosePc :=
  match k with
  | .close => .del n o
  | _ => .done

/-- a step of goroutine `i` -/
def go (s : RSt) (i c : Nat) : Option RSt :=
  match s.thr[i]? with
  | none => none
  | some t =>
    match t.pc with
    | .start => s.begin i t
    | .lockNs =>
      if s.nsHold = none then some ({ s with nsHold := some i }.put i { t with pc := .nsLoop, snap := s.conn })
      else none
    | .nsLoop =>
      match s.conn[c]? with
      | some (n, o) => some (s.put i { t with pc := .lockR n o })
      | none => if s.conn = [] then some ({ s with nsHold := none }.put i { t with pc := .ack }) else none
    | .lockR n o =>
      if s.roomHold o = none then
        some ({ s with roomHold := updAt s.roomHold o (some i) }.put i
          { t with pc := .rooms n o, seen := t.seen ++ [(o, s.rooms o)] })
      else none
    | .rooms n o =>
      match (s.rooms o)[c]? with
      | some r => some ((s.say i (.leave o r)).put i { t with pc := .roomDel n o r })
      | none =>
        if s.rooms o = [] then
          some ({ s with roomHold := updAt s.roomHold o none }.put i { t with pc := afterRooms t.kind n o })
        else none
    | .roomDel n o r =>
      some ({ s with rooms := updAt s.rooms o ((s.rooms o).filter (· ≠ r)) }.put i { t with pc := .roomLeft n o r })
    | .roomLeft n o r => some ((s.say i (.left o r)).put i { t with pc := .rooms n o })
    | .disc n o => some ((s.say i (.disc o)).put i { t with pc := afterDisc t.kind n o })
    | .del n o =>
      if t.kind = .close ∨ s.nsHold = none then
        some ({ s with conn := rDel s.conn n }.put i { t with pc := afterDel t.kind n o })
      else none
    | .veto n o => some ((s.say i (.disc o)).put i { t with pc := if c = 0 then .lockR n o else .done })
    | .ack => some (s.put i { t with pc := .notify })
    | .notify => some ((s.say i .notify).put i { t with pc := .closeCh })
    | .closeCh => some ((s.say i .closeCh).put i { t with pc := .net })
    | .net => some ((s.say i .net).put i { t with pc := .done })
    | .fire n o => some ((s.say i (.connect o)).put i { t with pc := if c = 0 then .set n o else .done })
    | .set n o =>
      if s.nsHold = none then
        some ({ s with conn := (n, o) :: rDel s.conn n }.put i { t with pc := .tell n o })
      else none
    | .tell _ o => some ((s.say i (.connected o)).put i { t with pc := .done })
    | .joinFire =>
      match t.kind with
      | .join o r => some ((s.say i (.join o r)).put i { t with pc := if c = 0 then .joinAdd else .done })
      | _ => none
    | .joinAdd =>
      match t.kind with
      | .join o r =>
        if s.roomHold o = none then
          some ({ s with rooms := updAt s.rooms o (if r ∈ s.rooms o then s.rooms o else r :: s.rooms o) }.put i
            { t with pc := .joined })
        else none
      | _ => none
    | .joined =>
      match t.kind with
      | .join o r => some ((s.say i (.joined o r)).put i { t with pc := .done })
      | _ => none
    | .leaveFire =>
      match t.kind with
      | .leave o r => some ((s.say i (.leave o r)).put i { t with pc := if c = 0 then .leaveDel else .done })
      | _ => none
    | .leaveDel =>
      match t.kind with
      | .leave o r =>
        if s.roomHold o = none then
          some ({ s with rooms := updAt s.rooms o ((s.rooms o).filter (· ≠ r)) }.put i { t with pc := .left })
        else none
      | _ => none
    | .left =>
      match t.kind with
      | .leave o r => some ((s.say i (.left o r)).put i { t with pc := .done })
      | _ => none
    | .done => none

end RSt

inductive ROp where
  | spawn (k : RKind)
  | go (i c : Nat)
  deriving DecidableEq

def RSt.step (s : RSt) : ROp → Option RSt
  | .spawn k => some { s with thr := s.thr ++ [{ kind := k }] }
  | .go i c => s.go i c

def RSt.run (s : RSt) : List ROp → Option RSt
  | [] => some s
  | op :: ops =>
    match s.step op with
    | some s' => s'.run ops
    | none => none

/-- the states that a new connection can get into -/
inductive RReach : RSt → Prop
  | init : RReach {}
  | step {s s' : RSt} {op : ROp} : RReach s → s.step op = some s' → RReach s'

end Neffos
