import Verif.Model.Locks
/-!
# Calls about any connection from callbacks that run under locks (conn.go, conn_namespace.go, server.go, broadcaster.go)

The machine of `Model/Locks.lean`, with callbacks that make calls about any connection and namespace: their own, another
namespace of their own connection, another connection. A write to another connection may fail; it then closes that
connection, whose callbacks make calls as well, and so on.

Simplifications: those of `Model/Locks.lean`, except that callbacks only make calls about their own connection.
-/
namespace Neffos

mutual
/-- what a callback does: calls, one after the other -/
inductive CbCalls where
  | done
  /-- a call about connection `d` and its namespace `m`. If `fails` and it is a write, the socket fails and `d` is closed,
  conn.go:833-837, where `es` is found -/
  | call (k : ApiKind) (d m : Nat) (fails : Bool) (es : NsEnds) (rest : CbCalls)

/-- what `Close` finds: connected namespaces, the callbacks for the rooms of each and its OnNamespaceDisconnect -/
inductive NsEnds where
  | done
  | ns (n : Nat) (rooms ns : CbCalls) (rest : NsEnds)
end

/-- One call, then `q`; after a write comes `w`. conn_namespace.go:99-123, conn.go:575-581, 842-873, broadcaster.go:31-39,
server.go:422-434, 532-535. -/
def oneCall (k : ApiKind) (d m : Nat) (w q : Prog) : Prog :=
  match k with
  | .room => .read (.rooms d m) q
  | .nsp => .read (.ns d) q
  | .emit => .ifOpen d (.read (.ns d) w) q
  | .roomEmit => .ifOpen d (.read (.ns d) (.read (.rooms d m) w)) q
  | .cast => .touch .bmu q
  | .sync => .touch .loop q
  | .act => .touch .loop q

/-- conn.go:1007-1040, where `ends` are the namespaces with what comes after the callbacks -/
def shutProg (c : Nat) (ends : Prog → Prog) (p : Prog) : Prog := .cas c (.lock (.ns c) (ends (.unlock (.ns c) p))) p

mutual
def CbCalls.prog : CbCalls → Prog → Prog
  | .done, p => p
  | .call k d m fails es rest, p =>
    oneCall k d m (if fails then shutProg d (es.prog d) (rest.prog p) else rest.prog p) (rest.prog p)

/-- conn_namespace.go:146-162 and conn.go:1012-1019 for the namespaces of connection `c` -/
def NsEnds.prog : NsEnds → Nat → Prog → Prog
  | .done, _, p => p
  | .ns n rooms ns rest, c, p =>
    .lock (.rooms c n) (rooms.prog (.unlock (.rooms c n) (ns.prog (rest.prog c p))))
end

/-- calls of a callback without a lock, or those of the function of `Do`, server.go:422-434, 197-204 -/
structure Doing where
  loop : Bool := false
  cs : CbCalls

def Doing.prog (a : Doing) (p : Prog) : Prog :=
  if a.loop then .lock .loop (a.cs.prog (.unlock .loop p)) else a.cs.prog p

/-- a message that is published to a connection, server.go:436-456 -/
structure Pub where
  c : Nat
  room : Option Nat := none
  fails : Bool := false
  es : NsEnds := .done

def Pub.prog (w : Pub) (p : Prog) : Prog :=
  oneCall (if w.room.isSome then .roomEmit else .emit) w.c (w.room.getD 0)
    (if w.fails then shutProg w.c (w.es.prog w.c) p else p) p

/-- the goroutines; as `Gor` -/
inductive GorX where
  | plain (acts : List Doing)
  /-- conn.go:399-410 -/
  | queued (c : Nat) (acts : List Doing)
  /-- conn.go:737-776, 778-822 -/
  | leave (c n : Nat) (ks : CbCalls) (acts : List Doing)
  /-- conn.go:1007 -/
  | close (c : Nat) (es : NsEnds)
  /-- server.go:458-468 -/
  | publish (ws : List Pub)
  /-- server.go:193-196 -/
  | loopPublish (ws : List Pub)
  /-- server.go:175-192 -/
  | onDisconnect (fn : CbCalls)
  /-- server.go:210-216 -/
  | serverClose (cs : List (Nat × NsEnds))

def GorX.prog : GorX → Prog
  | .plain acts => acts.foldr Doing.prog .done
  | .queued c acts => .lock (.queue c) (acts.foldr Doing.prog (.unlock (.queue c) .done))
  | .leave c n ks acts =>
    .read (.ns c) (.lock (.rooms c n) (ks.prog (.unlock (.rooms c n) (.touch (.ns c) (acts.foldr Doing.prog .done)))))
  | .close c es => shutProg c (es.prog c) .done
  | .publish ws => .lock .bmu (ws.foldr Pub.prog (.unlock .bmu .done))
  | .loopPublish ws => .lock .loop (ws.foldr Pub.prog (.unlock .loop .done))
  | .onDisconnect fn => .lock .loop (fn.prog (.unlock .loop .done))
  | .serverClose cs => .lock .loop (cs.foldr (fun x => shutProg x.1 (x.2.prog x.1)) (.unlock .loop .done))

inductive XOp where
  | spawn (g : GorX)
  | go (i : Nat)

def LkSt.stepX (s : LkSt) : XOp → Option LkSt
  | .spawn g => some { s with thr := s.thr ++ [{ todo := g.prog }] }
  | .go i => s.go i

def LkSt.runX (s : LkSt) : List XOp → Option LkSt
  | [] => some s
  | op :: ops =>
    match s.stepX op with
    | some s' => s'.runX ops
    | none => none

end Neffos
