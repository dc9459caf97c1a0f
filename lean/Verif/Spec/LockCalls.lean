import Verif.Model.LockCalls
import Verif.Spec.Locks
/-! Which call is made from which callback about whom, and the table of the calls that are safe (C116). -/
set_option autoImplicit false
namespace Neffos.Spec

/-- what a call is about, as seen from the callback -/
inductive About where
  /-- its own namespace -/
  | own
  /-- another namespace of its own connection -/
  | sibling
  /-- another connection -/
  | other
  deriving DecidableEq

/-- the callback of connection and namespace `own`, if it is of one, makes a call about `d` and `m` -/
def aboutOf (own : Option (Nat × Nat)) (d m : Nat) : About :=
  match own with
  | none => .other
  | some (c, n) => if d = c then (if m = n then .own else .sibling) else .other

/-- the calls that never block for ever -/
def safeX : CbSite → ApiKind → About → Bool
  | .plain, _, _ => true
  | .queued, _, _ => true
  | .loop, k, _ => k = .room || k = .nsp || k = .emit || k = .roomEmit || k = .cast
  | .leaving, _, _ => false
  | .closing _, k, a => k = .emit || k = .roomEmit || (k = .room && decide (a ≠ .other))
  | .closingRooms _, k, a => k = .emit || k = .roomEmit || (k = .room && decide (a = .sibling))

abbrev Use := CbSite × ApiKind × About

mutual
/-- the calls of a callback, and those of the callbacks of the connections that are closed because a write fails -/
def callsUses : CbCalls → CbSite → Option (Nat × Nat) → Ctx → List Use
  | .done, _, _, _ => []
  | .call k d m fails es rest, at_, own, x =>
    (at_, k, aboutOf own d m) :: ((if fails && (k = .emit || k = .roomEmit) then endsUses es d x else []) ++
      callsUses rest at_ own x)

def endsUses : NsEnds → Nat → Ctx → List Use
  | .done, _, _ => []
  | .ns n rooms ns rest, c, x =>
    callsUses rooms (.closingRooms x) (some (c, n)) x ++ callsUses ns (.closing x) (some (c, n)) x ++ endsUses rest c x
end

def doingUses (at_ : CbSite) (a : Doing) : List Use :=
  if a.loop then (at_, .act, .other) :: callsUses a.cs .loop none .loop else callsUses a.cs at_ none .free

def pubUses (x : Ctx) (w : Pub) : List Use := if w.fails then endsUses w.es w.c x else []

def usesX : GorX → List Use
  | .plain acts => acts.flatMap (doingUses .plain)
  | .queued _ acts => acts.flatMap (doingUses .queued)
  | .leave c n ks acts => callsUses ks .leaving (some (c, n)) .free ++ acts.flatMap (doingUses .plain)
  | .close c es => endsUses es c .free
  | .publish ws => ws.flatMap (pubUses .cast)
  | .loopPublish ws => ws.flatMap (pubUses .loop)
  | .onDisconnect fn => callsUses fn .loop none .loop
  | .serverClose cs => cs.flatMap (fun y => endsUses y.2 y.1 .loop)

/-- every goroutine that is started only makes calls that `ok` allows -/
def UsesX (ok : CbSite → ApiKind → About → Bool) (ops : List XOp) : Prop :=
  ∀ g, .spawn g ∈ ops → ∀ u ∈ usesX g, ok u.1 u.2.1 u.2.2 = true

/-- the goroutine `i` is never done, whatever happens -/
def StuckX (s : LkSt) (i : Nat) : Prop :=
  ∀ ops s', s.runX ops = some s' → ∃ t, s'.thr[i]? = some t ∧ t.todo ≠ .done

end Neffos.Spec
