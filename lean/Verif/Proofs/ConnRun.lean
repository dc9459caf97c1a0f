import Verif.Proofs.ConnInv
import Verif.Spec.Conn
/-!
Helper: running a list of operations, for concrete cases.
-/
namespace Neffos

/-- the state after these operations -/
def runOps (cfg : Cfg) (s : St) : List Op → Option St
  | [] => some s
  | op :: ops =>
    match step cfg s op with
    | some s' => runOps cfg s' ops
    | none => none

theorem runOps_reach {cfg : Cfg} {id : Bytes} {ops : List Op} {s s' : St} (h : Reach cfg id s)
    (he : runOps cfg s ops = some s') : Reach cfg id s' := by
  induction ops generalizing s with
  | nil => simp only [runOps, Option.some.injEq] at he; exact he ▸ h
  | cons op ops ih =>
    simp only [runOps] at he
    split at he
    · exact ih (Reach.step h ‹_›) he
    · simp at he

/-- the state of a new connection after these operations -/
def after (cfg : Cfg) (id : Bytes) (ops : List Op) : St :=
  (runOps cfg (newConn cfg id) ops).getD {}

theorem after_reach {cfg : Cfg} {id : Bytes} {ops : List Op}
    (h : (runOps cfg (newConn cfg id) ops).isSome = true) : Reach cfg id (after cfg id ops) := by
  obtain ⟨s, hs⟩ := Option.isSome_iff_exists.mp h
  have : after cfg id ops = s := by simp [after, hs]
  rw [this]
  exact runOps_reach Reach.init hs

theorem after_run {cfg : Cfg} {id : Bytes} {ops : List Op}
    (h : (runOps cfg (newConn cfg id) ops).isSome = true) :
    runOps cfg (newConn cfg id) ops = some (after cfg id ops) := by
  obtain ⟨s, hs⟩ := Option.isSome_iff_exists.mp h
  simp [after, hs]

theorem runOps_append {cfg : Cfg} {s : St} {ops ops' : List Op} :
    runOps cfg s (ops ++ ops') = (runOps cfg s ops).bind (fun t => runOps cfg t ops') := by
  induction ops generalizing s with
  | nil => simp [runOps]
  | cons op ops ih =>
    simp only [List.cons_append, runOps]
    cases step cfg s op with
    | none => simp
    | some t => simp [ih]

/-- the last step of a run -/
theorem after_step {cfg : Cfg} {id : Bytes} {ops : List Op} {op : Op}
    (h : (runOps cfg (newConn cfg id) (ops ++ [op])).isSome = true) :
    step cfg (after cfg id ops) op = some (after cfg id (ops ++ [op])) := by
  unfold after
  rw [runOps_append] at h ⊢
  cases hx : runOps cfg (newConn cfg id) ops with
  | none => rw [hx] at h; simp at h
  | some t =>
    rw [hx] at h
    simp only [Option.bind_some, runOps] at h ⊢
    cases hy : step cfg t op with
    | none => rw [hy] at h; simp at h
    | some u => simp [hy]

open Spec in
/-- a check of `Incoming` that can be computed -/
def incomingB (cfg : Cfg) (s : St) (typ : MsgType) (b : Bytes) (msg : Message) : Bool :=
  (b ≠ [] ∧ s.acked = true) ∧
  (deserializeMessage cfg.known typ b cfg.allowNative cfg.onlyNative = msg ∧
  msg.isInvalid = false ∧ cfg.onlyNative = false) ∧
  (cfg.isClient = true ∨ msg.fromStackExchange = false ∨ cfg.usesExchange = false ∨
    msg.isWait cfg.isClient = false) ∧
  (cfg.isClient = true ∨ msg.wait ∉ s.srvWaiting ∨ msg.isWait cfg.isClient = false) ∧
  (mapGet s.waiting msg.wait = none ∨ msg.isWait cfg.isClient = false)

theorem incoming_of {cfg : Cfg} {s : St} {typ : MsgType} {b : Bytes} {msg : Message}
    (h : incomingB cfg s typ b msg = true) : Spec.Incoming cfg s typ b msg := by
  simp only [incomingB, decide_eq_true_eq] at h
  obtain ⟨⟨h1, h2⟩, ⟨h3, h4, h5⟩, h6, h7, h8⟩ := h
  exact ⟨h1, h2, h3, h4, h5, h6, h7, h8⟩

theorem handled_of {cfg : Cfg} {id : Bytes} {ops : List Op} {typ : MsgType} {b : Bytes}
    {msg : Message} (h : (runOps cfg (newConn cfg id) (ops ++ [.recv typ b])).isSome = true)
    (h1 : incomingB cfg (after cfg id ops) typ b msg = true)
    (h2 : gateBlocks (after cfg id ops) msg.ns = false) :
    Spec.Handled cfg (after cfg id ops) msg (after cfg id (ops ++ [.recv typ b])) :=
  .recv typ b (incoming_of h1) h2 (after_step h)

theorem passive_run {cfg : Cfg} {id : Bytes} {ops : List Op} {s s' : St}
    (h : Spec.PassiveReach cfg id s) (he : runOps cfg s ops = some s')
    (hp : ops.all (fun op => !Spec.asksMembership op) = true) : Spec.PassiveReach cfg id s' := by
  induction ops generalizing s with
  | nil => simp only [runOps, Option.some.injEq] at he; exact he ▸ h
  | cons op ops ih =>
    simp only [List.all_cons, Bool.and_eq_true, Bool.not_eq_true'] at hp
    simp only [runOps] at he
    split at he
    · exact ih (Spec.PassiveReach.step h hp.1 ‹_›) he (by simpa using hp.2)
    · simp at he

theorem passive_of {cfg : Cfg} {id : Bytes} {ops : List Op}
    (h : (runOps cfg (newConn cfg id) ops).isSome = true)
    (hp : ops.all (fun op => !Spec.asksMembership op) = true) :
    Spec.PassiveReach cfg id (after cfg id ops) :=
  passive_run Spec.PassiveReach.init (after_run h) hp

/-- a client with a working socket -/
def clientCfg (decl : List (Bytes × List Bytes))
    (cb : List Obs → Nat → Bytes → Message → List Act × Option GoErr) : Cfg :=
  { isClient := true, decl := decl, serverConnID := [], usesExchange := false,
    known := knownErrors0, cb := cb, sock := fun _ _ _ => none, order := fun _ xs => xs,
    order_perm := fun _ xs => List.Perm.refl xs, textFirst := fun _ => true }

/-- a server-side connection with a working socket -/
def serverCfg (decl : List (Bytes × List Bytes))
    (cb : List Obs → Nat → Bytes → Message → List Act × Option GoErr) : Cfg :=
  { clientCfg decl cb with isClient := false, serverConnID := b! "neffos(0x1)" }

/-- callbacks that do nothing -/
def noCb : List Obs → Nat → Bytes → Message → List Act × Option GoErr := fun _ _ _ _ => ([], none)

/-- one namespace `chat` that declares every event -/
def chatDecl : List (Bytes × List Bytes) := [(b! "chat", [OnAnyEvent])]

/-- the client after a successful connect to `chat` -/
def chatOps : List Op :=
  [.recv .text (b! "A1"), .connect (b! "chat") 7 false, .recv .text (b! "$7;;;;;;"), .resume 0]

/-- the server-side connection after a successful connect to `chat` -/
def chatSrvOps : List Op :=
  [.ready none, .recv .text (b! "M"), .recv .text (b! "$7;chat;;_OnNamespaceConnect;0;0;")]

end Neffos
