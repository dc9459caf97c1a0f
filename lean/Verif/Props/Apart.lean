import Verif.Spec.Apart
import Verif.Props.Parade
/-!
# C132: what the clients of a server do cannot change what another client does and hears
-/
set_option autoImplicit false
namespace Neffos
open Spec

variable {cfg cfg' : NetCfg} {s s' t : Net} {d : Nat} {l : List Comes}

namespace Apart

/-- what the session makes of it -/
def take (cc sc : Cfg) (x : Sess) : Comes → Option Sess
  | .own o => sstep cc sc x o
  | .cast ms => some { x with d := (publishMessages sc x.d ms).1 }
  | .shut => some { x with d := closeConn sc x.d }

def takes (cc sc : Cfg) (x : Sess) : List Comes → Option Sess
  | [] => some x
  | a :: l =>
    match take cc sc x a with
    | some y => takes cc sc y l
    | none => none

theorem takes_append {cc sc : Cfg} {x y : Sess} {a b : List Comes} (h : takes cc sc x a = some y) :
    takes cc sc x (a ++ b) = takes cc sc y b := by
  induction a generalizing x with
  | nil => cases h; rfl
  | cons o a ih =>
    simp only [takes, List.cons_append] at h ⊢
    split at h
    · rename_i z hz
      exact ih h
    · cases h

theorem one {op : NetOp} (h : s.step cfg op = some s') : takes (cfg.cc d) (cfg.sc d) (s.sess d) (comesBy cfg s d op) = some (s'.sess d) := by
  have putd : ∀ {t : Net} {c : Nat} {x : Sess}, (t.put cfg c x).sess d = if d = c then x else t.sess d := fun {_ _ _} => rfl
  cases op with
  | sess c o =>
    simp only [Net.step] at h
    split at h
    · obtain ⟨x, hx, rfl⟩ := Option.map_eq_some_iff.mp h
      rw [putd]
      by_cases e : c = d
      · subst e; simp only [comesBy, if_pos, takes, take, hx]
      · simp only [comesBy, if_neg e, if_neg (Ne.symm e), takes]
    · cases h
  | loop o =>
    obtain ⟨_, h'⟩ := Parade.loop_step h
    split at h'
    · cases h'
    · split at h'
      · rename_i htouch
        cases h'
        simp only [comesBy, htouch, takes]
      · rename_i c k htouch
        cases h'
        rw [putd]
        by_cases e : c = d
        · subst e; simp only [comesBy, htouch, if_pos, takes, take]
        · simp only [comesBy, htouch, if_neg e, if_neg (Ne.symm e), takes]
      · rename_i c htouch
        cases h'
        rw [putd]
        by_cases e : c = d
        · subst e; simp only [comesBy, htouch, if_pos, takes, take]
        · simp only [comesBy, htouch, if_neg e, if_neg (Ne.symm e), takes]

theorem all (h : ApartRun cfg d s l) : takes (cfg.cc d) (cfg.sc d) (newSess (cfg.cc d) (cfg.sc d) (cfg.id d)) l = some (s.sess d) := by
  induction h with
  | init => rfl
  | step _ hs ih => rw [takes_append ih]; exact one hs

end Apart

/-- C132: if the same comes to a client in two runs, of two servers that treat this client alike, then the client and its
connection are in the same state: whatever the other clients are, do and hear, however many they are, and however the servers
are configured for them. -/
theorem c132_same (ha : AlikeFor d cfg cfg') (h : ApartRun cfg d s l) (h' : ApartRun cfg' d t l) : s.sess d = t.sess d := by
  have h1 := Apart.all h
  have h2 := Apart.all h'
  rw [← ha.client, ← ha.conn, ← ha.id, h1] at h2
  exact Option.some.inj h2

/-- C132: so the two have received, called back, sent and returned the same. -/
theorem c132_heard (ha : AlikeFor d cfg cfg') (h : ApartRun cfg d s l) (h' : ApartRun cfg' d t l) :
    (s.sess d).c.log = (t.sess d).c.log ∧ (s.sess d).d.log = (t.sess d).d.log := by
  rw [c132_same ha h h']; exact ⟨rfl, rfl⟩

/-- C132: nothing comes to a client by a step of another session, also if it closes its connection, and such a step changes
neither what the loop is doing, nor which connections are registered or on their way to be, nor any call of Broadcast. -/
theorem c132_step {c : Nat} {o : SessOp} (hc : c ≠ d) (h : s.step cfg (.sess c o) = some s') :
    comesBy cfg s d (.sess c o) = [] ∧ s'.sess d = s.sess d ∧ s'.loop.loop = s.loop.loop ∧ s'.loop.regs = s.loop.regs ∧
      s'.loop.buf = s.loop.buf ∧ s'.loop.calls = s.loop.calls ∧ s'.loop.log = s.loop.log ∧ s'.loop.conns[d]? = s.loop.conns[d]? := by
  refine ⟨by simp [comesBy, hc], ?_⟩
  simp only [Net.step] at h
  split at h
  · obtain ⟨x, hx, rfl⟩ := Option.map_eq_some_iff.mp h
    refine ⟨by show (if d = c then _ else _) = _; rw [if_neg (Ne.symm hc)], ?_⟩
    simp only [Net.put]
    split
    · cases hl : s.loop.step cfg.loop (.close c) with
      | none => exact ⟨rfl, rfl, rfl, rfl, rfl, rfl⟩
      | some l =>
        simp only [LSt.step] at hl
        split at hl
        · cases hl
        · split at hl
          · cases hl
          · split at hl
            · cases hl
              exact ⟨rfl, rfl, rfl, rfl, rfl, by simp only [LSt.setC, Option.getD_some]; rw [List.getElem?_set_ne hc]⟩
            · cases hl
    · exact ⟨rfl, rfl, rfl, rfl, rfl, rfl⟩
  · cases h

/-! ## An example -/

deriving instance DecidableEq for Op
deriving instance DecidableEq for SessOp
deriving instance DecidableEq for Comes

/-- run the steps, with what comes to the session -/
def apartRun (cfg : NetCfg) (d : Nat) (s : Net) (l : List Comes) : List NetOp → Option (Net × List Comes)
  | [] => some (s, l)
  | op :: ops =>
    match s.step cfg op with
    | some s' => apartRun cfg d s' (l ++ comesBy cfg s d op) ops
    | none => none

theorem apartRun_run {os : List NetOp} {r : Net × List Comes} (h : ApartRun cfg d s l) (hr : apartRun cfg d s l os = some r) :
    ApartRun cfg d r.1 r.2 := by
  induction os generalizing s l with
  | nil => cases hr; exact h
  | cons op os ih =>
    simp only [apartRun] at hr
    split at hr
    · exact ih (h.step ‹_›) hr
    · cases hr

/-- a server with other clients but the first, and with OnDisconnect for all -/
def otherCfg : NetCfg := { paradeCfg with
  loop := { always := true }
  cc := fun c => if c = 0 then pickyCli else clientCfg chatDecl noCb
  sc := fun c => if c = 0 then paradeCfg.sc 0 else serverCfg chatDecl noCb }

abbrev apartAt (cfg : NetCfg) (os : List NetOp) : Net × List Comes := (apartRun cfg 0 (newNet cfg) [] os).getD (newNet cfg, [])

theorem apartAt_run {os : List NetOp} (h : (apartRun cfg 0 (newNet cfg) [] os).isSome = true) :
    ApartRun cfg 0 (apartAt cfg os).1 (apartAt cfg os).2 := by
  unfold apartAt
  cases hy : apartRun cfg 0 (newNet cfg) [] os with
  | none => rw [hy] at h; cases h
  | some r => exact apartRun_run .init hy

/-- the run of C129 without any step of the session of the second client, which is never heard of after Upgrade -/
def alone : List NetOp := paradeOps.filter fun op => match op with
  | .sess c _ => c == 0
  | _ => true

/-- C132, the premises: the same comes to the first client in both runs, 13 steps of its own and three broadcasts, and the two
second clients differ -/
example : AlikeFor 0 paradeCfg otherCfg ∧ ApartRun paradeCfg 0 (apartAt paradeCfg paradeOps).1 (apartAt paradeCfg paradeOps).2 ∧
    ApartRun otherCfg 0 (apartAt otherCfg alone).1 (apartAt paradeCfg paradeOps).2 ∧
    (apartAt paradeCfg paradeOps).2.length = 16 ∧
    (heard ((apartAt otherCfg alone).1.sess 0).c.log).map (·.body) = [[2], b! "own", [0], [1]] ∧
    (heard ((apartAt paradeCfg paradeOps).1.sess 1).c.log).map (·.body) = [[2], [0]] ∧
    (heard ((apartAt otherCfg alone).1.sess 1).c.log).map (·.body) = [] := by
  have e : (apartAt otherCfg alone).2 = (apartAt paradeCfg paradeOps).2 := by decide +kernel
  refine ⟨⟨rfl, rfl, rfl⟩, apartAt_run (by decide +kernel), ?_, by decide +kernel⟩
  rw [← e]
  exact apartAt_run (by decide +kernel)

end Neffos
