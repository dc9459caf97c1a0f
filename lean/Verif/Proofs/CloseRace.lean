import Verif.Spec.CloseRace
/-!
# Invariants of `Model/CloseRace.lean`
-/
set_option autoImplicit false

namespace Neffos
open Neffos.Spec

/-- it holds `connectedNamespacesMutex` -/
def RThr.crit (t : RThr) : Bool :=
  match t.kind, t.pc with
  | .close, .nsLoop => true
  | .close, .lockR _ _ => true
  | .close, .rooms _ _ => true
  | .close, .roomDel _ _ _ => true
  | .close, .roomLeft _ _ _ => true
  | .close, .disc _ _ => true
  | .close, .del _ _ => true
  | _, _ => false

/-- it holds the `roomsMutex` of this NSConn -/
def RThr.inRooms (t : RThr) : Option Nat :=
  match t.pc with
  | .rooms _ o => some o
  | .roomDel _ o _ => some o
  | .roomLeft _ o _ => some o
  | _ => none

/-- what a Close did so far -/
def CloseOk (conn : List (Nat × Nat)) (rooms : Nat → List Nat) (l : List REv) (t : RThr) : Prop :=
  match t.pc with
  | .start => t.won = false ∧ l = [] ∧ t.seen = []
  | .lockNs => t.won = true ∧ l = [] ∧ t.seen = []
  | .nsLoop => t.won = true ∧ (t.snap.map (·.1)).Nodup ∧ CloseBody t.seen l ∧
      (t.seen.map (·.1) ++ conn.map (·.2)).Perm (t.snap.map (·.2))
  | .lockR n o => t.won = true ∧ (t.snap.map (·.1)).Nodup ∧ CloseBody t.seen l ∧
      (t.seen.map (·.1) ++ conn.map (·.2)).Perm (t.snap.map (·.2)) ∧ (n, o) ∈ conn
  | .rooms n o => t.won = true ∧ (t.snap.map (·.1)).Nodup ∧ ∃ seen rs b pre, t.seen = seen ++ [(o, rs)] ∧
      CloseBody seen b ∧ l = b ++ leaves o pre ∧ (pre ++ rooms o).Perm rs ∧
      (seen.map (·.1) ++ conn.map (·.2)).Perm (t.snap.map (·.2)) ∧ (n, o) ∈ conn
  | .roomDel n o r => t.won = true ∧ (t.snap.map (·.1)).Nodup ∧ ∃ seen rs b pre, t.seen = seen ++ [(o, rs)] ∧
      CloseBody seen b ∧ l = b ++ leaves o pre ++ [.leave o r] ∧ (pre ++ rooms o).Perm rs ∧ r ∈ rooms o ∧
      (seen.map (·.1) ++ conn.map (·.2)).Perm (t.snap.map (·.2)) ∧ (n, o) ∈ conn
  | .roomLeft n o r => t.won = true ∧ (t.snap.map (·.1)).Nodup ∧ ∃ seen rs b pre, t.seen = seen ++ [(o, rs)] ∧
      CloseBody seen b ∧ l = b ++ leaves o pre ++ [.leave o r] ∧ (pre ++ r :: rooms o).Perm rs ∧
      (seen.map (·.1) ++ conn.map (·.2)).Perm (t.snap.map (·.2)) ∧ (n, o) ∈ conn
  | .disc n o => t.won = true ∧ (t.snap.map (·.1)).Nodup ∧ ∃ seen rs b pre, t.seen = seen ++ [(o, rs)] ∧
      CloseBody seen b ∧ l = b ++ leaves o pre ∧ pre.Perm rs ∧
      (seen.map (·.1) ++ conn.map (·.2)).Perm (t.snap.map (·.2)) ∧ (n, o) ∈ conn
  | .del n o => t.won = true ∧ (t.snap.map (·.1)).Nodup ∧ CloseBody t.seen l ∧
      (t.seen.map (·.1) ++ (rDel conn n).map (·.2)).Perm (t.snap.map (·.2)) ∧ (n, o) ∈ conn
  | .ack => t.won = true ∧ (t.snap.map (·.1)).Nodup ∧ (t.seen.map (·.1)).Perm (t.snap.map (·.2)) ∧ CloseBody t.seen l
  | .notify => t.won = true ∧ (t.snap.map (·.1)).Nodup ∧ (t.seen.map (·.1)).Perm (t.snap.map (·.2)) ∧
      CloseBody t.seen l
  | .closeCh => t.won = true ∧ (t.snap.map (·.1)).Nodup ∧ (t.seen.map (·.1)).Perm (t.snap.map (·.2)) ∧
      ∃ b, CloseBody t.seen b ∧ l = b ++ [.notify]
  | .net => t.won = true ∧ (t.snap.map (·.1)).Nodup ∧ (t.seen.map (·.1)).Perm (t.snap.map (·.2)) ∧
      ∃ b, CloseBody t.seen b ∧ l = b ++ [.notify, .closeCh]
  | .done => (t.won = false ∧ l = []) ∨ (t.won = true ∧ (t.snap.map (·.1)).Nodup ∧
      (t.seen.map (·.1)).Perm (t.snap.map (·.2)) ∧ ∃ b, CloseBody t.seen b ∧ l = b ++ [.notify, .closeCh, .net])
  | _ => False

/-- OnNamespaceDisconnect comes first on a server -/
def discFirst (srv : Bool) (o : Nat) : List REv := if srv then [.disc o] else []

/-- what a Disconnect did so far -/
def DiscOk (srv : Bool) (rooms : Nat → List Nat) (l : List REv) (t : RThr) : Prop :=
  match t.pc with
  | .start => l = [] ∧ t.seen = []
  | .veto _ _ => srv = true ∧ l = [] ∧ t.seen = []
  | .lockR _ o => l = discFirst srv o ∧ t.seen = []
  | .rooms _ o => ∃ rs pre, t.seen = [(o, rs)] ∧ l = discFirst srv o ++ leaves o pre ∧ (pre ++ rooms o).Perm rs
  | .roomDel _ o r => ∃ rs pre, t.seen = [(o, rs)] ∧ l = discFirst srv o ++ leaves o pre ++ [.leave o r] ∧
      (pre ++ rooms o).Perm rs ∧ r ∈ rooms o
  | .roomLeft _ o r => ∃ rs pre, t.seen = [(o, rs)] ∧ l = discFirst srv o ++ leaves o pre ++ [.leave o r] ∧
      (pre ++ r :: rooms o).Perm rs
  | .del _ o => ∃ rs pre, t.seen = [(o, rs)] ∧ l = discFirst srv o ++ leaves o pre ∧ pre.Perm rs
  | .disc _ o => srv = false ∧ ∃ rs pre, t.seen = [(o, rs)] ∧ l = leaves o pre ∧ pre.Perm rs
  | .done => l = [] ∨ (srv = true ∧ ∃ o, l = [.disc o]) ∨
      ∃ o rs pre, t.seen = [(o, rs)] ∧ pre.Perm rs ∧
        l = if srv then .disc o :: leaves o pre else leaves o pre ++ [.disc o]
  | _ => False

/-- what a goroutine did so far -/
def ThrOk (conn : List (Nat × Nat)) (rooms : Nat → List Nat) (l : List REv) (t : RThr) : Prop :=
  match t.kind with
  | .close => CloseOk conn rooms l t
  | .disc _ srv => t.won = false ∧ DiscOk srv rooms l t
  | .connect _ => t.won = false ∧ match t.pc with
    | .start => l = []
    | .fire _ _ => l = []
    | .set _ o => l = [.connect o]
    | .tell _ o => l = [.connect o]
    | .done => l = [] ∨ (∃ o, l = [.connect o]) ∨ ∃ o, l = [.connect o, .connected o]
    | _ => False
  | .join o r => t.won = false ∧ match t.pc with
    | .start => l = []
    | .joinFire => l = []
    | .joinAdd => l = [.join o r]
    | .joined => l = [.join o r]
    | .done => l = [] ∨ l = [.join o r] ∨ l = [.join o r, .joined o r]
    | _ => False
  | .leave o r => t.won = false ∧ match t.pc with
    | .start => l = []
    | .leaveFire => l = []
    | .leaveDel => l = [.leave o r]
    | .left => l = [.leave o r]
    | .done => l = [] ∨ l = [.leave o r] ∨ l = [.leave o r, .left o r]
    | _ => False

theorem ThrOk.frame {conn conn' : List (Nat × Nat)} {rooms rooms' : Nat → List Nat} {l : List REv} {t : RThr}
    (hc : t.crit = true → conn' = conn) (hr : ∀ o, t.inRooms = some o → rooms' o = rooms o)
    (h : ThrOk conn rooms l t) : ThrOk conn' rooms' l t := by
  obtain ⟨kind, pc, won, snap, seen⟩ := t
  cases kind <;> cases pc <;>
    simp_all [ThrOk, CloseOk, DiscOk, RThr.crit, RThr.inRooms]

structure RInv (s : RSt) : Prop where
  keys : (s.conn.map (·.1)).Nodup
  rooms : ∀ o, (s.rooms o).Nodup
  ns : ∀ i, s.nsHold = some i ↔ ∃ t : RThr, s.thr[i]? = some t ∧ t.crit = true
  room : ∀ o i, s.roomHold o = some i ↔ ∃ t : RThr, s.thr[i]? = some t ∧ t.inRooms = some o
  one : ∀ (i j : Nat) (ti tj : RThr), s.thr[i]? = some ti → s.thr[j]? = some tj → ti.won = true → tj.won = true → i = j
  won : s.closed = true ↔ ∃ (i : Nat) (t : RThr), s.thr[i]? = some t ∧ t.won = true
  ids : ∀ e ∈ s.log, e.1 < s.thr.length
  thr : ∀ (i : Nat) (t : RThr), s.thr[i]? = some t → ThrOk s.conn s.rooms (didBy i s.log) t

theorem didBy_append (i : Nat) (a b : List (Nat × REv)) : didBy i (a ++ b) = didBy i a ++ didBy i b := by
  simp [didBy]

theorem didBy_own (i : Nat) (es : List REv) : didBy i (es.map (i, ·)) = es := by
  induction es with
  | nil => rfl
  | cons e es ih =>
    simp only [didBy, List.map_cons, List.filter_cons, decide_true, if_true] at *
    rw [ih]

theorem didBy_other {i j : Nat} (h : j ≠ i) (es : List REv) : didBy j (es.map (i, ·)) = [] := by
  induction es with
  | nil => rfl
  | cons e es ih =>
    simp only [didBy, List.map_cons, List.filter_cons] at *
    rw [if_neg (by simpa using fun h' => h h'.symm)]
    exact ih

/-- One goroutine does something: the conditions under which the invariant survives. -/
theorem RInv.upd {s : RSt} {i : Nat} {t t' : RThr} {closed' : Bool} {objs' : Nat} {conn' : List (Nat × Nat)}
    {rooms' : Nat → List Nat} {nsHold' : Option Nat} {roomHold' : Nat → Option Nat} {es : List REv}
    (h : RInv s) (ht : s.thr[i]? = some t)
    (hkeys : (conn'.map (·.1)).Nodup) (hrooms : ∀ o, (rooms' o).Nodup)
    (hconn : conn' = s.conn ∨ s.nsHold = none ∨ s.nsHold = some i)
    (hroom : ∀ o, rooms' o = s.rooms o ∨ s.roomHold o = none ∨ s.roomHold o = some i)
    (hns : (nsHold' = some i ↔ t'.crit = true) ∧ ∀ j, j ≠ i → (nsHold' = some j ↔ s.nsHold = some j))
    (hrm : ∀ o, (roomHold' o = some i ↔ t'.inRooms = some o) ∧
      ∀ j, j ≠ i → (roomHold' o = some j ↔ s.roomHold o = some j))
    (hwon : (t'.won = t.won ∧ closed' = s.closed) ∨ (s.closed = false ∧ closed' = true ∧ t'.won = true))
    (hown : ThrOk conn' rooms' (didBy i s.log ++ es) t') :
    RInv { closed := closed', objs := objs', conn := conn', rooms := rooms', nsHold := nsHold',
           roomHold := roomHold', thr := s.thr.set i t', log := s.log ++ es.map (i, ·) } := by
  have hlen : i < s.thr.length := (List.getElem?_eq_some_iff.mp ht).1
  have hset : ∀ j x, (s.thr.set i t')[j]? = some x ↔ (j = i ∧ x = t') ∨ (j ≠ i ∧ s.thr[j]? = some x) := by
    intro j x
    rw [List.getElem?_set]
    by_cases hj : i = j
    · subst hj; simp [hlen, eq_comm]
    · have hj' : ¬ j = i := fun h' => hj h'.symm
      simp [hj, hj']
  refine ⟨hkeys, hrooms, ?_, ?_, ?_, ?_, ?_, ?_⟩
  · intro j
    show nsHold' = some j ↔ ∃ x, (s.thr.set i t')[j]? = some x ∧ x.crit = true
    by_cases hj : j = i
    · subst hj
      rw [hns.1]
      constructor
      · intro hc; exact ⟨t', (hset _ _).mpr (.inl ⟨rfl, rfl⟩), hc⟩
      · rintro ⟨x, hx, hc⟩
        rcases (hset _ _).mp hx with ⟨_, rfl⟩ | ⟨hne, _⟩
        · exact hc
        · exact absurd rfl hne
    · rw [hns.2 j hj, h.ns j]
      constructor
      · rintro ⟨x, hx, hc⟩; exact ⟨x, (hset _ _).mpr (.inr ⟨hj, hx⟩), hc⟩
      · rintro ⟨x, hx, hc⟩
        rcases (hset _ _).mp hx with ⟨hji, _⟩ | ⟨_, hx⟩
        · exact absurd hji hj
        · exact ⟨x, hx, hc⟩
  · intro o j
    show roomHold' o = some j ↔ ∃ x, (s.thr.set i t')[j]? = some x ∧ x.inRooms = some o
    by_cases hj : j = i
    · subst hj
      rw [(hrm o).1]
      constructor
      · intro hc; exact ⟨t', (hset _ _).mpr (.inl ⟨rfl, rfl⟩), hc⟩
      · rintro ⟨x, hx, hc⟩
        rcases (hset _ _).mp hx with ⟨_, rfl⟩ | ⟨hne, _⟩
        · exact hc
        · exact absurd rfl hne
    · rw [(hrm o).2 j hj, h.room o j]
      constructor
      · rintro ⟨x, hx, hc⟩; exact ⟨x, (hset _ _).mpr (.inr ⟨hj, hx⟩), hc⟩
      · rintro ⟨x, hx, hc⟩
        rcases (hset _ _).mp hx with ⟨hji, _⟩ | ⟨_, hx⟩
        · exact absurd hji hj
        · exact ⟨x, hx, hc⟩
  · intro j k tj tk hj hk wj wk
    replace hj := (hset _ _).mp hj
    replace hk := (hset _ _).mp hk
    rcases hj with ⟨rfl, rfl⟩ | ⟨hji, hj⟩ <;> rcases hk with ⟨rfl, rfl⟩ | ⟨hki, hk⟩
    · rfl
    · rcases hwon with ⟨hw, _⟩ | ⟨hcl, _, _⟩
      · exact h.one _ _ _ _ ht hk (hw ▸ wj) wk
      · rw [h.won.mpr ⟨_, _, hk, wk⟩] at hcl; cases hcl
    · rcases hwon with ⟨hw, _⟩ | ⟨hcl, _, _⟩
      · exact h.one _ _ _ _ hj ht wj (hw ▸ wk)
      · rw [h.won.mpr ⟨_, _, hj, wj⟩] at hcl; cases hcl
    · exact h.one _ _ _ _ hj hk wj wk
  · show closed' = true ↔ ∃ (j : Nat) (x : RThr), (s.thr.set i t')[j]? = some x ∧ x.won = true
    rcases hwon with ⟨hw, hcl⟩ | ⟨_, hcl, hw⟩
    · rw [hcl, h.won]
      constructor
      · rintro ⟨j, x, hx, wx⟩
        by_cases hj : j = i
        · subst hj
          rw [ht] at hx; cases hx
          exact ⟨j, t', (hset _ _).mpr (.inl ⟨rfl, rfl⟩), hw ▸ wx⟩
        · exact ⟨j, x, (hset _ _).mpr (.inr ⟨hj, hx⟩), wx⟩
      · rintro ⟨j, x, hx, wx⟩
        rcases (hset _ _).mp hx with ⟨rfl, rfl⟩ | ⟨_, hx⟩
        · exact ⟨_, t, ht, hw ▸ wx⟩
        · exact ⟨j, x, hx, wx⟩
    · exact ⟨fun _ => ⟨i, t', (hset _ _).mpr (.inl ⟨rfl, rfl⟩), hw⟩, fun _ => hcl⟩
  · intro e he
    show e.1 < (s.thr.set i t').length
    rw [List.length_set]
    rcases List.mem_append.mp he with he | he
    · exact h.ids e he
    · obtain ⟨x, _, rfl⟩ := List.mem_map.mp he
      exact hlen
  · intro j x hx
    show ThrOk conn' rooms' (didBy j (s.log ++ es.map (i, ·))) x
    rcases (hset _ _).mp hx with ⟨rfl, rfl⟩ | ⟨hj, hx⟩
    · rw [didBy_append, didBy_own]; exact hown
    · rw [didBy_append, didBy_other hj, List.append_nil]
      refine (h.thr j x hx).frame ?_ ?_
      · intro hc
        have hh := (h.ns j).mpr ⟨x, hx, hc⟩
        rcases hconn with hc | hc | hc
        · exact hc
        · rw [hh] at hc; cases hc
        · rw [hh] at hc; cases hc; exact absurd rfl hj
      · intro o ho
        have hh := (h.room o j).mpr ⟨x, hx, ho⟩
        rcases hroom o with hc | hc | hc
        · exact hc
        · rw [hh] at hc; cases hc
        · rw [hh] at hc; cases hc; exact absurd rfl hj


/-- a step that only moves the goroutine and says something -/
theorem RInv.move {s : RSt} {i : Nat} {t t' : RThr} {es : List REv} (h : RInv s) (ht : s.thr[i]? = some t)
    (hc : t'.crit = t.crit) (hr : t'.inRooms = t.inRooms) (hw : t'.won = t.won)
    (hown : ThrOk s.conn s.rooms (didBy i s.log ++ es) t') {objs' : Nat} :
    RInv { s with objs := objs', thr := s.thr.set i t', log := s.log ++ es.map (i, ·) } := by
  refine h.upd ht h.keys h.rooms (.inl rfl) (fun _ => .inl rfl) ⟨?_, fun _ _ => Iff.rfl⟩
    (fun o => ⟨?_, fun _ _ => Iff.rfl⟩) (.inl ⟨hw, rfl⟩) hown
  · rw [h.ns i, hc]
    exact ⟨fun ⟨x, hx, hcx⟩ => by rw [ht] at hx; cases hx; exact hcx, fun hcx => ⟨t, ht, hcx⟩⟩
  · rw [h.room o i, hr]
    exact ⟨fun ⟨x, hx, hcx⟩ => by rw [ht] at hx; cases hx; exact hcx, fun hcx => ⟨t, ht, hcx⟩⟩

theorem rDel_keys {m : List (Nat × Nat)} (n : Nat) (h : (m.map (·.1)).Nodup) : ((rDel m n).map (·.1)).Nodup :=
  h.sublist ((List.filter_sublist).map _)

theorem rDel_perm {m : List (Nat × Nat)} {n o : Nat} (h : (m.map (·.1)).Nodup) (hm : (n, o) ∈ m) :
    (m.map (·.2)).Perm (o :: (rDel m n).map (·.2)) := by
  induction m with
  | nil => cases hm
  | cons p m ih =>
    obtain ⟨a, b⟩ := p
    simp only [List.map_cons, List.nodup_cons, List.mem_map, not_exists, not_and] at h
    rcases List.mem_cons.mp hm with he | hm
    · cases he
      have hd : rDel ((n, o) :: m) n = m := by
        simp only [rDel, List.filter_cons, ne_eq, not_true, decide_false, Bool.false_eq_true, if_false]
        rw [List.filter_eq_self]
        intro x hx
        simpa using h.1 x hx
      rw [hd]
      exact List.Perm.refl _
    · have hne : a ≠ n := fun he => h.1 _ hm he.symm
      have hd : rDel ((a, b) :: m) n = (a, b) :: rDel m n := by simp [rDel, hne]
      rw [hd]
      simp only [List.map_cons]
      exact ((ih h.2 hm).cons b).trans (List.Perm.swap _ _ _)

theorem filter_ne_perm {rs : List Nat} {r : Nat} (h : rs.Nodup) (hr : r ∈ rs) :
    rs.Perm (r :: rs.filter (· ≠ r)) := by
  rw [List.perm_iff_count]
  intro x
  rw [List.count_cons]
  by_cases hx : x = r
  · subst hx
    rw [h.count, if_pos hr, List.count_eq_zero_of_not_mem (by simp)]
    simp
  · have hx' : ¬ r = x := fun h' => hx h'.symm
    rw [List.count_filter (by simpa using hx)]
    simp [hx']

theorem leaves_append (o : Nat) (a b : List Nat) : leaves o (a ++ b) = leaves o a ++ leaves o b := by
  induction a with
  | nil => rfl
  | cons r a ih => simp [leaves, ih]

theorem RInv.upd0 {s : RSt} {i : Nat} {t t' : RThr} {closed' : Bool} {objs' : Nat} {conn' : List (Nat × Nat)}
    {rooms' : Nat → List Nat} {nsHold' : Option Nat} {roomHold' : Nat → Option Nat}
    (h : RInv s) (ht : s.thr[i]? = some t)
    (hkeys : (conn'.map (·.1)).Nodup) (hrooms : ∀ o, (rooms' o).Nodup)
    (hconn : conn' = s.conn ∨ s.nsHold = none ∨ s.nsHold = some i)
    (hroom : ∀ o, rooms' o = s.rooms o ∨ s.roomHold o = none ∨ s.roomHold o = some i)
    (hns : (nsHold' = some i ↔ t'.crit = true) ∧ ∀ j, j ≠ i → (nsHold' = some j ↔ s.nsHold = some j))
    (hrm : ∀ o, (roomHold' o = some i ↔ t'.inRooms = some o) ∧
      ∀ j, j ≠ i → (roomHold' o = some j ↔ s.roomHold o = some j))
    (hwon : (t'.won = t.won ∧ closed' = s.closed) ∨ (s.closed = false ∧ closed' = true ∧ t'.won = true))
    (hown : ThrOk conn' rooms' (didBy i s.log) t') :
    RInv { closed := closed', objs := objs', conn := conn', rooms := rooms', nsHold := nsHold',
           roomHold := roomHold', thr := s.thr.set i t', log := s.log } := by
  have := h.upd (es := []) (objs' := objs') ht hkeys hrooms hconn hroom hns hrm hwon (by simpa using hown)
  simpa using this

theorem RInv.move0 {s : RSt} {i : Nat} {t t' : RThr} (h : RInv s) (ht : s.thr[i]? = some t)
    (hc : t'.crit = t.crit) (hr : t'.inRooms = t.inRooms) (hw : t'.won = t.won)
    (hown : ThrOk s.conn s.rooms (didBy i s.log) t') {objs' : Nat} :
    RInv { s with objs := objs', thr := s.thr.set i t' } := by
  have := h.move (es := []) (objs' := objs') ht hc hr hw (by simpa using hown)
  simpa using this

theorem updAt_same {α : Type} (f : Nat → α) (o : Nat) (v : α) : updAt f o v o = v := by simp [updAt]

theorem updAt_other {α : Type} (f : Nat → α) {o x : Nat} (v : α) (h : x ≠ o) : updAt f o v x = f x := by
  simp [updAt, h]

theorem rInv_begin {s s' : RSt} {i : Nat} {t : RThr} (h : RInv s) (ht : s.thr[i]? = some t) (hp : t.pc = .start)
    (hs : s.begin i t = some s') : RInv s' := by
  have hok := h.thr i t ht
  have hcr : s.nsHold = some i ↔ t.crit = true := by
    rw [h.ns i]
    exact ⟨fun ⟨x, hx, hcx⟩ => by rw [ht] at hx; cases hx; exact hcx, fun hcx => ⟨t, ht, hcx⟩⟩
  have hro : ∀ o, s.roomHold o = some i ↔ t.inRooms = some o := by
    intro o
    rw [h.room o i]
    exact ⟨fun ⟨x, hx, hcx⟩ => by rw [ht] at hx; cases hx; exact hcx, fun hcx => ⟨t, ht, hcx⟩⟩
  obtain ⟨kind, pc, won, snap, seen⟩ := t
  cases hp
  unfold RSt.begin at hs
  cases kind <;> simp only at hs
  case close =>
    simp only [ThrOk, CloseOk] at hok
    split at hs <;> cases hs
    · refine h.move0 ht ?_ ?_ ?_ ?_ <;> try rfl
      simp [ThrOk, CloseOk, hok]
    · rename_i hcl
      have hf : s.closed = false := by simpa using hcl
      refine h.upd0 ht h.keys h.rooms (.inl rfl) (fun _ => .inl rfl) ⟨hcr.trans (by simp [RThr.crit]), fun _ _ => Iff.rfl⟩
        (fun o => ⟨(hro o).trans (by simp [RThr.inRooms]), fun _ _ => Iff.rfl⟩) (.inr ⟨hf, rfl, rfl⟩) ?_
      simp [ThrOk, CloseOk, hok]
  case connect n =>
    simp only [ThrOk] at hok
    split at hs
    · split at hs <;> cases hs
      · refine h.move0 ht ?_ ?_ ?_ ?_ <;> try rfl
        simp [ThrOk, hok]
      · refine h.move0 ht ?_ ?_ ?_ ?_ <;> try rfl
        simp [ThrOk, hok]
    · cases hs
  case disc n srv =>
    simp only [ThrOk, DiscOk] at hok
    split at hs
    · split at hs <;> cases hs
      · refine h.move0 ht ?_ ?_ ?_ ?_ <;> try rfl
        simp [ThrOk, DiscOk, hok]
      · cases srv
        · refine h.move0 ht ?_ ?_ ?_ ?_ <;> try rfl
          simp [ThrOk, DiscOk, hok, discFirst]
        · refine h.move0 ht ?_ ?_ ?_ ?_ <;> try rfl
          simp [ThrOk, DiscOk, hok]
    · cases hs
  case join o r =>
    simp only [ThrOk] at hok
    split at hs
    · cases hs
      refine h.move0 ht ?_ ?_ ?_ ?_ <;> try rfl
      simp [ThrOk, hok]
    split at hs <;> cases hs
    by_cases hr : r ∈ s.rooms o
    · simp only [hr, if_true]
      refine h.move0 ht ?_ ?_ ?_ ?_ <;> try rfl
      simp [ThrOk, hok]
    · simp only [hr, if_false]
      refine h.move0 ht ?_ ?_ ?_ ?_ <;> try rfl
      simp [ThrOk, hok]
  case leave o r =>
    simp only [ThrOk] at hok
    split at hs
    · cases hs
      refine h.move0 ht ?_ ?_ ?_ ?_ <;> try rfl
      simp [ThrOk, hok]
    split at hs <;> cases hs
    by_cases hr : r ∈ s.rooms o
    · simp only [hr, if_true]
      refine h.move0 ht ?_ ?_ ?_ ?_ <;> try rfl
      simp [ThrOk, hok]
    · simp only [hr, if_false]
      refine h.move0 ht ?_ ?_ ?_ ?_ <;> try rfl
      simp [ThrOk, hok]

theorem closeBody_mem {seen : List (Nat × List Nat)} {l : List REv} (h : CloseBody seen l) (e : REv)
    (he : e ∈ l) : ∃ o, e = .disc o ∨ ∃ r, e = .leave o r ∨ e = .left o r := by
  have hl : ∀ (o : Nat) (rs : List Nat), e ∈ leaves o rs → ∃ o, e = .disc o ∨ ∃ r, e = .leave o r ∨ e = .left o r := by
    intro o rs
    induction rs with
    | nil => intro h; cases h
    | cons r rs ih =>
      intro h
      simp only [leaves, List.mem_cons] at h
      rcases h with h | h | h
      · exact ⟨o, .inr ⟨r, .inl h⟩⟩
      · exact ⟨o, .inr ⟨r, .inr h⟩⟩
      · exact ih h
  induction h with
  | nil => cases he
  | snoc _ _ ih =>
    rcases List.mem_append.mp he with he | he
    · rcases List.mem_append.mp he with he | he
      · exact ih he
      · exact hl _ _ he
    · exact ⟨_, .inl (List.mem_singleton.mp he)⟩

theorem rInv_go {s s' : RSt} {i c : Nat} (h : RInv s) (hs : s.go i c = some s') : RInv s' := by
  unfold RSt.go at hs
  split at hs
  · cases hs
  rename_i t ht
  have hok := h.thr i t ht
  have hcr : s.nsHold = some i ↔ t.crit = true := by
    rw [h.ns i]
    exact ⟨fun ⟨x, hx, hcx⟩ => by rw [ht] at hx; cases hx; exact hcx, fun hcx => ⟨t, ht, hcx⟩⟩
  have hro : ∀ o, s.roomHold o = some i ↔ t.inRooms = some o := by
    intro o
    rw [h.room o i]
    exact ⟨fun ⟨x, hx, hcx⟩ => by rw [ht] at hx; cases hx; exact hcx, fun hcx => ⟨t, ht, hcx⟩⟩
  by_cases hp : t.pc = .start
  · rw [hp] at hs
    exact rInv_begin h ht hp hs
  obtain ⟨kind, pc, won, snap, seen⟩ := t
  cases pc <;> simp only at hs
  case start => exact absurd rfl hp
  case done => cases hs
  case lockNs =>
    have hk : kind = .close := by cases kind <;> simp [ThrOk, DiscOk] at hok ⊢
    subst hk
    simp only [ThrOk, CloseOk] at hok
    split at hs <;> cases hs
    rename_i hn
    refine h.upd0 ht h.keys h.rooms (.inl rfl) (fun _ => .inl rfl) ⟨by simp [RThr.crit], ?_⟩
        (fun o => ⟨(hro o).trans (by simp [RThr.inRooms]), fun _ _ => Iff.rfl⟩) (.inl ⟨rfl, rfl⟩) ?_
    · intro j hj
      rw [hn]
      simpa using fun h' : i = j => hj h'.symm
    · obtain ⟨h1, h2, h3⟩ := hok
      simp only [ThrOk, CloseOk]
      cases h3
      rw [h2]
      exact ⟨h1, h.keys, .nil, by simp⟩
  case nsLoop =>
    have hk : kind = .close := by cases kind <;> simp [ThrOk, DiscOk] at hok ⊢
    subst hk
    simp only [ThrOk, CloseOk] at hok
    split at hs
    · rename_i n o hno
      cases hs
      refine h.move0 ht ?_ ?_ ?_ ?_ <;> try rfl
      exact ⟨hok.1, hok.2.1, hok.2.2.1, hok.2.2.2, List.mem_of_getElem? hno⟩
    · split at hs <;> cases hs
      rename_i hc0
      refine h.upd0 ht h.keys h.rooms (.inl rfl) (fun _ => .inl rfl) ⟨by simp [RThr.crit], ?_⟩
        (fun o => ⟨(hro o).trans (by simp [RThr.inRooms]), fun _ _ => Iff.rfl⟩) (.inl ⟨rfl, rfl⟩) ?_
      · intro j hj
        have := hcr.mpr rfl
        rw [this]
        simpa using fun h' : i = j => hj h'.symm
      · simp only [ThrOk, CloseOk]
        rw [hc0] at hok
        exact ⟨hok.1, hok.2.1, by simpa using hok.2.2.2, hok.2.2.1⟩
  case lockR n o =>
    split at hs <;> cases hs
    rename_i hfree
    refine h.upd0 ht h.keys h.rooms (.inl rfl) (fun _ => .inl rfl) ⟨?_, fun _ _ => Iff.rfl⟩
        (fun x => ⟨?_, ?_⟩) (.inl ⟨rfl, rfl⟩) ?_
    · rw [hcr]; cases kind <;> simp [RThr.crit]
    · by_cases hx : x = o
      · subst hx; (try dsimp only); rw [updAt_same]; simp [RThr.inRooms]
      · (try dsimp only); rw [updAt_other _ _ hx, hro x]; simpa [RThr.inRooms] using fun h' : o = x => hx h'.symm
    · intro j hj
      by_cases hx : x = o
      · subst hx; (try dsimp only); rw [updAt_same, hfree]; simpa using fun h' : i = j => hj h'.symm
      · (try dsimp only); rw [updAt_other _ _ hx]
    · cases kind <;> simp only [ThrOk, DiscOk, CloseOk, and_false] at hok ⊢
      · obtain ⟨h1, h2, h3, h4, h5⟩ := hok
        exact ⟨h1, h2, _, _, _, [], rfl, h3, by simp [leaves], by simp, h4, h5⟩
      · obtain ⟨h1, h2, h3⟩ := hok
        rw [h3]
        exact ⟨h1, _, [], rfl, by simp [leaves, h2], by simp⟩
  case rooms n o =>
    split at hs
    · rename_i r hr
      cases hs
      have hmem := List.mem_of_getElem? hr
      refine h.move (es := [.leave o r]) ht ?_ ?_ ?_ ?_
      · cases kind <;> rfl
      · rfl
      · rfl
      · cases kind <;> simp only [ThrOk, DiscOk, CloseOk, and_false] at hok ⊢
        · obtain ⟨h1, h2, sn, rs, b, pre, h3, h4, h5, h6, h7, h8⟩ := hok
          exact ⟨h1, h2, sn, rs, b, pre, h3, h4, by rw [h5], h6, hmem, h7, h8⟩
        · obtain ⟨h1, rs, pre, h3, h4, h5⟩ := hok
          exact ⟨h1, rs, pre, h3, by rw [h4], h5, hmem⟩
    · split at hs <;> cases hs
      rename_i h0
      refine h.upd0 ht h.keys h.rooms (.inl rfl) (fun _ => .inl rfl) ⟨?_, fun _ _ => Iff.rfl⟩
        (fun x => ⟨?_, ?_⟩) (.inl ⟨rfl, rfl⟩) ?_
      · rw [hcr]; cases kind <;> simp [RThr.crit, RSt.afterRooms]
      · have hn : (⟨kind, RSt.afterRooms kind n o, won, snap, seen⟩ : RThr).inRooms = none := by
          cases kind <;> rfl
        rw [hn]
        by_cases hx : x = o
        · subst hx; (try dsimp only); rw [updAt_same]; simp
        · (try dsimp only); rw [updAt_other _ _ hx, hro x]; simpa [RThr.inRooms] using fun h' : o = x => hx h'.symm
      · intro j hj
        by_cases hx : x = o
        · subst hx
          (try dsimp only); rw [updAt_same, (hro x).mpr rfl]; simpa using fun h' : i = j => hj h'.symm
        · (try dsimp only); rw [updAt_other _ _ hx]
      · cases kind <;> simp only [ThrOk, DiscOk, CloseOk, RSt.afterRooms, and_false] at hok ⊢
        · obtain ⟨h1, h2, sn, rs, b, pre, h3, h4, h5, h6, h7, h8⟩ := hok
          exact ⟨h1, h2, sn, rs, b, pre, h3, h4, h5, by simpa [h0] using h6, h7, h8⟩
        · obtain ⟨h1, rs, pre, h3, h4, h5⟩ := hok
          exact ⟨h1, rs, pre, h3, h4, by simpa [h0] using h5⟩
  case roomDel n o r =>
    cases hs
    refine h.upd0 ht h.keys ?_ (.inl rfl) ?_ ⟨?_, fun _ _ => Iff.rfl⟩ (fun x => ⟨?_, fun _ _ => Iff.rfl⟩)
      (.inl ⟨rfl, rfl⟩) ?_
    · intro x
      by_cases hx : x = o
      · subst hx; (try dsimp only); rw [updAt_same]; exact (h.rooms x).sublist List.filter_sublist
      · (try dsimp only); rw [updAt_other _ _ hx]; exact h.rooms x
    · intro x
      by_cases hx : x = o
      · subst hx; exact .inr (.inr ((hro x).mpr rfl))
      · exact .inl (updAt_other _ _ hx)
    · rw [hcr]; cases kind <;> simp [RThr.crit]
    · rw [hro x]; rfl
    · cases kind <;> simp only [ThrOk, DiscOk, CloseOk, and_false] at hok ⊢
      · obtain ⟨h1, h2, sn, rs, b, pre, h3, h4, h5, h6, hm, h7, h8⟩ := hok
        refine ⟨h1, h2, sn, rs, b, pre, h3, h4, h5, ?_, h7, h8⟩
        (try dsimp only); rw [updAt_same]
        exact ((filter_ne_perm (h.rooms o) hm).symm.append_left pre).trans h6
      · obtain ⟨h1, rs, pre, h3, h4, h5, hm⟩ := hok
        refine ⟨h1, rs, pre, h3, h4, ?_⟩
        (try dsimp only); rw [updAt_same]
        exact ((filter_ne_perm (h.rooms o) hm).symm.append_left pre).trans h5
  case roomLeft n o r =>
    cases hs
    refine h.move (es := [.left o r]) ht ?_ ?_ ?_ ?_
    · cases kind <;> rfl
    · rfl
    · rfl
    · cases kind <;> simp only [ThrOk, DiscOk, CloseOk, and_false] at hok ⊢
      · obtain ⟨h1, h2, sn, rs, b, pre, h3, h4, h5, h6, h7, h8⟩ := hok
        exact ⟨h1, h2, sn, rs, b, pre ++ [r], h3, h4, by rw [h5, leaves_append]; simp [leaves], by simpa using h6, h7, h8⟩
      · obtain ⟨h1, rs, pre, h3, h4, h5⟩ := hok
        exact ⟨h1, rs, pre ++ [r], h3, by rw [h4, leaves_append]; simp [leaves], by simpa using h5⟩
  case disc n o =>
    cases hs
    refine h.move (es := [.disc o]) ht ?_ ?_ ?_ ?_
    · cases kind <;> rfl
    · cases kind <;> rfl
    · rfl
    · cases kind <;> simp only [ThrOk, DiscOk, CloseOk, RSt.afterDisc, and_false] at hok ⊢
      · obtain ⟨h1, h2, sn, rs, b, pre, h3, h4, h5, h6, h7, h8⟩ := hok
        refine ⟨h1, h2, ?_, ?_, h8⟩
        · rw [h3, h5]; exact .snoc h4 h6
        · rw [h3]
          refine List.Perm.trans ?_ h7
          simp only [List.map_append, List.map_cons, List.map_nil, List.append_assoc, List.cons_append,
            List.nil_append]
          exact (rDel_perm h.keys h8).symm.append_left _
      · obtain ⟨h1, h2, rs, pre, h3, h4, h5⟩ := hok
        exact ⟨h1, .inr (.inr ⟨o, rs, pre, h3, h5, by simp [h2, h4]⟩)⟩
  case del n o =>
    split at hs <;> cases hs
    rename_i hfree
    refine h.upd0 ht (rDel_keys n h.keys) h.rooms ?_ (fun _ => .inl rfl) ⟨?_, fun _ _ => Iff.rfl⟩
      (fun x => ⟨?_, fun _ _ => Iff.rfl⟩) (.inl ⟨rfl, rfl⟩) ?_
    · rcases hfree with hk | hf
      · cases hk; exact .inr (.inr (hcr.mpr rfl))
      · exact .inr (.inl hf)
    · rw [hcr]
      cases kind <;> simp [RThr.crit, RSt.afterDel]
      all_goals first | done | (rename_i b; cases b <;> simp)
    · rw [hro x]
      cases kind <;> simp [RThr.inRooms, RSt.afterDel]
      all_goals first | done | (rename_i b; cases b <;> simp)
    · cases kind <;> simp only [ThrOk, DiscOk, CloseOk, RSt.afterDel, and_false] at hok ⊢
      · exact ⟨hok.1, hok.2.1, hok.2.2.1, hok.2.2.2.1⟩
      · rename_i n' srv
        obtain ⟨h1, rs, pre, h3, h4, h5⟩ := hok
        cases srv
        · exact ⟨h1, rfl, rs, pre, h3, by simpa [discFirst] using h4, h5⟩
        · exact ⟨h1, .inr (.inr ⟨o, rs, pre, h3, h5, by simpa [discFirst] using h4⟩)⟩
  case veto n o =>
    cases hs
    have hk : ∃ n', kind = .disc n' true := by
      cases kind <;> simp [ThrOk, DiscOk, CloseOk] at hok ⊢
      exact hok.2.1
    obtain ⟨n', rfl⟩ := hk
    simp only [ThrOk, DiscOk] at hok
    by_cases hc : c = 0
    · rw [if_pos hc]
      refine h.move (es := [.disc o]) ht ?_ ?_ ?_ ?_ <;> try rfl
      simp [ThrOk, DiscOk, hok, discFirst]
    · rw [if_neg hc]
      refine h.move (es := [.disc o]) ht ?_ ?_ ?_ ?_ <;> try rfl
      simp [ThrOk, DiscOk, hok]
  case ack =>
    cases hs
    refine h.move0 ht ?_ ?_ ?_ ?_
    · cases kind <;> rfl
    · rfl
    · rfl
    · cases kind <;> simp only [ThrOk, DiscOk, CloseOk, and_false] at hok ⊢
      exact hok
  case notify =>
    cases hs
    refine h.move (es := [.notify]) ht ?_ ?_ ?_ ?_
    · cases kind <;> rfl
    · rfl
    · rfl
    · cases kind <;> simp only [ThrOk, DiscOk, CloseOk, and_false] at hok ⊢
      exact ⟨hok.1, hok.2.1, hok.2.2.1, _, hok.2.2.2, rfl⟩
  case closeCh =>
    cases hs
    refine h.move (es := [.closeCh]) ht ?_ ?_ ?_ ?_
    · cases kind <;> rfl
    · rfl
    · rfl
    · cases kind <;> simp only [ThrOk, DiscOk, CloseOk, and_false] at hok ⊢
      obtain ⟨h1, h2, h3, b, h4, h5⟩ := hok
      exact ⟨h1, h2, h3, b, h4, by rw [h5]; simp⟩
  case net =>
    cases hs
    refine h.move (es := [.net]) ht ?_ ?_ ?_ ?_
    · cases kind <;> rfl
    · rfl
    · rfl
    · cases kind <;> simp only [ThrOk, DiscOk, CloseOk, and_false] at hok ⊢
      obtain ⟨h1, h2, h3, b, h4, h5⟩ := hok
      exact .inr ⟨h1, h2, h3, b, h4, by rw [h5]; simp⟩
  case fire n o =>
    cases hs
    refine h.move (es := [.connect o]) ht ?_ ?_ ?_ ?_
    · cases kind <;> by_cases hc : c = 0 <;> simp [hc, RThr.crit]
    · by_cases hc : c = 0 <;> simp [hc, RThr.inRooms]
    · rfl
    · cases kind <;> simp only [ThrOk, DiscOk, CloseOk, and_false] at hok
      by_cases hc : c = 0 <;> simp [ThrOk, hc, hok]
  case set n o =>
    split at hs <;> cases hs
    rename_i hfree
    refine h.upd0 ht ?_ h.rooms (.inr (.inl hfree)) (fun _ => .inl rfl) ⟨?_, fun _ _ => Iff.rfl⟩
      (fun x => ⟨?_, fun _ _ => Iff.rfl⟩) (.inl ⟨rfl, rfl⟩) ?_
    · simp only [List.map_cons, List.nodup_cons]
      refine ⟨?_, rDel_keys n h.keys⟩
      simp [rDel]
    · rw [hcr]; cases kind <;> simp [RThr.crit]
    · rw [hro x]; rfl
    · cases kind <;> simp only [ThrOk, DiscOk, CloseOk, and_false] at hok ⊢
      exact hok
  case tell n o =>
    cases hs
    refine h.move (es := [.connected o]) ht ?_ ?_ ?_ ?_
    · cases kind <;> rfl
    · rfl
    · rfl
    · cases kind <;> simp only [ThrOk, DiscOk, CloseOk, and_false] at hok
      simp [ThrOk, hok]
  case joinFire =>
    split at hs <;> cases hs
    rename_i o r
    simp only [ThrOk] at hok
    refine h.move (es := [.join o r]) ht ?_ ?_ ?_ ?_
    · rfl
    · by_cases hc : c = 0 <;> simp [hc, RThr.inRooms]
    · rfl
    · by_cases hc : c = 0 <;> simp [ThrOk, hc, hok]
  case joinAdd =>
    split at hs
    · rename_i o r
      split at hs <;> cases hs
      rename_i hfree
      simp only [ThrOk] at hok
      refine h.upd0 ht h.keys ?_ (.inl rfl) ?_ ⟨?_, fun _ _ => Iff.rfl⟩ (fun x => ⟨?_, fun _ _ => Iff.rfl⟩)
        (.inl ⟨rfl, rfl⟩) ?_
      · intro x
        by_cases hx : x = o
        · subst hx; (try dsimp only); rw [updAt_same]
          split
          · exact h.rooms x
          · rename_i hr; exact List.nodup_cons.mpr ⟨hr, h.rooms x⟩
        · (try dsimp only); rw [updAt_other _ _ hx]; exact h.rooms x
      · intro x
        by_cases hx : x = o
        · subst hx; exact .inr (.inl hfree)
        · exact .inl (updAt_other _ _ hx)
      · rw [hcr]; simp [RThr.crit]
      · rw [hro x]; rfl
      · simp [ThrOk, hok]
    · cases hs
  case joined =>
    split at hs <;> cases hs
    rename_i o r
    simp only [ThrOk] at hok
    refine h.move (es := [.joined o r]) ht ?_ ?_ ?_ ?_ <;> try rfl
    simp [ThrOk, hok]
  case leaveFire =>
    split at hs <;> cases hs
    rename_i o r
    simp only [ThrOk] at hok
    refine h.move (es := [.leave o r]) ht ?_ ?_ ?_ ?_
    · rfl
    · by_cases hc : c = 0 <;> simp [hc, RThr.inRooms]
    · rfl
    · by_cases hc : c = 0 <;> simp [ThrOk, hc, hok]
  case leaveDel =>
    split at hs
    · rename_i o r
      split at hs <;> cases hs
      rename_i hfree
      simp only [ThrOk] at hok
      refine h.upd0 ht h.keys ?_ (.inl rfl) ?_ ⟨?_, fun _ _ => Iff.rfl⟩ (fun x => ⟨?_, fun _ _ => Iff.rfl⟩)
        (.inl ⟨rfl, rfl⟩) ?_
      · intro x
        by_cases hx : x = o
        · subst hx; (try dsimp only); rw [updAt_same]; exact (h.rooms x).sublist List.filter_sublist
        · (try dsimp only); rw [updAt_other _ _ hx]; exact h.rooms x
      · intro x
        by_cases hx : x = o
        · subst hx; exact .inr (.inl hfree)
        · exact .inl (updAt_other _ _ hx)
      · rw [hcr]; simp [RThr.crit]
      · rw [hro x]; rfl
      · simp [ThrOk, hok]
    · cases hs
  case left =>
    split at hs <;> cases hs
    rename_i o r
    simp only [ThrOk] at hok
    refine h.move (es := [.left o r]) ht ?_ ?_ ?_ ?_ <;> try rfl
    simp [ThrOk, hok]

end Neffos
