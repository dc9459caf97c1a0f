import Verif.Proofs.CloseRace
/-!
# `Model/CloseRace.lean`: NSConns, progress, and an end to every run
-/
set_option autoImplicit false

namespace Neffos
open Neffos.Spec

theorem rInv_init : RInv {} := by
  refine ⟨List.nodup_nil, fun _ => List.nodup_nil, ?_, ?_, ?_, ?_, ?_, ?_⟩
  · intro i; simp
  · intro o i; simp
  · intro i j ti tj hi; simp at hi
  · simp
  · intro e he; cases he
  · intro i t hi; simp at hi

theorem didBy_new {log : List (Nat × REv)} {n : Nat} (h : ∀ e ∈ log, e.1 < n) : didBy n log = [] := by
  simp only [didBy, List.map_eq_nil_iff, List.filter_eq_nil_iff]
  intro e he
  have := h e he
  simp only [decide_eq_true_eq]
  omega

theorem getElem?_snoc {α : Type} (l : List α) (x y : α) (j : Nat) :
    (l ++ [x])[j]? = some y ↔ l[j]? = some y ∨ (j = l.length ∧ y = x) := by
  rw [List.getElem?_append]
  split
  · rename_i h
    constructor
    · exact .inl
    · rintro (h' | ⟨rfl, _⟩)
      · exact h'
      · omega
  · rename_i h
    have hn : l[j]? = none := List.getElem?_eq_none (by omega)
    rw [hn]
    by_cases hj : j = l.length
    · subst hj; simp [eq_comm]
    · have : ¬ j - l.length = 0 := by omega
      simp [this, hj]

theorem rInv_spawn {s : RSt} {k : RKind} (h : RInv s) : RInv { s with thr := s.thr ++ [{ kind := k }] } := by
  have hnc : (⟨k, .start, false, [], []⟩ : RThr).crit = false := by cases k <;> rfl
  refine ⟨h.keys, h.rooms, ?_, ?_, ?_, ?_, ?_, ?_⟩
  · intro i
    show s.nsHold = some i ↔ ∃ t, (s.thr ++ [_])[i]? = some t ∧ t.crit = true
    rw [h.ns i]
    constructor
    · rintro ⟨t, ht, hc⟩; exact ⟨t, (getElem?_snoc _ _ _ _).mpr (.inl ht), hc⟩
    · rintro ⟨t, ht, hc⟩
      rcases (getElem?_snoc _ _ _ _).mp ht with ht | ⟨_, rfl⟩
      · exact ⟨t, ht, hc⟩
      · rw [hnc] at hc; cases hc
  · intro o i
    show s.roomHold o = some i ↔ ∃ t, (s.thr ++ [_])[i]? = some t ∧ t.inRooms = some o
    rw [h.room o i]
    constructor
    · rintro ⟨t, ht, hc⟩; exact ⟨t, (getElem?_snoc _ _ _ _).mpr (.inl ht), hc⟩
    · rintro ⟨t, ht, hc⟩
      rcases (getElem?_snoc _ _ _ _).mp ht with ht | ⟨_, rfl⟩
      · exact ⟨t, ht, hc⟩
      · cases hc
  · intro i j ti tj hi hj wi wj
    rcases (getElem?_snoc _ _ _ _).mp hi with hi | ⟨_, rfl⟩
    · rcases (getElem?_snoc _ _ _ _).mp hj with hj | ⟨_, rfl⟩
      · exact h.one i j ti tj hi hj wi wj
      · cases wj
    · cases wi
  · show s.closed = true ↔ ∃ (j : Nat) (x : RThr), (s.thr ++ [_])[j]? = some x ∧ x.won = true
    rw [h.won]
    constructor
    · rintro ⟨j, x, hx, wx⟩; exact ⟨j, x, (getElem?_snoc _ _ _ _).mpr (.inl hx), wx⟩
    · rintro ⟨j, x, hx, wx⟩
      rcases (getElem?_snoc _ _ _ _).mp hx with hx | ⟨_, rfl⟩
      · exact ⟨j, x, hx, wx⟩
      · cases wx
  · intro e he
    show e.1 < (s.thr ++ [_]).length
    rw [List.length_append]
    have := h.ids e he
    omega
  · intro i t ht
    rcases (getElem?_snoc _ _ _ _).mp ht with ht | ⟨rfl, rfl⟩
    · exact h.thr i t ht
    · show ThrOk s.conn s.rooms (didBy s.thr.length s.log) _
      rw [didBy_new h.ids]
      cases k <;> simp [ThrOk, CloseOk, DiscOk]

theorem rInv_reach {s : RSt} (h : RReach s) : RInv s := by
  induction h with
  | init => exact rInv_init
  | step _ hs ih =>
    rename_i op _
    cases op with
    | spawn k => cases hs; exact rInv_spawn ih
    | go i c => exact rInv_go ih hs

/-! ## NSConns -/

/-- the NSConn that the goroutine is about -/
def RThr.pcObj (t : RThr) : Option Nat :=
  match t.pc with
  | .lockR _ o => some o
  | .rooms _ o => some o
  | .roomDel _ o _ => some o
  | .roomLeft _ o _ => some o
  | .disc _ o => some o
  | .del _ o => some o
  | .veto _ o => some o
  | .fire _ o => some o
  | .set _ o => some o
  | .tell _ o => some o
  | .joinFire | .joinAdd | .joined | .leaveFire | .leaveDel | .left =>
    match t.kind with
    | .join o _ => some o
    | .leave o _ => some o
    | _ => none
  | _ => none

/-- the NSConn that it made and has not put into the map yet -/
def RThr.pendObj (t : RThr) : Option Nat :=
  match t.pc with
  | .fire _ o => some o
  | .set _ o => some o
  | _ => none

theorem RThr.pend_pc {t : RThr} {o : Nat} (h : t.pendObj = some o) : t.pcObj = some o := by
  obtain ⟨kind, pc, won, snap, seen⟩ := t
  cases pc <;> simp_all [RThr.pendObj, RThr.pcObj]

structure RObj (s : RSt) : Prop where
  lt : ∀ p ∈ s.conn, p.2 < s.objs
  nodup : (s.conn.map (·.2)).Nodup
  fresh : ∀ o, s.objs ≤ o → s.rooms o = []
  pc : ∀ (i : Nat) (t : RThr), s.thr[i]? = some t → ∀ o, t.pcObj = some o → o < s.objs
  pend : ∀ (i : Nat) (t : RThr), s.thr[i]? = some t → ∀ o, t.pendObj = some o → ∀ p ∈ s.conn, p.2 ≠ o
  one : ∀ (i j : Nat) (ti tj : RThr) (o : Nat), s.thr[i]? = some ti → s.thr[j]? = some tj →
    ti.pendObj = some o → tj.pendObj = some o → i = j

theorem RObj.upd {s : RSt} {i : Nat} {t t' : RThr} {closed' : Bool} {objs' : Nat} {conn' : List (Nat × Nat)}
    {rooms' : Nat → List Nat} {nsHold' : Option Nat} {roomHold' : Nat → Option Nat} {log' : List (Nat × REv)}
    (h : RObj s) (ht : s.thr[i]? = some t) (hobj : s.objs ≤ objs')
    (hnd : (conn'.map (·.2)).Nodup) (hfr : ∀ o, objs' ≤ o → rooms' o = [])
    (hpc : ∀ o, t'.pcObj = some o → o < objs')
    (hpend : t'.pendObj = none ∨ t'.pendObj = t.pendObj ∨ (t'.pendObj = some s.objs))
    (hconn : ∀ p ∈ conn', p ∈ s.conn ∨ (t.pendObj = some p.2 ∧ t'.pendObj = none)) :
    RObj { closed := closed', objs := objs', conn := conn', rooms := rooms', nsHold := nsHold',
           roomHold := roomHold', thr := s.thr.set i t', log := log' } := by
  have hlen : i < s.thr.length := (List.getElem?_eq_some_iff.mp ht).1
  have hset : ∀ j x, (s.thr.set i t')[j]? = some x → (j = i ∧ x = t') ∨ (j ≠ i ∧ s.thr[j]? = some x) := by
    intro j x
    rw [List.getElem?_set]
    by_cases hj : i = j
    · subst hj; simp [hlen, eq_comm]
    · have hj' : ¬ j = i := fun h' => hj h'.symm
      simp [hj, hj']
  refine ⟨?_, hnd, hfr, ?_, ?_, ?_⟩
  · intro p hp
    rcases hconn p hp with hp | ⟨hp, _⟩
    · exact Nat.lt_of_lt_of_le (h.lt p hp) hobj
    · exact Nat.lt_of_lt_of_le (h.pc i t ht _ (RThr.pend_pc hp)) hobj
  · intro j x hx o ho
    rcases hset j x hx with ⟨rfl, rfl⟩ | ⟨hj, hx⟩
    · exact hpc o ho
    · exact Nat.lt_of_lt_of_le (h.pc j x hx o ho) hobj
  · intro j x hx o ho p hp he
    rcases hset j x hx with ⟨rfl, rfl⟩ | ⟨hj, hx⟩
    · rcases hconn p hp with hp' | ⟨_, hn⟩
      · rcases hpend with hn | hn | hn
        · rw [hn] at ho; cases ho
        · exact h.pend _ t ht o (hn ▸ ho) p hp' he
        · rw [hn] at ho
          cases ho
          have := h.lt p hp'
          omega
      · rw [hn] at ho; cases ho
    · rcases hconn p hp with hp' | ⟨hn, _⟩
      · exact h.pend j x hx o ho p hp' he
      · exact hj (h.one j i x t o hx ht ho (he ▸ hn))
  · intro j k tj tk o hj hk oj ok
    replace hj := hset j tj hj
    replace hk := hset k tk hk
    rcases hj with ⟨rfl, rfl⟩ | ⟨hji, hj⟩
    · rcases hk with ⟨rfl, rfl⟩ | ⟨hki, hk⟩
      · rfl
      · rcases hpend with hn | hn | hn
        · rw [hn] at oj; cases oj
        · exact h.one _ _ t tk o ht hk (hn ▸ oj) ok
        · rw [hn] at oj; cases oj
          have := h.pc k tk hk _ (RThr.pend_pc ok)
          omega
    · rcases hk with ⟨rfl, rfl⟩ | ⟨hki, hk⟩
      · rcases hpend with hn | hn | hn
        · rw [hn] at ok; cases ok
        · exact h.one _ _ tj t o hj ht oj (hn ▸ ok)
        · rw [hn] at ok; cases ok
          have := h.pc j tj hj _ (RThr.pend_pc oj)
          omega
      · exact h.one _ _ _ _ o hj hk oj ok

theorem rGet_mem {m : List (Nat × Nat)} {n o : Nat} (h : rGet m n = some o) : (n, o) ∈ m := by
  simp only [rGet, Option.map_eq_some_iff] at h
  obtain ⟨p, hp, rfl⟩ := h
  have h1 := List.mem_of_find?_eq_some hp
  have h2 := List.find?_some hp
  simp only [decide_eq_true_eq] at h2
  subst h2
  exact h1

theorem rObj_go {s s' : RSt} {i c : Nat} (h : RObj s) (hs : s.go i c = some s') : RObj s' := by
  unfold RSt.go at hs
  split at hs
  · cases hs
  rename_i t ht
  have hpc := h.pc i t ht
  have hpd := h.pend i t ht
  obtain ⟨kind, pc, won, snap, seen⟩ := t
  have fr : ∀ (o : Nat) (v : List Nat), o < s.objs → ∀ x, s.objs ≤ x → updAt s.rooms o v x = [] := by
    intro o v ho x hx
    rw [updAt_other _ _ (by omega)]
    exact h.fresh x hx
  cases pc <;> simp only at hs
  case start =>
    unfold RSt.begin at hs
    cases kind <;> simp only at hs
    · split at hs <;> cases hs <;>
        exact h.upd ht (Nat.le_refl _) h.nodup h.fresh (by simp [RThr.pcObj]) (.inl rfl) (fun p hp => .inl hp)
    · split at hs
      · split at hs <;> cases hs
        · exact h.upd ht (Nat.le_refl _) h.nodup h.fresh (by simp [RThr.pcObj]) (.inl rfl) (fun p hp => .inl hp)
        · refine h.upd ht (Nat.le_succ _) h.nodup (fun o ho => h.fresh o (Nat.le_of_succ_le ho)) ?_ (.inr (.inr rfl))
            (fun p hp => .inl hp)
          simp [RThr.pcObj]
      · cases hs
    · rename_i n srv
      split at hs
      · split at hs <;> cases hs
        · exact h.upd ht (Nat.le_refl _) h.nodup h.fresh (by simp [RThr.pcObj]) (.inl rfl) (fun p hp => .inl hp)
        · rename_i o ho
          have := h.lt _ (rGet_mem ho)
          refine h.upd ht (Nat.le_refl _) h.nodup h.fresh ?_ ?_ (fun p hp => .inl hp)
          · cases srv <;> simpa [RThr.pcObj] using this
          · left; cases srv <;> rfl
      · cases hs
    all_goals
      rename_i o r
      split at hs
      · cases hs
        exact h.upd ht (Nat.le_refl _) h.nodup h.fresh (by simp [RThr.pcObj]) (.inl rfl) (fun p hp => .inl hp)
      split at hs <;> cases hs
      rename_i ho _
      refine h.upd ht (Nat.le_refl _) h.nodup h.fresh ?_ ?_ (fun p hp => .inl hp)
      · intro x hx
        by_cases hr : r ∈ s.rooms o <;> simp [hr, RThr.pcObj] at hx <;> omega
      · left; by_cases hr : r ∈ s.rooms o <;> simp [hr, RThr.pendObj]
  case lockNs =>
    split at hs <;> cases hs
    exact h.upd ht (Nat.le_refl _) h.nodup h.fresh (by simp [RThr.pcObj]) (.inl rfl) (fun p hp => .inl hp)
  case nsLoop =>
    split at hs
    · rename_i n o hno
      cases hs
      have := h.lt _ (List.mem_of_getElem? hno)
      exact h.upd ht (Nat.le_refl _) h.nodup h.fresh (by simpa [RThr.pcObj] using this) (.inl rfl)
        (fun p hp => .inl hp)
    · split at hs <;> cases hs
      exact h.upd ht (Nat.le_refl _) h.nodup h.fresh (by simp [RThr.pcObj]) (.inl rfl) (fun p hp => .inl hp)
  case lockR n o =>
    split at hs <;> cases hs
    exact h.upd ht (Nat.le_refl _) h.nodup h.fresh (fun x hx => hpc x hx) (.inl rfl) (fun p hp => .inl hp)
  case rooms n o =>
    have := hpc o rfl
    split at hs
    · cases hs
      exact h.upd ht (Nat.le_refl _) h.nodup h.fresh (fun x hx => hpc x hx) (.inl rfl) (fun p hp => .inl hp)
    · split at hs <;> cases hs
      refine h.upd ht (Nat.le_refl _) h.nodup h.fresh ?_ ?_ (fun p hp => .inl hp)
      · cases kind <;> simpa [RThr.pcObj, RSt.afterRooms] using this
      · left; cases kind <;> rfl
  case roomDel n o r =>
    cases hs
    exact h.upd ht (Nat.le_refl _) h.nodup (fr o _ (hpc o rfl)) (fun x hx => hpc x hx) (.inl rfl)
      (fun p hp => .inl hp)
  case roomLeft n o r =>
    cases hs
    exact h.upd ht (Nat.le_refl _) h.nodup h.fresh (fun x hx => hpc x hx) (.inl rfl) (fun p hp => .inl hp)
  case disc n o =>
    have := hpc o rfl
    cases hs
    refine h.upd ht (Nat.le_refl _) h.nodup h.fresh ?_ ?_ (fun p hp => .inl hp)
    · show ∀ x, _ → x < s.objs
      cases kind <;> simp [RThr.pcObj, RSt.afterDisc, this]
    · left; cases kind <;> rfl
  case del n o =>
    have := hpc o rfl
    split at hs
    case isFalse => cases hs
    cases hs
    refine h.upd ht (Nat.le_refl _) ?_ h.fresh ?_ ?_ ?_
    · exact h.nodup.sublist ((List.filter_sublist).map _)
    · show ∀ x, _ → x < s.objs
      cases kind
      case disc n' srv _ => cases srv <;> simp [RThr.pcObj, RSt.afterDel, this]
      all_goals simp [RThr.pcObj, RSt.afterDel, this]
    · left
      cases kind
      case disc n' srv _ => cases srv <;> simp [RThr.pendObj, RSt.afterDel]
      all_goals simp [RThr.pendObj, RSt.afterDel]
    · intro p hp; exact .inl (List.mem_filter.mp hp).1
  case veto n o =>
    have := hpc o rfl
    cases hs
    refine h.upd ht (Nat.le_refl _) h.nodup h.fresh ?_ ?_ (fun p hp => .inl hp)
    · show ∀ x, _ → x < s.objs
      by_cases hc : c = 0 <;> simp [hc, RThr.pcObj, this]
    · left; by_cases hc : c = 0 <;> simp [hc, RThr.pendObj]
  case ack =>
    cases hs
    exact h.upd ht (Nat.le_refl _) h.nodup h.fresh (by simp [RThr.pcObj]) (.inl rfl) (fun p hp => .inl hp)
  case notify =>
    cases hs
    exact h.upd ht (Nat.le_refl _) h.nodup h.fresh (by simp [RThr.pcObj]) (.inl rfl) (fun p hp => .inl hp)
  case closeCh =>
    cases hs
    exact h.upd ht (Nat.le_refl _) h.nodup h.fresh (by simp [RThr.pcObj]) (.inl rfl) (fun p hp => .inl hp)
  case net =>
    cases hs
    exact h.upd ht (Nat.le_refl _) h.nodup h.fresh (by simp [RThr.pcObj]) (.inl rfl) (fun p hp => .inl hp)
  case fire n o =>
    have := hpc o rfl
    cases hs
    refine h.upd ht (Nat.le_refl _) h.nodup h.fresh ?_ ?_ (fun p hp => .inl hp)
    · show ∀ x, _ → x < s.objs
      by_cases hc : c = 0 <;> simp [hc, RThr.pcObj, this]
    · by_cases hc : c = 0 <;> simp [hc, RThr.pendObj]
  case set n o =>
    split at hs <;> cases hs
    refine h.upd ht (Nat.le_refl _) ?_ h.fresh (fun x hx => hpc x hx) (.inl rfl) ?_
    · simp only [List.map_cons, List.nodup_cons]
      refine ⟨?_, h.nodup.sublist ((List.filter_sublist).map _)⟩
      intro hm
      obtain ⟨p, hp, he⟩ := List.mem_map.mp hm
      exact hpd o rfl p (List.mem_filter.mp hp).1 he
    · intro p hp
      rcases List.mem_cons.mp hp with rfl | hp
      · exact .inr ⟨rfl, rfl⟩
      · exact .inl (List.mem_filter.mp hp).1
  case tell n o =>
    cases hs
    exact h.upd ht (Nat.le_refl _) h.nodup h.fresh (by simp [RThr.pcObj]) (.inl rfl) (fun p hp => .inl hp)
  case joinFire =>
    split at hs <;> cases hs
    rename_i o r
    have := hpc o rfl
    refine h.upd ht (Nat.le_refl _) h.nodup h.fresh ?_ ?_ (fun p hp => .inl hp)
    · show ∀ x, _ → x < s.objs
      by_cases hc : c = 0 <;> simp [hc, RThr.pcObj, this]
    · left; by_cases hc : c = 0 <;> simp [hc, RThr.pendObj]
  case joinAdd =>
    split at hs
    · rename_i o r
      split at hs <;> cases hs
      exact h.upd ht (Nat.le_refl _) h.nodup (fr o _ (hpc o rfl)) (fun x hx => hpc x hx) (.inl rfl)
        (fun p hp => .inl hp)
    · cases hs
  case joined =>
    split at hs <;> cases hs
    exact h.upd ht (Nat.le_refl _) h.nodup h.fresh (by simp [RThr.pcObj]) (.inl rfl) (fun p hp => .inl hp)
  case leaveFire =>
    split at hs <;> cases hs
    rename_i o r
    have := hpc o rfl
    refine h.upd ht (Nat.le_refl _) h.nodup h.fresh ?_ ?_ (fun p hp => .inl hp)
    · show ∀ x, _ → x < s.objs
      by_cases hc : c = 0 <;> simp [hc, RThr.pcObj, this]
    · left; by_cases hc : c = 0 <;> simp [hc, RThr.pendObj]
  case leaveDel =>
    split at hs
    · rename_i o r
      split at hs <;> cases hs
      exact h.upd ht (Nat.le_refl _) h.nodup (fr o _ (hpc o rfl)) (fun x hx => hpc x hx) (.inl rfl)
        (fun p hp => .inl hp)
    · cases hs
  case left =>
    split at hs <;> cases hs
    exact h.upd ht (Nat.le_refl _) h.nodup h.fresh (by simp [RThr.pcObj]) (.inl rfl) (fun p hp => .inl hp)
  case done => cases hs

theorem rObj_reach {s : RSt} (h : RReach s) : RObj s := by
  induction h with
  | init =>
    refine ⟨?_, List.nodup_nil, fun _ _ => rfl, ?_, ?_, ?_⟩
    · intro p hp; cases hp
    · intro i t hi; simp at hi
    · intro i t hi; simp at hi
    · intro i j ti tj o hi; simp at hi
  | step _ hs ih =>
    rename_i op _
    cases op with
    | go i c => exact rObj_go ih hs
    | spawn k =>
      cases hs
      refine ⟨ih.lt, ih.nodup, ih.fresh, ?_, ?_, ?_⟩
      · intro i t ht
        rcases (getElem?_snoc _ _ _ _).mp ht with ht | ⟨_, rfl⟩
        · exact ih.pc i t ht
        · intro o ho; cases ho
      · intro i t ht
        rcases (getElem?_snoc _ _ _ _).mp ht with ht | ⟨_, rfl⟩
        · exact ih.pend i t ht
        · intro o ho; cases ho
      · intro i j ti tj o hi hj oi oj
        rcases (getElem?_snoc _ _ _ _).mp hi with hi | ⟨_, rfl⟩
        · rcases (getElem?_snoc _ _ _ _).mp hj with hj | ⟨_, rfl⟩
          · exact ih.one i j ti tj o hi hj oi oj
          · cases oj
        · cases oi

/-! ## Nobody waits for ever -/

theorem rGo_holder {s : RSt} {j o : Nat} {t : RThr} (ht : s.thr[j]? = some t) (hr : t.inRooms = some o) :
    ∃ s', s.go j 0 = some s' := by
  obtain ⟨kind, pc, won, snap, seen⟩ := t
  cases pc <;> simp [RThr.inRooms] at hr
  case rooms n o' =>
    subst hr
    cases hm : s.rooms o' with
    | nil => simp [RSt.go, ht, hm]
    | cons r rs => simp [RSt.go, ht, hm]
  all_goals simp [RSt.go, ht]

theorem rGo_crit {s : RSt} {j : Nat} {t : RThr} (ht : s.thr[j]? = some t) (hc : t.crit = true)
    (hfree : ∀ o, s.roomHold o = none) : ∃ s', s.go j 0 = some s' := by
  cases hr : t.inRooms with
  | some o => exact rGo_holder ht hr
  | none =>
    obtain ⟨kind, pc, won, snap, seen⟩ := t
    cases kind <;> cases pc <;> simp [RThr.crit, RThr.inRooms] at hc hr
    · cases hm : s.conn with
      | nil => simp [RSt.go, ht, hm]
      | cons p ps => obtain ⟨n, o⟩ := p; simp [RSt.go, ht, hm]
    · simp [RSt.go, ht, hfree]
    · simp [RSt.go, ht]
    · simp [RSt.go, ht]

theorem rGo_free {s : RSt} (h : RInv s) {j : Nat} {t : RThr} (ht : s.thr[j]? = some t) (hd : t.pc ≠ .done)
    (hfree : ∀ o, s.roomHold o = none) (hns : s.nsHold = none) : ∃ s', s.go j 0 = some s' := by
  cases hr : t.inRooms with
  | some o => exact rGo_holder ht hr
  | none =>
    have hok := h.thr j t ht
    have hnc : t.crit = false := by
      cases hc : t.crit
      · rfl
      · have := (h.ns j).mpr ⟨t, ht, hc⟩; rw [hns] at this; cases this
    obtain ⟨kind, pc, won, snap, seen⟩ := t
    cases pc
    case start =>
      cases kind
      case close => cases hcl : s.closed <;> simp [RSt.go, ht, RSt.begin, hcl]
      case connect n => cases hg : rGet s.conn n <;> simp [RSt.go, ht, RSt.begin, hns, hg]
      case disc n srv => cases hg : rGet s.conn n <;> simp [RSt.go, ht, RSt.begin, hns, hg]
      case join o r => by_cases ho : s.objs ≤ o <;> simp [RSt.go, ht, RSt.begin, hfree, ho]
      case leave o r => by_cases ho : s.objs ≤ o <;> simp [RSt.go, ht, RSt.begin, hfree, ho]
    all_goals cases kind <;> simp_all [RSt.go, ThrOk, CloseOk, DiscOk, RThr.crit, RThr.inRooms]

theorem rGo_progress {s : RSt} (h : RInv s) {i : Nat} {t : RThr} (ht : s.thr[i]? = some t) (hd : t.pc ≠ .done) :
    ∃ j c s', s.go j c = some s' := by
  by_cases hr : ∀ o, s.roomHold o = none
  · cases hn : s.nsHold with
    | some j =>
      obtain ⟨tj, hj, hc⟩ := (h.ns j).mp hn
      obtain ⟨s', hs⟩ := rGo_crit hj hc hr
      exact ⟨j, 0, s', hs⟩
    | none =>
      obtain ⟨s', hs⟩ := rGo_free h ht hd hr hn
      exact ⟨i, 0, s', hs⟩
  · have : ∃ o j, s.roomHold o = some j := by
      apply Classical.byContradiction
      intro hno
      apply hr
      intro o
      cases ho : s.roomHold o with
      | none => rfl
      | some j => exact absurd ⟨o, j, ho⟩ hno
    obtain ⟨o, j, ho⟩ := this
    obtain ⟨tj, hj, hi⟩ := (h.room o j).mp ho
    obtain ⟨s', hs⟩ := rGo_holder hj hi
    exact ⟨j, 0, s', hs⟩

/-! ## Every run ends -/

/-- how far a goroutine has to go -/
def RThr.weight (t : RThr) : Nat :=
  match t.pc with
  | .start => 14
  | .lockNs => 13
  | .nsLoop => 12
  | .veto _ _ => 12
  | .lockR _ _ => 11
  | .rooms _ _ => 10
  | .roomDel _ _ _ => 9
  | .roomLeft _ _ _ => 11
  | .disc _ _ => match t.kind with
    | .close => 9
    | _ => 7
  | .del _ _ => 8
  | .ack => 4
  | .notify => 3
  | .closeCh => 2
  | .net => 1
  | .fire _ _ => 13
  | .set _ _ => 12
  | .tell _ _ => 1
  | .joinFire => 13
  | .joinAdd => 12
  | .joined => 1
  | .leaveFire => 13
  | .leaveDel => 12
  | .left => 1
  | .done => 0

/-- how many rooms there are -/
def roomTotal (rooms : Nat → List Nat) : Nat → Nat
  | 0 => 0
  | n + 1 => roomTotal rooms n + (rooms n).length

def RSt.weight (s : RSt) : Nat :=
  (s.thr.map RThr.weight).sum + 5 * s.conn.length + 3 * roomTotal s.rooms s.objs

theorem roomTotal_upd (rooms : Nat → List Nat) (o : Nat) (v : List Nat) (n : Nat) :
    roomTotal (updAt rooms o v) n + (if o < n then (rooms o).length else 0) =
      roomTotal rooms n + (if o < n then v.length else 0) := by
  induction n with
  | zero => rfl
  | succ n ih =>
    simp only [roomTotal]
    by_cases h : n = o
    · subst h
      rw [updAt_same]
      simp at ih
      simp
      omega
    · rw [updAt_other _ _ h]
      by_cases h2 : o < n
      · have : o < n + 1 := by omega
        simp only [h2, this, if_true] at ih ⊢
        omega
      · have : ¬ o < n + 1 := by omega
        simp only [h2, this, if_false] at ih ⊢
        omega

theorem weight_set {l : List RThr} {i : Nat} {t t' : RThr} (h : l[i]? = some t) :
    ((l.set i t').map RThr.weight).sum + t.weight = (l.map RThr.weight).sum + t'.weight := by
  induction l generalizing i with
  | nil => simp at h
  | cons a l ih =>
    cases i with
    | zero =>
      simp at h
      subst h
      simp
      omega
    | succ i =>
      simp at h
      have := ih h
      simp only [List.set_cons_succ, List.map_cons, List.sum_cons]
      omega

theorem weight_lt {s : RSt} {i : Nat} {t t' : RThr} {closed' : Bool} {objs' : Nat} {conn' : List (Nat × Nat)}
    {rooms' : Nat → List Nat} {nsHold' : Option Nat} {roomHold' : Nat → Option Nat} {log' : List (Nat × REv)}
    (ht : s.thr[i]? = some t)
    (hlt : t'.weight + 5 * conn'.length + 3 * roomTotal rooms' objs' <
      t.weight + 5 * s.conn.length + 3 * roomTotal s.rooms s.objs) :
    RSt.weight { closed := closed', objs := objs', conn := conn', rooms := rooms', nsHold := nsHold',
                 roomHold := roomHold', thr := s.thr.set i t', log := log' } < s.weight := by
  have := weight_set (t' := t') ht
  simp only [RSt.weight]
  omega

theorem weight_move {s : RSt} {i : Nat} {t t' : RThr} {closed' : Bool}
    {nsHold' : Option Nat} {roomHold' : Nat → Option Nat} {log' : List (Nat × REv)}
    (ht : s.thr[i]? = some t) (hlt : t'.weight < t.weight) :
    RSt.weight { closed := closed', objs := s.objs, conn := s.conn, rooms := s.rooms, nsHold := nsHold',
                 roomHold := roomHold', thr := s.thr.set i t', log := log' } < s.weight :=
  weight_lt ht (by omega)

theorem rDel_length_le (m : List (Nat × Nat)) (n : Nat) : (rDel m n).length ≤ m.length :=
  List.length_filter_le _ _

theorem rDel_length_lt {m : List (Nat × Nat)} {n o : Nat} (h : (n, o) ∈ m) : (rDel m n).length < m.length := by
  have h1 := List.length_eq_countP_add_countP (p := fun x : Nat × Nat => decide (x.1 ≠ n)) (l := m)
  have h2 : 0 < m.countP (fun x => decide ¬ (decide (x.1 ≠ n) = true)) :=
    List.countP_pos_iff.mpr ⟨(n, o), h, by simp⟩
  have h3 : (rDel m n).length = m.countP (fun x : Nat × Nat => decide (x.1 ≠ n)) := by
    simp only [rDel, List.countP_eq_length_filter]
  omega

theorem filter_ne_length {l : List Nat} {r : Nat} (h : r ∈ l) : (l.filter (· ≠ r)).length < l.length := by
  have h1 := List.length_eq_countP_add_countP (p := fun x : Nat => decide (x ≠ r)) (l := l)
  have h2 : 0 < l.countP (fun x => decide ¬ (decide (x ≠ r) = true)) :=
    List.countP_pos_iff.mpr ⟨r, h, by simp⟩
  rw [List.countP_eq_length_filter] at h1
  omega

theorem rGo_weight {s s' : RSt} {i c : Nat} (h : RInv s) (ho : RObj s) (hs : s.go i c = some s') :
    s'.weight < s.weight := by
  unfold RSt.go at hs
  split at hs
  · cases hs
  rename_i t ht
  have hpc := ho.pc i t ht
  have hok := h.thr i t ht
  obtain ⟨kind, pc, won, snap, seen⟩ := t
  cases pc <;> simp only at hs
  case start =>
    unfold RSt.begin at hs
    cases kind <;> simp only at hs
    · split at hs <;> cases hs <;> exact weight_move ht (by simp [RThr.weight])
    · split at hs
      · split at hs <;> cases hs
        · exact weight_move ht (by simp [RThr.weight])
        · refine weight_lt ht ?_
          have : roomTotal s.rooms (s.objs + 1) = roomTotal s.rooms s.objs := by
            simp [roomTotal, ho.fresh s.objs (Nat.le_refl _)]
          simp only [this, RThr.weight]
          omega
      · cases hs
    · rename_i n srv
      split at hs
      · split at hs <;> cases hs
        · exact weight_move ht (by simp [RThr.weight])
        · refine weight_move ht ?_
          cases srv <;> simp [RThr.weight]
      · cases hs
    all_goals
      rename_i o r
      split at hs
      · cases hs
        exact weight_move ht (by simp [RThr.weight])
      split at hs <;> cases hs
      refine weight_move ht ?_
      by_cases hr : r ∈ s.rooms o <;> simp [hr, RThr.weight]
  case lockNs => split at hs <;> cases hs; exact weight_move ht (by simp [RThr.weight])
  case nsLoop =>
    split at hs
    · cases hs; exact weight_move ht (by simp [RThr.weight])
    · split at hs <;> cases hs; exact weight_move ht (by simp [RThr.weight])
  case lockR n o => split at hs <;> cases hs; exact weight_move ht (by simp [RThr.weight])
  case rooms n o =>
    split at hs
    · cases hs; exact weight_move ht (by simp [RThr.weight])
    · split at hs <;> cases hs
      refine weight_move ht ?_
      cases kind <;> simp [RThr.weight, RSt.afterRooms]
  case roomDel n o r =>
    cases hs
    refine weight_lt ht ?_
    have hr : r ∈ s.rooms o := by
      cases kind <;> simp [ThrOk, CloseOk, DiscOk] at hok
      · obtain ⟨_, _, _, _, _, _, _, _, _, _, hr, _⟩ := hok; exact hr
      · obtain ⟨_, _, _, _, _, _, hr⟩ := hok; exact hr
    have h1 := roomTotal_upd s.rooms o ((s.rooms o).filter (· ≠ r)) s.objs
    have h2 := filter_ne_length hr
    have h3 := hpc o rfl
    simp only [h3, if_true] at h1
    simp only [RThr.weight]
    omega
  case roomLeft n o r => cases hs; exact weight_move ht (by simp [RThr.weight])
  case disc n o =>
    cases hs
    refine weight_move ht ?_
    cases kind <;> simp [RThr.weight, RSt.afterDisc]
  case del n o =>
    split at hs
    case isFalse => cases hs
    cases hs
    refine weight_lt ht ?_
    have h1 := rDel_length_le s.conn n
    cases kind
    case close _ =>
      simp only [ThrOk, CloseOk] at hok
      have h2 := rDel_length_lt hok.2.2.2.2
      simp only [RThr.weight, RSt.afterDel]
      omega
    case disc n' srv _ =>
      cases srv <;> simp only [RThr.weight, RSt.afterDel] <;> omega
    all_goals simp [ThrOk] at hok
  case veto n o =>
    cases hs
    refine weight_move ht ?_
    by_cases hc : c = 0 <;> simp [hc, RThr.weight]
  case ack => cases hs; exact weight_move ht (by simp [RThr.weight])
  case notify => cases hs; exact weight_move ht (by simp [RThr.weight])
  case closeCh => cases hs; exact weight_move ht (by simp [RThr.weight])
  case net => cases hs; exact weight_move ht (by simp [RThr.weight])
  case fire n o =>
    cases hs
    refine weight_move ht ?_
    by_cases hc : c = 0 <;> simp [hc, RThr.weight]
  case set n o =>
    split at hs <;> cases hs
    refine weight_lt ht ?_
    have h1 := rDel_length_le s.conn n
    simp only [RThr.weight, List.length_cons]
    omega
  case tell n o => cases hs; exact weight_move ht (by simp [RThr.weight])
  case joinFire =>
    split at hs <;> cases hs
    refine weight_move ht ?_
    by_cases hc : c = 0 <;> simp [hc, RThr.weight]
  case joinAdd =>
    split at hs
    · rename_i o r
      split at hs <;> cases hs
      refine weight_lt ht ?_
      have h1 := roomTotal_upd s.rooms o (if r ∈ s.rooms o then s.rooms o else r :: s.rooms o) s.objs
      have h3 := hpc o rfl
      have h4 : (if r ∈ s.rooms o then s.rooms o else r :: s.rooms o).length ≤ (s.rooms o).length + 1 := by
        split <;> simp
      simp only [h3, if_true] at h1
      simp only [RThr.weight]
      omega
    · cases hs
  case joined => split at hs <;> cases hs; exact weight_move ht (by simp [RThr.weight])
  case leaveFire =>
    split at hs <;> cases hs
    refine weight_move ht ?_
    by_cases hc : c = 0 <;> simp [hc, RThr.weight]
  case leaveDel =>
    split at hs
    · rename_i o r
      split at hs <;> cases hs
      refine weight_lt ht ?_
      have h1 := roomTotal_upd s.rooms o ((s.rooms o).filter (· ≠ r)) s.objs
      have h3 := hpc o rfl
      have h4 : ((s.rooms o).filter (· ≠ r)).length ≤ (s.rooms o).length := List.length_filter_le _ _
      simp only [h3, if_true] at h1
      simp only [RThr.weight]
      omega
    · cases hs
  case left => split at hs <;> cases hs; exact weight_move ht (by simp [RThr.weight])
  case done => cases hs

/-- calls that started take a bounded number of steps more -/
theorem rRun_bound {s s' : RSt} {sched : List (Nat × Nat)} (h : RReach s)
    (hr : s.run (sched.map fun p => .go p.1 p.2) = some s') :
    sched.length + s'.weight ≤ s.weight ∧ RReach s' := by
  induction sched generalizing s with
  | nil => simp [RSt.run] at hr; subst hr; exact ⟨by simp, h⟩
  | cons p sched ih =>
    simp only [List.map_cons, RSt.run] at hr
    split at hr
    · rename_i s1 hs
      have h1 : RReach s1 := .step h hs
      have := rGo_weight (rInv_reach h) (rObj_reach h) hs
      have h2 := ih h1 hr
      simp only [List.length_cons]
      exact ⟨by omega, h2.2⟩
    · cases hr

/-! ## What a step changes, and who did what -/

theorem rGo_thr {s s' : RSt} {i c : Nat} (hs : s.go i c = some s') :
    ∃ t t', s.thr[i]? = some t ∧ s'.thr = s.thr.set i t' ∧ t'.kind = t.kind ∧
      ((t.pc = .lockNs ∧ t'.snap = s.conn) ∨ (t.pc ≠ .lockNs ∧ t'.snap = t.snap)) := by
  unfold RSt.go at hs
  split at hs
  · cases hs
  rename_i t ht
  refine ⟨t, ?_⟩
  obtain ⟨kind, pc, won, snap, seen⟩ := t
  cases pc <;> simp only at hs
  case start =>
    unfold RSt.begin at hs
    cases kind <;> simp only at hs <;> (repeat' split at hs) <;> cases hs <;>
      exact ⟨_, ht, rfl, rfl, .inr ⟨by simp, rfl⟩⟩
  case lockNs => split at hs <;> cases hs; exact ⟨_, ht, rfl, rfl, .inl ⟨rfl, rfl⟩⟩
  all_goals
    first
    | (cases hs; done)
    | (cases hs; exact ⟨_, ht, rfl, rfl, .inr ⟨by simp, rfl⟩⟩)
    | ((repeat' split at hs) <;> cases hs <;> exact ⟨_, ht, rfl, rfl, .inr ⟨by simp, rfl⟩⟩)

theorem rSnap_reach {s : RSt} (h : RReach s) :
    ∀ (i : Nat) (t : RThr), s.thr[i]? = some t → (t.snap.map (·.2)).Nodup := by
  induction h with
  | init => intro i t hi; simp at hi
  | step hr hs ih =>
    rename_i s0 s1 op
    cases op with
    | spawn k =>
      cases hs
      intro i t ht
      rcases (getElem?_snoc _ _ _ _).mp ht with ht | ⟨_, rfl⟩
      · exact ih i t ht
      · exact List.nodup_nil
    | go i c =>
      obtain ⟨t, t', h1, h2, h3, h4⟩ := rGo_thr hs
      intro j x hx
      rw [h2, List.getElem?_set] at hx
      split at hx
      · split at hx
        · cases hx
          rcases h4 with ⟨_, h4⟩ | ⟨_, h4⟩
          · rw [h4]; exact (rObj_reach hr).nodup
          · rw [h4]; exact ih i t h1
        · cases hx
      · exact ih j x hx

theorem count_one_doer {log : List (Nat × REv)} {e : REv} {w : Nat}
    (h : ∀ p ∈ log, p.2 = e → p.1 = w) : (log.map (·.2)).count e = (didBy w log).count e := by
  induction log with
  | nil => rfl
  | cons p log ih =>
    have ih := ih (fun q hq => h q (List.mem_cons_of_mem _ hq))
    obtain ⟨j, x⟩ := p
    have hp := h (j, x) List.mem_cons_self
    simp only [List.map_cons, List.count_cons]
    rw [ih]
    by_cases hj : j = w
    · simp [didBy, hj, List.count_cons]
    · have hx : ¬ x = e := fun hx => hj (hp hx)
      simp [didBy, hj, hx]

theorem mem_didBy {log : List (Nat × REv)} {e : REv} {i : Nat} : e ∈ didBy i log ↔ (i, e) ∈ log := by
  simp only [didBy, List.mem_map, List.mem_filter, decide_eq_true_eq]
  constructor
  · rintro ⟨p, ⟨hp, rfl⟩, rfl⟩; exact hp
  · intro h; exact ⟨(i, e), ⟨h, rfl⟩, rfl⟩

theorem leaves_count_disc (o x : Nat) (rs : List Nat) : (leaves o rs).count (.disc x) = 0 := by
  induction rs with
  | nil => rfl
  | cons r rs ih => simp [leaves, ih]

theorem leaves_count_other (o : Nat) (rs : List Nat) (e : REv) (h1 : ∀ o r, e ≠ .leave o r)
    (h2 : ∀ o r, e ≠ .left o r) : (leaves o rs).count e = 0 := by
  induction rs with
  | nil => rfl
  | cons r rs ih =>
    have a : ¬ REv.leave o r = e := fun h => h1 o r h.symm
    have b : ¬ REv.left o r = e := fun h => h2 o r h.symm
    simp [leaves, ih, a, b]

theorem leaves_count_leave (o x y : Nat) (rs : List Nat) :
    (leaves o rs).count (.leave x y) = if x = o then rs.count y else 0 := by
  induction rs with
  | nil => simp [leaves]
  | cons r rs ih =>
    simp only [leaves, List.count_cons, ih]
    by_cases h : x = o
    · subst h; simp
    · have : ¬ o = x := fun h' => h h'.symm
      simp [h, this]

theorem leaves_count_left (o x y : Nat) (rs : List Nat) :
    (leaves o rs).count (.left x y) = if x = o then rs.count y else 0 := by
  induction rs with
  | nil => simp [leaves]
  | cons r rs ih =>
    simp only [leaves, List.count_cons, ih]
    by_cases h : x = o
    · subst h; simp
    · have : ¬ o = x := fun h' => h h'.symm
      simp [h, this]

theorem closeBody_disc {seen : List (Nat × List Nat)} {l : List REv} (h : CloseBody seen l) (o : Nat) :
    l.count (.disc o) = (seen.map (·.1)).count o := by
  induction h with
  | nil => rfl
  | snoc _ _ ih =>
    rename_i o' _ _ _ _
    simp [List.count_append, ih, leaves_count_disc, List.count_cons]

theorem closeBody_other {seen : List (Nat × List Nat)} {l : List REv} (h : CloseBody seen l) {e : REv}
    (h1 : ∀ o r, e ≠ .leave o r) (h2 : ∀ o r, e ≠ .left o r) (h3 : ∀ o, e ≠ .disc o) : l.count e = 0 := by
  induction h with
  | nil => rfl
  | snoc _ _ ih =>
    rename_i o' _ _ _ _
    have : ¬ REv.disc o' = e := fun h => h3 o' h.symm
    simp [List.count_append, ih, leaves_count_other _ _ e h1 h2, this]

/-- the rooms of an NSConn -/
def seenRooms (seen : List (Nat × List Nat)) (o : Nat) : List Nat :=
  (seen.filter (·.1 = o)).flatMap (·.2)

theorem closeBody_leave {seen : List (Nat × List Nat)} {l : List REv} (h : CloseBody seen l) (o r : Nat) :
    l.count (.leave o r) = (seenRooms seen o).count r ∧ l.count (.left o r) = (seenRooms seen o).count r := by
  induction h with
  | nil => exact ⟨rfl, rfl⟩
  | snoc _ hp ih =>
    rename_i o' rs order _
    have hc := hp.count_eq r
    by_cases ho : o = o'
    · subst ho
      simp [List.count_append, ih, leaves_count_leave, leaves_count_left, seenRooms, hc]
    · have ho' : ¬ o' = o := fun h => ho h.symm
      simp [List.count_append, ih, leaves_count_leave, leaves_count_left, seenRooms, ho, ho']

/-- the events that only a winning Close makes -/
theorem close_only {s : RSt} (h : RInv s) {i : Nat} {t : RThr} {e : REv} (ht : s.thr[i]? = some t)
    (he : e = .notify ∨ e = .closeCh ∨ e = .net) (hm : e ∈ didBy i s.log) : t.kind = .close ∧ t.won = true := by
  have hok := h.thr i t ht
  obtain ⟨kind, pc, won, snap, seen⟩ := t
  have hl : ∀ o rs, e ∉ leaves o rs := by
    intro o rs hm
    have := List.count_pos_iff.mpr hm
    rw [leaves_count_other] at this
    · omega
    all_goals rcases he with rfl | rfl | rfl <;> simp
  cases kind
  case close =>
    refine ⟨rfl, ?_⟩
    cases pc <;> simp only [ThrOk, CloseOk] at hok <;> try exact hok.1
    · rw [hok.2.1] at hm; cases hm
    · rcases hok with ⟨_, hl⟩ | hok
      · rw [hl] at hm; cases hm
      · exact hok.1
  case disc n srv =>
    exfalso
    cases pc <;> simp only [ThrOk, DiscOk, and_false] at hok
    all_goals cases srv
    all_goals
      first
      | (obtain ⟨_, h1, _⟩ := hok; rw [h1] at hm; rcases he with rfl | rfl | rfl <;> simp [discFirst] at hm; done)
      | (obtain ⟨_, _, h1, _⟩ := hok; rw [h1] at hm; rcases he with rfl | rfl | rfl <;> simp at hm; done)
      | (obtain ⟨_, rs, pre, _, h1, _⟩ := hok; rw [h1] at hm
         rcases he with rfl | rfl | rfl <;> simp [discFirst, hl] at hm; done)
      | (obtain ⟨_, _, rs, pre, _, h1, _⟩ := hok; rw [h1] at hm
         rcases he with rfl | rfl | rfl <;> simp [hl] at hm; done)
      | (obtain ⟨_, h1 | ⟨_, o, h1⟩ | ⟨o, rs, pre, _, _, h1⟩⟩ := hok <;> rw [h1] at hm <;>
         rcases he with rfl | rfl | rfl <;> simp [hl] at hm; done)
  case connect n =>
    exfalso
    cases pc <;> simp only [ThrOk, and_false] at hok
    all_goals
      first
      | (rw [hok.2] at hm; rcases he with rfl | rfl | rfl <;> simp at hm; done)
      | (obtain ⟨_, h1 | ⟨o, h1⟩ | ⟨o, h1⟩⟩ := hok <;> rw [h1] at hm <;>
         rcases he with rfl | rfl | rfl <;> simp at hm; done)
  case join o r =>
    exfalso
    cases pc <;> simp only [ThrOk, and_false] at hok
    all_goals
      first
      | (rw [hok.2] at hm; rcases he with rfl | rfl | rfl <;> simp at hm; done)
      | (obtain ⟨_, h1 | h1 | h1⟩ := hok <;> rw [h1] at hm <;>
         rcases he with rfl | rfl | rfl <;> simp at hm; done)
  case leave o r =>
    exfalso
    cases pc <;> simp only [ThrOk, and_false] at hok
    all_goals
      first
      | (rw [hok.2] at hm; rcases he with rfl | rfl | rfl <;> simp at hm; done)
      | (obtain ⟨_, h1 | h1 | h1⟩ := hok <;> rw [h1] at hm <;>
         rcases he with rfl | rfl | rfl <;> simp at hm; done)

/-- a winning Close makes each of the last events once at most -/
theorem close_last {s : RSt} (h : RInv s) {i : Nat} {t : RThr} {e : REv} (ht : s.thr[i]? = some t)
    (hk : t.kind = .close) (he : e = .notify ∨ e = .closeCh ∨ e = .net) : (didBy i s.log).count e ≤ 1 := by
  have hok := h.thr i t ht
  obtain ⟨kind, pc, won, snap, seen⟩ := t
  dsimp only at hk
  subst hk
  have hl : ∀ o rs, (leaves o rs).count e = 0 := by
    intro o rs
    apply leaves_count_other <;> rcases he with rfl | rfl | rfl <;> simp
  have hb : ∀ seen b, CloseBody seen b → b.count e = 0 := by
    intro seen b hb
    apply closeBody_other hb <;> rcases he with rfl | rfl | rfl <;> simp
  cases pc <;> simp only [ThrOk, CloseOk] at hok
  all_goals
    first
    | (rw [hok.2.1]; simp; done)
    | (rw [hb _ _ hok.2.2.1]; simp; done)
    | (rw [hb _ _ hok.2.2.2]; simp; done)
    | (obtain ⟨_, _, sn, rs, b, pre, _, h4, h5, _⟩ := hok
       rw [h5]
       rcases he with rfl | rfl | rfl <;> simp [List.count_append, hb _ _ h4, hl]; done)
    | (obtain ⟨_, _, _, b, h4, h5⟩ := hok
       rw [h5]
       rcases he with rfl | rfl | rfl <;> simp [List.count_append, hb _ _ h4]; done)
    | (rcases hok with ⟨_, h5⟩ | ⟨_, _, _, b, h4, h5⟩ <;> rw [h5]
       · simp
       · rcases he with rfl | rfl | rfl <;> simp [List.count_append, hb _ _ h4])

/-- without a Disconnect, OnNamespaceDisconnect comes from the winning Close only -/
theorem disc_only {s : RSt} (h : RInv s) {i : Nat} {t : RThr} {o : Nat} (ht : s.thr[i]? = some t)
    (hno : ∀ n srv, t.kind ≠ .disc n srv) (hm : .disc o ∈ didBy i s.log) : t.kind = .close ∧ t.won = true := by
  have hok := h.thr i t ht
  obtain ⟨kind, pc, won, snap, seen⟩ := t
  cases kind
  case close =>
    refine ⟨rfl, ?_⟩
    cases pc <;> simp only [ThrOk, CloseOk] at hok <;> try exact hok.1
    · rw [hok.2.1] at hm; cases hm
    · rcases hok with ⟨_, hl⟩ | hok
      · rw [hl] at hm; cases hm
      · exact hok.1
  case disc n srv => exact absurd rfl (hno n srv)
  case connect n =>
    exfalso
    cases pc <;> simp only [ThrOk, and_false] at hok
    all_goals
      first
      | (rw [hok.2] at hm; simp at hm; done)
      | (obtain ⟨_, h1 | ⟨o, h1⟩ | ⟨o, h1⟩⟩ := hok <;> rw [h1] at hm <;> simp at hm; done)
  all_goals
    exfalso
    cases pc <;> simp only [ThrOk, and_false] at hok
    all_goals
      first
      | (rw [hok.2] at hm; simp at hm; done)
      | (obtain ⟨_, h1 | h1 | h1⟩ := hok <;> rw [h1] at hm <;> simp at hm; done)

/-- a Close fires OnNamespaceDisconnect once at most for each NSConn, and only for those that it found -/
theorem close_disc {s : RSt} (h : RInv s) {i : Nat} {t : RThr} (o : Nat) (ht : s.thr[i]? = some t)
    (hn : (t.snap.map (·.2)).Nodup)
    (hk : t.kind = .close) : (didBy i s.log).count (.disc o) ≤ (t.snap.map (·.2)).count o ∧
      (didBy i s.log).count (.disc o) ≤ 1 := by
  have h1 : (didBy i s.log).count (.disc o) ≤ (t.snap.map (·.2)).count o := by
    have hok := h.thr i t ht
    obtain ⟨kind, pc, won, snap, seen⟩ := t
    dsimp only at hk
    subst hk
    have sub : ∀ {a b c : List Nat}, (a ++ b).Perm c → a.count o ≤ c.count o := by
      intro a b c hp
      rw [← hp.count_eq o, List.count_append]
      omega
    cases pc <;> simp only [ThrOk, CloseOk] at hok
    all_goals
      first
      | (rw [hok.2.1]; simp; done)
      | (rw [closeBody_disc hok.2.2.2 o, hok.2.2.1.count_eq o]; simp; done)
      | (obtain ⟨_, _, sn, rs, b, pre, _, h4, h5, h6, h7, _⟩ := hok
         rw [h5]
         simp only [List.count_append, closeBody_disc h4, leaves_count_disc, List.count_singleton]
         first | exact sub h7 | exact sub h7.1
         done)
      | (obtain ⟨_, _, sn, rs, b, pre, _, h4, h5, h6, h6', h7, _⟩ := hok
         rw [h5]
         simp only [List.count_append, closeBody_disc h4, leaves_count_disc, List.count_singleton]
         exact sub h7)
      | (obtain ⟨_, _, h3, b, h4, h5⟩ := hok
         rw [h5]
         simp only [List.count_append, closeBody_disc h4, h3.count_eq o]
         simp; done)
      | (rcases hok with ⟨_, h5⟩ | ⟨_, _, h3, b, h4, h5⟩
         · rw [h5]; simp
         · rw [h5]
           simp only [List.count_append, closeBody_disc h4, h3.count_eq o]
           simp)
      | (rw [closeBody_disc hok.2.2.1 o]; first | exact sub hok.2.2.2 | exact sub hok.2.2.2.1)
  exact ⟨h1, Nat.le_trans h1 (List.nodup_iff_count.mp hn o)⟩

theorem rGo_closed {s s' : RSt} {i c : Nat} (hs : s.go i c = some s') :
    (s.closed = true → s'.closed = true) ∧
    (∀ t, s.thr[i]? = some t → t.kind = .close → t.pc = .start → s'.closed = true) := by
  cases ht : s.thr[i]? with
  | none => simp [RSt.go, ht] at hs
  | some t =>
    simp only [RSt.go, ht] at hs
    obtain ⟨kind, pc, won, snap, seen⟩ := t
    cases pc <;> simp only at hs
    case start =>
      unfold RSt.begin at hs
      cases kind <;> simp only at hs
      case close =>
        split at hs <;> cases hs
        · rename_i h; exact ⟨fun _ => h, fun _ _ _ _ => h⟩
        · exact ⟨fun _ => rfl, fun _ _ _ _ => rfl⟩
      all_goals
        refine ⟨fun h => ?_, fun t' ht' hk' _ => ?_⟩
        · (repeat' split at hs) <;> cases hs <;> exact h
        · cases ht'; cases hk'
    all_goals
      refine ⟨fun h => ?_, fun t' ht' _ hp => by cases ht'; cases hp⟩
      first
      | (cases hs; done)
      | (cases hs; exact h)
      | ((repeat' split at hs) <;> cases hs <;> exact h)

theorem rClosed_reach {s : RSt} (h : RReach s) :
    ∀ (i : Nat) (t : RThr), s.thr[i]? = some t → t.kind = .close → t.pc ≠ .start → s.closed = true := by
  induction h with
  | init => intro i t hi; simp at hi
  | step hr hs ih =>
    rename_i s0 s1 op
    cases op with
    | spawn k =>
      cases hs
      intro i t ht hk hp
      rcases (getElem?_snoc _ _ _ _).mp ht with ht | ⟨_, rfl⟩
      · exact ih i t ht hk hp
      · exact absurd rfl hp
    | go i c =>
      obtain ⟨t, t', h1, h2, h3, h4⟩ := rGo_thr hs
      have hc := rGo_closed hs
      intro j x hx hk hp
      rw [h2, List.getElem?_set] at hx
      split at hx
      · split at hx
        · cases hx
          by_cases hst : t.pc = .start
          · exact hc.2 t h1 (h3 ▸ hk) hst
          · exact hc.1 (ih i t h1 (h3 ▸ hk) hst)
        · cases hx
      · exact hc.1 (ih j x hx hk hp)

end Neffos
