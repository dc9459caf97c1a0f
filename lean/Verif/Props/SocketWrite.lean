import Verif.Spec.Socket
/-!
# C69, C70: writing to a socket
-/
set_option autoImplicit false
namespace Neffos
open Neffos.Spec

/-! ## C69 -/

/-- goroutines that are about to write a message in so many pieces -/
def messageWriters (pieces : List Nat) : Wire := { writers := pieces.map fun p => { kind := .message, pieces := p } }

/-- the frames of the goroutines in `order` are whole on the wire, and the holder of the mutex has written the beginning of
its own -/
structure Framing (pieces : List Nat) (s : Wire) (order : List Nat) : Prop where
  len : s.writers.length = pieces.length
  kinds : ∀ (t : Nat) (w : Writer), s.writers[t]? = some w → w.kind = .message ∧ pieces[t]? = some w.pieces
  nodup : order.Nodup
  done : ∀ (t : Nat), t ∈ order ↔ ∃ w, s.writers[t]? = some w ∧ w.pc = .done
  free : ∀ (t : Nat) (w : Writer), s.writers[t]? = some w → s.lock ≠ some t → w.pc = .start ∨ w.pc = .done
  out : match s.lock with
    | none => s.out = order.flatMap (frameOf (fun t => pieces.getD t 0))
    | some h => ∃ w i, s.writers[h]? = some w ∧ w.pc = .writing i ∧ i ≤ w.pieces ∧
        s.out = order.flatMap (frameOf (fun t => pieces.getD t 0)) ++ (frameOf (fun t => pieces.getD t 0) h).take i

theorem framing_start (pieces : List Nat) : Framing pieces (messageWriters pieces) [] := by
  refine ⟨by simp [messageWriters], ?_, List.nodup_nil, ?_, ?_, rfl⟩
  · intro t w hw
    simp only [messageWriters, List.getElem?_map, Option.map_eq_some_iff] at hw
    obtain ⟨p, hp, rfl⟩ := hw
    exact ⟨rfl, hp⟩
  · intro t
    simp only [messageWriters, List.getElem?_map, Option.map_eq_some_iff, List.not_mem_nil, false_iff]
    rintro ⟨w, ⟨p, _, rfl⟩, h⟩
    cases h
  · intro t w hw _
    simp only [messageWriters, List.getElem?_map, Option.map_eq_some_iff] at hw
    obtain ⟨p, _, rfl⟩ := hw
    exact .inl rfl

theorem set_get {α : Type} {l : List α} {t : Nat} {x y : α} (h : l[t]? = some x) (u : Nat) :
    (l.set t y)[u]? = if u = t then some y else l[u]? := by
  have hlt : t < l.length := (List.getElem?_eq_some_iff.mp h).1
  rw [List.getElem?_set]
  by_cases hu : t = u
  · subst hu; simp [hlt]
  · rw [if_neg hu, if_neg (fun e => hu e.symm)]

theorem take_frame {pieces : Nat → Nat} {t i : Nat} (h : i < pieces t) :
    (frameOf pieces t).take i ++ [(t, i)] = (frameOf pieces t).take (i + 1) := by
  unfold frameOf
  rw [List.take_add_one, List.getElem?_map, List.getElem?_range h]
  rfl

theorem framing_step {pieces : List Nat} {s s' : Wire} {t : Nat} {order : List Nat} (h : Framing pieces s order)
    (hs : wstep s t = some s') : ∃ order', Framing pieces s' order' := by
  unfold wstep at hs
  cases hw : s.writers[t]? with
  | none => rw [hw] at hs; cases hs
  | some w =>
    rw [hw] at hs
    obtain ⟨hk, hp⟩ := h.kinds t w hw
    cases hpc : w.pc with
    | start =>
      simp only [hpc, hk] at hs
      by_cases hl : s.lock = none
      · rw [if_pos hl] at hs
        cases hs
        have ho := h.out
        rw [hl] at ho
        refine ⟨order, by simpa using h.len, ?_, h.nodup, ?_, ?_, ?_⟩
        · intro u x hx
          simp only [set_get hw] at hx
          split at hx
          · rename_i e; cases hx; subst e; exact ⟨rfl, hp⟩
          · exact h.kinds u x hx
        · intro u
          rw [h.done u]
          simp only [set_get hw]
          by_cases e : u = t
          · subst e
            simp [hw, hpc]
          · simp [e]
        · intro u x hx hu
          simp only [set_get hw] at hx
          have e : u ≠ t := fun e => hu (by rw [e])
          rw [if_neg e] at hx
          exact h.free u x hx (by rw [hl]; simp)
        · exact ⟨{ w with pc := .writing 0 }, 0, by simp [set_get hw, hk], rfl, Nat.zero_le _, by simpa using ho⟩
      · rw [if_neg hl] at hs; cases hs
    | done => simp only [hpc] at hs; cases hs
    | writing i =>
      have hlock : s.lock = some t := by
        cases hl : s.lock with
        | none => rcases h.free t w hw (by rw [hl]; simp) with e | e <;> rw [hpc] at e <;> cases e
        | some u =>
          by_cases e : u = t
          · rw [e]
          · rcases h.free t w hw (by rw [hl]; simpa using e) with e | e <;> rw [hpc] at e <;> cases e
      have ho := h.out
      rw [hlock] at ho
      obtain ⟨w', i', hw', hpc', hle, hout⟩ := ho
      rw [hw] at hw'; cases hw'
      rw [hpc] at hpc'; cases hpc'
      have hget : pieces.getD t 0 = w.pieces := by simp [hp]
      simp only [hpc, hk] at hs
      by_cases hi : i < w.pieces
      · rw [if_pos hi] at hs
        cases hs
        refine ⟨order, by simpa using h.len, ?_, h.nodup, ?_, ?_, ?_⟩
        · intro u x hx
          simp only [set_get hw] at hx
          split at hx
          · rename_i e; cases hx; subst e; exact ⟨rfl, hp⟩
          · exact h.kinds u x hx
        · intro u
          rw [h.done u]
          simp only [set_get hw]
          by_cases e : u = t
          · subst e
            simp [hw, hpc]
          · simp [e]
        · intro u x hx hu
          simp only [set_get hw] at hx
          have e : u ≠ t := fun e => hu (by simp only [hlock, e])
          rw [if_neg e] at hx
          exact h.free u x hx hu
        · simp only [hlock]
          refine ⟨{ w with pc := .writing (i + 1) }, i + 1, by simp [set_get hw, hk], rfl, hi, ?_⟩
          rw [hout, List.append_assoc, take_frame (by simp only [hget]; exact hi)]
      · rw [if_neg hi] at hs
        cases hs
        have hnot : t ∉ order := by
          rw [h.done t]
          rintro ⟨x, hx, hd⟩
          rw [hw] at hx; cases hx
          rw [hpc] at hd; cases hd
        refine ⟨order ++ [t], by simpa using h.len, ?_, ?_, ?_, ?_, ?_⟩
        · intro u x hx
          simp only [set_get hw] at hx
          split at hx
          · rename_i e; cases hx; subst e; exact ⟨rfl, hp⟩
          · exact h.kinds u x hx
        · rw [List.nodup_append]
          refine ⟨h.nodup, by simp, ?_⟩
          intro a ha b hb e
          rw [List.mem_singleton] at hb
          exact hnot (hb ▸ e ▸ ha)
        · intro u
          simp only [List.mem_append, List.mem_singleton, set_get hw, h.done u]
          by_cases e : u = t
          · subst e; simp
          · simp [e]
        · intro u x hx _
          simp only [set_get hw] at hx
          split at hx
          · cases hx; exact .inr rfl
          · rename_i e
            exact h.free u x hx (by rw [hlock]; simpa using fun e' => e e'.symm)
        · simp only [List.flatMap_append, List.flatMap_cons, List.flatMap_nil, List.append_nil]
          rw [hout, List.take_of_length_le (by simp only [frameOf, List.length_map, List.length_range, hget]; omega)]

theorem framing_run {pieces : List Nat} {ts : List Nat} : ∀ {s s' : Wire} {order : List Nat}, Framing pieces s order →
    wrun s ts = some s' → ∃ order', Framing pieces s' order' := by
  induction ts with
  | nil => intro s s' order h hr; cases hr; exact ⟨order, h⟩
  | cons t ts ih =>
    intro s s' order h hr
    simp only [wrun, Option.bind_eq_some_iff] at hr
    obtain ⟨s1, h1, h2⟩ := hr
    obtain ⟨o, ho⟩ := framing_step h h1
    exact ih ho h2

/-- C69 for messages: whatever the number of goroutines that write, of the pieces in which a frame is written and the
order of their steps, the wire carries whole frames, each of another goroutine, and then perhaps the beginning of one more
frame. -/
theorem c69_messages_partial {pieces ts : List Nat} {s : Wire} (h : wrun (messageWriters pieces) ts = some s) :
    ∃ (order : List Nat) (cur : List (Nat × Nat)), order.Nodup ∧
      s.out = order.flatMap (frameOf (fun t => pieces.getD t 0)) ++ cur ∧
      (cur = [] ∨ ∃ t i, t ∉ order ∧ t < pieces.length ∧ cur = (frameOf (fun t => pieces.getD t 0) t).take i) ∧
      ∀ t, t ∈ order ↔ ∃ w, s.writers[t]? = some w ∧ w.pc = .done := by
  obtain ⟨order, hf⟩ := framing_run (framing_start pieces) h
  have ho := hf.out
  cases hl : s.lock with
  | none =>
    rw [hl] at ho
    exact ⟨order, [], hf.nodup, by simpa using ho, .inl rfl, hf.done⟩
  | some t =>
    rw [hl] at ho
    obtain ⟨w, i, hw, hpc, _, hout⟩ := ho
    refine ⟨order, _, hf.nodup, hout, .inr ⟨t, i, ?_, ?_, rfl⟩, hf.done⟩
    · rw [hf.done t]
      rintro ⟨x, hx, hd⟩
      rw [hw] at hx; cases hx
      rw [hpc] at hd; cases hd
    · rw [← hf.len]; exact (List.getElem?_eq_some_iff.mp hw).1

/-- C69, the end: when all have written, the wire carries the frame of every goroutine once and nothing else. -/
theorem c69_all_partial {pieces ts : List Nat} {s : Wire} (h : wrun (messageWriters pieces) ts = some s)
    (hd : ∀ w ∈ s.writers, w.pc = .done) :
    ∃ order : List Nat, order.Nodup ∧ (∀ t, t ∈ order ↔ t < pieces.length) ∧
      s.out = order.flatMap (frameOf (fun t => pieces.getD t 0)) := by
  obtain ⟨order, hf⟩ := framing_run (framing_start pieces) h
  refine ⟨order, hf.nodup, fun t => ?_, ?_⟩
  · rw [hf.done t]
    constructor
    · rintro ⟨w, hw, _⟩; rw [← hf.len]; exact (List.getElem?_eq_some_iff.mp hw).1
    · intro hlt
      rw [← hf.len] at hlt
      exact ⟨_, List.getElem?_eq_getElem hlt, hd _ (List.getElem_mem hlt)⟩
  · have ho := hf.out
    cases hl : s.lock with
    | none => rw [hl] at ho; exact ho
    | some t =>
      rw [hl] at ho
      obtain ⟨w, i, hw, hpc, _⟩ := ho
      rw [hd w (List.mem_of_getElem? hw)] at hpc
      cases hpc

/-- C69: nobody waits for ever: while a goroutine has not written its frame, some goroutine can go on. -/
theorem c69_progress {pieces ts : List Nat} {s : Wire} (h : wrun (messageWriters pieces) ts = some s)
    {t : Nat} {w : Writer} (hw : s.writers[t]? = some w) (hn : w.pc ≠ .done) : ∃ u, (wstep s u).isSome := by
  obtain ⟨order, hf⟩ := framing_run (framing_start pieces) h
  have hk := (hf.kinds t w hw).1
  cases hl : s.lock with
  | none =>
    rcases hf.free t w hw (by rw [hl]; simp) with e | e
    · exact ⟨t, by simp [wstep, hw, e, hk, hl]⟩
    · exact absurd e hn
  | some u =>
    have ho := hf.out
    rw [hl] at ho
    obtain ⟨x, i, hx, hpc, _⟩ := ho
    have hkx := (hf.kinds u x hx).1
    refine ⟨u, ?_⟩
    by_cases hi : i < x.pieces <;> simp [wstep, hx, hpc, hkx, hi]

/-- C69 fails with gobwas when the reader answers a ping: its answer can come between two pieces of a message,
whatever the number of pieces. -/
theorem c69_pong_refuted {p q : Nat} (hp : 2 ≤ p) (hq : 1 ≤ q) :
    ∃ s, wrun { writers := [⟨.message, p, .start⟩, ⟨.control, q, .start⟩] } [0, 0, 1, 1, 0] = some s ∧
      s.out = [(0, 0), (1, 0), (0, 1)] := by
  have h0 : 0 < p := by omega
  have h1 : 1 < p := by omega
  have h2 : 0 < q := by omega
  simp [wrun, wstep, h0, h1, h2]

example : ∃ s, wrun (messageWriters [2, 1]) [1, 1, 1, 0, 0, 0, 0] = some s ∧ s.out = [(1, 0), (0, 0), (0, 1)] ∧
    (∀ w ∈ s.writers, w.pc = .done) ∧ wrun (messageWriters [2, 1]) [1, 0] = none :=
  ⟨_, rfl, rfl, by decide, rfl⟩

/-! ## C70 -/

/-- the deadline that a write should run under, given the steps before its goroutine took the mutex -/
def dueAt (lib : SocketLib) (t : Nat) (before : List (Nat × WriteAct)) (start : Nat) : Option Nat :=
  match lib with
  | .gobwas => some (start + t)
  | .gorilla => (lastCall before).map (· + t)

theorem lastCall_snoc (acts : List (Nat × WriteAct)) (x : Nat × WriteAct) :
    lastCall (acts ++ [x]) = match x with
      | (time, .call _) => some time
      | _ => lastCall acts := by
  induction acts with
  | nil => obtain ⟨n, a⟩ := x; cases a <;> rfl
  | cons y t ih =>
    obtain ⟨n, a⟩ := x
    obtain ⟨m, b⟩ := y
    cases a <;> cases b <;> simp_all [lastCall]

theorem crun_snoc (lib : SocketLib) (t : Nat) (acts : List (Nat × WriteAct)) (x : Nat × WriteAct) :
    ∀ s, crun lib t s (acts ++ [x]) = (crun lib t s acts).bind fun s' => cstep lib t s' x.1 x.2 := by
  induction acts with
  | nil => intro s; obtain ⟨n, a⟩ := x; simp [crun]
  | cons y more ih =>
    intro s
    obtain ⟨m, b⟩ := y
    simp only [List.cons_append, crun]
    cases cstep lib t s m b with
    | none => rfl
    | some s' => exact ih s'

def WriteAct.isCall : WriteAct → Bool
  | .call _ => true
  | _ => false

/-- what is known after these steps -/
structure Clocked (lib : SocketLib) (t : Nat) (acts : List (Nat × WriteAct)) (s : WriteClock) : Prop where
  waiting : lib = .gorilla → ∀ i ∈ s.waiting, lastCall acts = some (s.deadline - t) ∧ t ≤ s.deadline
  asked : ∀ i ∈ s.waiting, ∃ c, (c, WriteAct.call i) ∈ acts
  holder : ∀ i start d, s.holder = some (i, start, d) → ∃ a1 a2, acts = a1 ++ (start, .lock i) :: a2 ∧
    (∀ x ∈ a2, x.2.isCall = true) ∧ dueAt lib t a1 start = some d ∧ ∃ c, (c, WriteAct.call i) ∈ a1

theorem clocked_step {lib : SocketLib} {t : Nat} {acts : List (Nat × WriteAct)} {s s' : WriteClock} {time : Nat}
    {a : WriteAct} (h : Clocked lib t acts s) (hs : cstep lib t s time a = some s') : Clocked lib t (acts ++ [(time, a)]) s' := by
  cases a with
  | call i =>
    simp only [cstep] at hs
    by_cases hi : i ∈ s.waiting
    · rw [if_pos hi] at hs; cases hs
    · rw [if_neg hi] at hs
      have hh : ∀ j start d, s.holder = some (j, start, d) → ∃ a1 a2, acts ++ [(time, WriteAct.call i)] = a1 ++ (start, .lock j) :: a2 ∧
          (∀ x ∈ a2, x.2.isCall = true) ∧ dueAt lib t a1 start = some d ∧ ∃ c, (c, WriteAct.call j) ∈ a1 := by
        intro j start d hj
        obtain ⟨a1, a2, he, hc, hd, hcall⟩ := h.holder j start d hj
        refine ⟨a1, a2 ++ [(time, .call i)], by rw [he]; simp, ?_, hd, hcall⟩
        intro x hx
        rcases List.mem_append.mp hx with hx | hx
        · exact hc x hx
        · rw [List.mem_singleton] at hx; subst hx; rfl
      have hask : ∀ j ∈ i :: s.waiting, ∃ c, (c, WriteAct.call j) ∈ acts ++ [(time, WriteAct.call i)] := by
        intro j hj
        rcases List.mem_cons.mp hj with rfl | hj
        · exact ⟨time, by simp⟩
        · obtain ⟨c, hc⟩ := h.asked j hj; exact ⟨c, List.mem_append_left _ hc⟩
      cases lib with
      | gobwas =>
        cases hs
        exact ⟨by simp, hask, hh⟩
      | gorilla =>
        cases hs
        refine ⟨fun _ j _ => ?_, hask, hh⟩
        rw [lastCall_snoc]
        simp
  | lock i =>
    simp only [cstep] at hs
    by_cases hc : i ∈ s.waiting ∧ s.holder = none
    · rw [if_pos hc] at hs
      cases hs
      refine ⟨?_, ?_, ?_⟩
      · rintro rfl j hj
        rw [lastCall_snoc]
        exact h.waiting rfl j (List.mem_of_mem_erase hj)
      · intro j hj
        obtain ⟨c, hc'⟩ := h.asked j (List.mem_of_mem_erase hj)
        exact ⟨c, List.mem_append_left _ hc'⟩
      · intro j start d hj
        simp only [Option.some.injEq, Prod.mk.injEq] at hj
        obtain ⟨rfl, rfl, rfl⟩ := hj
        refine ⟨acts, [], rfl, by simp, ?_, h.asked _ hc.1⟩
        cases lib with
        | gobwas => rfl
        | gorilla =>
          obtain ⟨h1, h2⟩ := h.waiting rfl i hc.1
          simp only [dueAt, h1, Option.map_some, Option.some.injEq]
          omega
    · rw [if_neg hc] at hs; cases hs
  | unlock i =>
    simp only [cstep] at hs
    cases hh : s.holder with
    | none => rw [hh] at hs; cases hs
    | some x =>
      obtain ⟨j, start, d⟩ := x
      rw [hh] at hs
      simp only at hs
      by_cases hij : i = j
      · rw [if_pos hij] at hs
        cases hs
        refine ⟨?_, ?_, by intro _ _ _ h; cases h⟩
        · rintro rfl k hk
          rw [lastCall_snoc]
          exact h.waiting rfl k hk
        · intro k hk
          obtain ⟨c, hc'⟩ := h.asked k hk
          exact ⟨c, List.mem_append_left _ hc'⟩
      · rw [if_neg hij] at hs; cases hs

theorem acts_ind {P : List (Nat × WriteAct) → Prop} (h0 : P []) (h1 : ∀ l x, P l → P (l ++ [x])) : ∀ l, P l := by
  intro l
  rw [← List.reverse_reverse l]
  induction l.reverse with
  | nil => exact h0
  | cons x t ih => rw [List.reverse_cons]; exact h1 _ _ ih

theorem clocked_run (lib : SocketLib) (t : Nat) (acts : List (Nat × WriteAct)) :
    ∀ s, crun lib t {} acts = some s → Clocked lib t acts s := by
  induction acts using acts_ind with
  | h0 =>
    intro s h
    cases h
    exact ⟨by simp, by simp, by intro _ _ _ h; cases h⟩
  | h1 l x ih =>
    intro s h
    rw [crun_snoc, Option.bind_eq_some_iff] at h
    obtain ⟨s1, hs1, hs⟩ := h
    exact clocked_step (ih s1 hs1) hs

/-- the end of a write, for both libraries -/
theorem write_end {lib : SocketLib} {t : Nat} {acts : List (Nat × WriteAct)} {time i : Nat} {s : WriteClock}
    (h : crun lib t {} (acts ++ [(time, .unlock i)]) = some s) :
    ∃ a1 a2 start d, acts = a1 ++ (start, .lock i) :: a2 ∧ (∀ x ∈ a2, x.2.isCall = true) ∧
      dueAt lib t a1 start = some d ∧ (∃ c, (c, WriteAct.call i) ∈ a1) ∧
      s.results.getLast? = some (i, start, decide (time ≤ d)) := by
  rw [crun_snoc, Option.bind_eq_some_iff] at h
  obtain ⟨s1, hs1, hs⟩ := h
  have hc := clocked_run lib t acts s1 hs1
  simp only [cstep] at hs
  cases hh : s1.holder with
  | none => rw [hh] at hs; cases hs
  | some x =>
    obtain ⟨j, start, d⟩ := x
    rw [hh] at hs
    simp only at hs
    by_cases hij : i = j
    · rw [if_pos hij] at hs
      cases hs
      subst hij
      obtain ⟨a1, a2, he, hcalls, hd, hcall⟩ := hc.holder i start d hh
      exact ⟨a1, a2, start, d, he, hcalls, hd, hcall, by simp⟩
    · rw [if_neg hij] at hs; cases hs

/-- C70, gobwas: a write is late exactly when the connection takes longer than the timeout, counted from when the goroutine
got the mutex. -/
theorem c70_gobwas {t : Nat} {acts : List (Nat × WriteAct)} {time i : Nat} {s : WriteClock}
    (h : crun .gobwas t {} (acts ++ [(time, .unlock i)]) = some s) :
    ∃ a1 a2 start, acts = a1 ++ (start, .lock i) :: a2 ∧ (∀ x ∈ a2, x.2.isCall = true) ∧
      s.results.getLast? = some (i, start, decide (time ≤ start + t)) := by
  obtain ⟨a1, a2, start, d, he, hc, hd, _, hr⟩ := write_end h
  cases hd
  exact ⟨a1, a2, start, he, hc, hr⟩

/-- C70, gorilla: the timeout counts from the last call that any goroutine made before this one got the mutex. -/
theorem c70_gorilla {t : Nat} {acts : List (Nat × WriteAct)} {time i : Nat} {s : WriteClock}
    (h : crun .gorilla t {} (acts ++ [(time, .unlock i)]) = some s) :
    ∃ a1 a2 start c, acts = a1 ++ (start, .lock i) :: a2 ∧ (∀ x ∈ a2, x.2.isCall = true) ∧ lastCall a1 = some c ∧
      s.results.getLast? = some (i, start, decide (time ≤ c + t)) := by
  obtain ⟨a1, a2, start, d, he, hc, hd, _, hr⟩ := write_end h
  simp only [dueAt, Option.map_eq_some_iff] at hd
  obtain ⟨c, hlc, rfl⟩ := hd
  exact ⟨a1, a2, start, c, he, hc, hlc, hr⟩

theorem lastCall_ge {acts : List (Nat × WriteAct)} : Forward acts → ∀ {c i : Nat}, (c, WriteAct.call i) ∈ acts →
    ∃ m, lastCall acts = some m ∧ c ≤ m := by
  induction acts using acts_ind with
  | h0 => intro _ c i h; cases h
  | h1 l x ih =>
    intro hf c i h
    have hfl : Forward l := by
      intro i j a b hij ha hb
      have hi := (List.getElem?_eq_some_iff.mp ha).1
      have hj := (List.getElem?_eq_some_iff.mp hb).1
      exact hf i j a b hij (by rw [List.getElem?_append_left hi]; exact ha) (by rw [List.getElem?_append_left hj]; exact hb)
    have hx : ∀ y ∈ l ++ [x], y.1 ≤ x.1 := by
      intro y hy
      obtain ⟨k, hk⟩ := List.mem_iff_getElem?.mp hy
      have hkl : k < (l ++ [x]).length := (List.getElem?_eq_some_iff.mp hk).1
      exact hf k l.length y x (by simp at hkl; omega) hk (by simp)
    rw [lastCall_snoc]
    obtain ⟨n, a⟩ := x
    cases a with
    | call j => exact ⟨n, rfl, hx _ h⟩
    | lock j =>
      rcases List.mem_append.mp h with h | h
      · exact ih hfl h
      · simp at h
    | unlock j =>
      rcases List.mem_append.mp h with h | h
      · exact ih hfl h
      · simp at h

/-- C70, what is left for gorilla: a write that ends within the timeout, counted from its own call, is in time. -/
theorem c70_own_call_partial {t : Nat} {acts : List (Nat × WriteAct)} {time i : Nat} {s : WriteClock}
    (hf : Forward acts) (h : crun .gorilla t {} (acts ++ [(time, .unlock i)]) = some s) :
    ∃ called start ok, (called, WriteAct.call i) ∈ acts ∧ s.results.getLast? = some (i, start, ok) ∧
      (time ≤ called + t → ok = true) := by
  obtain ⟨a1, a2, start, d, he, _, hd, ⟨c, hc⟩, hr⟩ := write_end h
  simp only [dueAt, Option.map_eq_some_iff] at hd
  obtain ⟨m, hm, rfl⟩ := hd
  refine ⟨c, start, _, by rw [he]; exact List.mem_append_left _ hc, hr, fun hle => ?_⟩
  have hf1 : Forward a1 := by
    intro i j a b hij ha hb
    have hi := (List.getElem?_eq_some_iff.mp ha).1
    have hj := (List.getElem?_eq_some_iff.mp hb).1
    exact hf i j a b hij (by rw [he, List.getElem?_append_left hi]; exact ha)
      (by rw [he, List.getElem?_append_left hj]; exact hb)
  obtain ⟨m', hm', hle'⟩ := lastCall_ge hf1 hc
  rw [hm] at hm'; cases hm'
  simp only [decide_eq_true_eq]
  omega

/-- two goroutines call at once; the first needs the whole timeout, the second one unit of time -/
def twoWrites (t : Nat) : List (Nat × WriteAct) :=
  [(0, .call 0), (0, .lock 0), (0, .call 1), (t, .unlock 0), (t, .lock 1), (t + 1, .unlock 1)]

/-- C70 fails for gorilla: whatever the timeout, a write that waited for the mutex is late although the connection took
one unit of time. With gobwas it is in time. -/
theorem c70_queue_refuted {t : Nat} (ht : 0 < t) :
    (crun .gorilla t {} (twoWrites t)).map (·.results) = some [(0, 0, true), (1, t, false)] ∧
    (crun .gobwas t {} (twoWrites t)).map (·.results) = some [(0, 0, true), (1, t, true)] := by
  have h1 : 1 ≤ t := ht
  constructor <;> simp [twoWrites, crun, cstep, h1]

example : Forward (twoWrites 3) := by
  intro i j a b hij ha hb
  have hi : i < 6 := (List.getElem?_eq_some_iff.mp ha).1
  have hj : j < 6 := (List.getElem?_eq_some_iff.mp hb).1
  have : ∀ i : Fin 6, ∀ j : Fin 6, i ≤ j → ((twoWrites 3)[i.1]?.map (·.1)).getD 0 ≤ ((twoWrites 3)[j.1]?.map (·.1)).getD 0 := by
    decide
  have := this ⟨i, hi⟩ ⟨j, hj⟩ hij
  simpa [ha, hb] using this

end Neffos
