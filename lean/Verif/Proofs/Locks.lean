import Verif.Spec.Locks
/-! Lock order. -/
set_option autoImplicit false
namespace Neffos
open Spec

/-- the order in which the locks are taken -/
def Res.rank : Res → Nat
  | .queue _ => 0
  | .loop => 1
  | .bmu => 2
  | .ns _ => 3
  | .rooms _ _ => 4

/-- the program takes the locks in this order, and the connections `cl` are known to be closed -/
def Prog.Ordered : Prog → List (Res × Bool) → List Nat → Prop
  | .done, held, _ => held = []
  | .lock r p, held, cl => (∀ h ∈ held, h.1.rank < r.rank) ∧ p.Ordered ((r, true) :: held) cl
  | .rlock r p, held, cl => (∀ h ∈ held, h.1.rank < r.rank) ∧ p.Ordered ((r, false) :: held) cl
  | .unlock r p, held, cl => ∃ h, held = (r, true) :: h ∧ p.Ordered h cl
  | .runlock r p, held, cl => ∃ h, held = (r, false) :: h ∧ p.Ordered h cl
  | .ifOpen c p q, held, cl => (c ∉ cl → p.Ordered held cl) ∧ q.Ordered held cl
  | .cas c p q, held, cl => (c ∉ cl → p.Ordered held (c :: cl)) ∧ q.Ordered held cl

theorem ordered_mono {p : Prog} : ∀ {held : List (Res × Bool)} {cl cl' : List Nat}, p.Ordered held cl →
    (∀ c ∈ cl, c ∈ cl') → p.Ordered held cl' := by
  induction p with
  | done => intro held cl cl' h _; exact h
  | lock r p ih => intro held cl cl' h hs; exact ⟨h.1, ih h.2 hs⟩
  | rlock r p ih => intro held cl cl' h hs; exact ⟨h.1, ih h.2 hs⟩
  | unlock r p ih => intro held cl cl' h hs; obtain ⟨h', e, h⟩ := h; exact ⟨h', e, ih h hs⟩
  | runlock r p ih => intro held cl cl' h hs; obtain ⟨h', e, h⟩ := h; exact ⟨h', e, ih h hs⟩
  | ifOpen c p q ih1 ih2 =>
    intro held cl cl' h hs
    exact ⟨fun hc => ih1 (h.1 (fun e => hc (hs _ e))) hs, ih2 h.2 hs⟩
  | cas c p q ih1 ih2 =>
    intro held cl cl' h hs
    exact ⟨fun hc => ih1 (h.1 (fun e => hc (hs _ e))) (fun x hx => by
      rcases List.mem_cons.mp hx with rfl | hx
      · exact List.mem_cons_self
      · exact List.mem_cons_of_mem _ (hs x hx)), ih2 h.2 hs⟩

/-! ## the programs of the package -/

/-- all locks that are held come before rank `n` -/
def Below (n : Nat) (held : List (Res × Bool)) : Prop := ∀ h ∈ held, h.1.rank < n

theorem below_mono {n m : Nat} {held : List (Res × Bool)} (h : Below n held) (hm : n ≤ m) : Below m held :=
  fun x hx => Nat.lt_of_lt_of_le (h x hx) hm

theorem below_cons {n : Nat} {r : Res} {b : Bool} {held : List (Res × Bool)} (h : Below r.rank held) (hr : r.rank < n) :
    Below n ((r, b) :: held) := by
  intro x hx
  rcases List.mem_cons.mp hx with rfl | hx
  · exact hr
  · exact Nat.lt_trans (h x hx) hr

variable {held : List (Res × Bool)} {cl : List Nat} {p : Prog} {c n : Nat}

theorem ordered_read {r : Res} (h : Below r.rank held) (hp : p.Ordered held cl) : (Prog.read r p).Ordered held cl :=
  ⟨h, held, rfl, hp⟩

theorem ordered_touch {r : Res} (h : Below r.rank held) (hp : p.Ordered held cl) : (Prog.touch r p).Ordered held cl :=
  ⟨h, held, rfl, hp⟩

/-- calls of a closed connection -/
theorem ordered_own {k : ApiKind} (hc : c ∈ cl) (hk : k = .emit ∨ k = .roomEmit ∨ (k = .room ∧ Below 4 held))
    (hp : p.Ordered held cl) : (ownCall c n k p).Ordered held cl := by
  rcases hk with rfl | rfl | ⟨rfl, h⟩
  · exact ⟨fun h => absurd hc h, hp⟩
  · exact ⟨fun h => absurd hc h, hp⟩
  · exact ordered_read h hp

theorem ordered_owns {ks : List ApiKind} (hc : c ∈ cl)
    (hk : ∀ k ∈ ks, k = .emit ∨ k = .roomEmit ∨ (k = .room ∧ Below 4 held))
    (hp : p.Ordered held cl) : (ownCalls c n ks p).Ordered held cl := by
  induction ks with
  | nil => exact hp
  | cons k ks ih => exact ordered_own hc (hk k (by simp)) (ih (fun k h => hk k (by simp [h])))

theorem ordered_close {x : Ctx} {es : List NsEnd} (h : Below 3 held) (hu : ∀ u ∈ endUses x es, safe u.1 u.2 = true)
    (hp : p.Ordered held cl) : (closeProg c es p).Ordered held cl := by
  refine ⟨fun _ => ⟨h, ?_⟩, hp⟩
  have hb : Below 4 ((Res.ns c, true) :: held) := below_cons h (by simp [Res.rank])
  induction es with
  | nil => exact ⟨held, rfl, ordered_mono hp (fun c h => by simp [h])⟩
  | cons e es ih =>
    have ih := ih (fun u h => hu u (by simp only [endUses, List.flatMap_cons]; exact List.mem_append_right _ h))
    have h1 : ∀ k ∈ e.rooms, k = ApiKind.emit ∨ k = .roomEmit := by
      intro k hk
      have := hu (.closingRooms x, k) (by simp [endUses, hk])
      simpa [safe] using this
    have h2 : ∀ k ∈ e.ns, k = ApiKind.room ∨ k = .emit ∨ k = .roomEmit := by
      intro k hk
      have := hu (.closing x, k) (by simp [endUses, hk])
      simpa [safe, or_assoc] using this
    refine ⟨hb, ordered_owns (by simp) (fun k hk => ?_) ⟨_, rfl, ordered_owns (by simp) (fun k hk => ?_) ih⟩⟩
    · rcases h1 k hk with h | h
      · exact .inl h
      · exact .inr (.inl h)
    · rcases h2 k hk with h | h | h
      · exact .inr (.inr ⟨h, hb⟩)
      · exact .inl h
      · exact .inr (.inl h)

theorem ordered_fail {x : Ctx} {f : Option (List NsEnd)} (h : Below 3 held)
    (hu : ∀ es, f = some es → ∀ u ∈ endUses x es, safe u.1 u.2 = true)
    (hp : p.Ordered held cl) : (failProg c f p).Ordered held cl := by
  cases f with
  | none => exact hp
  | some es => exact ordered_close h (hu es rfl) hp

theorem ordered_api {x : Ctx} {a : LkApi} (h : Below 3 held) (hu : ∀ u ∈ failUses x a, safe u.1 u.2 = true)
    (h1 : a.kind = .cast → Below 2 held) (h2 : a.kind = .sync ∨ a.kind = .act → Below 1 held)
    (hp : p.Ordered held cl) : (a.prog p).Ordered held cl := by
  cases a with
  | room c n => exact ordered_read (below_mono h (by simp [Res.rank])) hp
  | nsp c => exact ordered_read h hp
  | emit c f =>
    exact ⟨fun _ => ordered_read h (ordered_fail h (fun es e u hx => hu u (by subst e; exact hx)) hp), hp⟩
  | roomEmit c n f =>
    exact ⟨fun _ => ordered_read h (ordered_read (below_mono h (by simp [Res.rank]))
      (ordered_fail h (fun es e u hx => hu u (by subst e; exact hx)) hp)), hp⟩
  | cast => exact ordered_touch (h1 rfl) hp
  | sync => exact ordered_touch (h2 (.inl rfl)) hp
  | act => exact ordered_touch (h2 (.inr rfl)) hp

theorem ordered_loop {fn : List LkApi} (h : Below 2 held)
    (hu : ∀ u ∈ fn.flatMap (apiUses .loop .loop), safe u.1 u.2 = true)
    (hp : p.Ordered held cl) : (fn.foldr LkApi.prog p).Ordered held cl := by
  induction fn with
  | nil => exact hp
  | cons a fn ih =>
    have ih := ih (fun u h => hu u (by rw [List.flatMap_cons]; exact List.mem_append_right _ h))
    have hk := hu (.loop, a.kind) (by simp [apiUses])
    refine ordered_api (x := .loop) (below_mono h (by decide)) (fun u h => hu u (by simp [apiUses, h])) (fun _ => h)
      (fun e => ?_) ih
    rcases e with e | e <;> (rw [e] at hk; cases hk)

theorem ordered_act {at_ : CbSite} {a : LkAct} (h : Below 1 held) (hu : ∀ u ∈ actUses at_ a, safe u.1 u.2 = true)
    (hp : p.Ordered held cl) : (a.prog p).Ordered held cl := by
  cases a with
  | api a =>
    exact ordered_api (x := .free) (below_mono h (by decide)) (fun u h => hu u (by simp [actUses, apiUses, h]))
      (fun _ => below_mono h (by decide)) (fun _ => h) hp
  | act fn =>
    exact ⟨h, ordered_loop (below_cons h (by decide)) (fun u h => hu u (by simp only [actUses, List.mem_cons]; exact .inr h))
      ⟨held, rfl, hp⟩⟩

theorem ordered_acts {at_ : CbSite} {acts : List LkAct} (h : Below 1 held)
    (hu : ∀ u ∈ acts.flatMap (actUses at_), safe u.1 u.2 = true) (hp : p.Ordered held cl) :
    (acts.foldr LkAct.prog p).Ordered held cl := by
  induction acts with
  | nil => exact hp
  | cons a acts ih =>
    exact ordered_act (at_ := at_) h (fun u h => hu u (by rw [List.flatMap_cons]; exact List.mem_append_left _ h))
      (ih (fun u h => hu u (by rw [List.flatMap_cons]; exact List.mem_append_right _ h)))

theorem ordered_writes {x : Ctx} {ws : List Wr} (h : Below 3 held)
    (hu : ∀ u ∈ ws.flatMap (fun w => failUses x w.api), safe u.1 u.2 = true) (hp : p.Ordered held cl) :
    (ws.foldr (fun w => w.api.prog) p).Ordered held cl := by
  induction ws with
  | nil => exact hp
  | cons w ws ih =>
    refine ordered_api (x := x) h (fun u h => hu u (by rw [List.flatMap_cons]; exact List.mem_append_left _ h)) ?_ ?_
      (ih (fun u h => hu u (by rw [List.flatMap_cons]; exact List.mem_append_right _ h)))
    · intro e; unfold Wr.api at e; split at e <;> cases e
    · intro e; unfold Wr.api at e; split at e <;> rcases e with e | e <;> cases e

theorem below_nil {n : Nat} : Below n [] := fun _ h => by cases h

theorem ordered_gor {g : Gor} (hu : ∀ u ∈ uses g, safe u.1 u.2 = true) : g.prog.Ordered [] cl := by
  cases g with
  | plain acts => exact ordered_acts (at_ := .plain) below_nil hu rfl
  | queued c acts =>
    exact ⟨below_nil, ordered_acts (at_ := .queued) (below_cons below_nil (by simp [Res.rank])) hu ⟨_, rfl, rfl⟩⟩
  | leave c n ks acts =>
    have hk : ks = [] := by
      cases ks with
      | nil => rfl
      | cons k ks => have := hu (.leaving, k) (by simp [uses]); cases this
    subst hk
    exact ordered_read below_nil ⟨below_nil, _, rfl, ordered_touch below_nil
      (ordered_acts (at_ := .plain) below_nil (fun u h => hu u (by simpa [uses] using h)) rfl)⟩
  | close c es => exact ordered_close below_nil hu rfl
  | publish ws =>
    exact ⟨below_nil, ordered_writes (x := .cast) (below_cons below_nil (by decide)) hu ⟨_, rfl, rfl⟩⟩
  | loopPublish ws =>
    exact ⟨below_nil, ordered_writes (x := .loop) (below_cons below_nil (by decide)) hu ⟨_, rfl, rfl⟩⟩
  | onDisconnect fn => exact ⟨below_nil, ordered_loop (below_cons below_nil (by decide)) hu ⟨_, rfl, rfl⟩⟩
  | serverClose cs =>
    refine ⟨below_nil, ?_⟩
    have : Below 3 [(Res.loop, true)] := below_cons below_nil (by decide)
    simp only [uses] at hu
    induction cs with
    | nil => exact ⟨_, rfl, rfl⟩
    | cons y cs ih =>
      exact ordered_close (x := .loop) this (fun u h => hu u (by rw [List.flatMap_cons]; exact List.mem_append_left _ h))
        (ih (fun u h => hu u (by rw [List.flatMap_cons]; exact List.mem_append_right _ h)))

/-! ## the machine -/

/-- how many steps, at most -/
def Prog.size : Prog → Nat
  | .done => 0
  | .lock _ p => p.size + 2
  | .rlock _ p => p.size + 1
  | .unlock _ p => p.size + 1
  | .runlock _ p => p.size + 1
  | .ifOpen _ p q => p.size + q.size + 1
  | .cas _ p q => p.size + q.size + 1

def Thr.work (t : Thr) : Nat := if t.pend then t.todo.size - 1 else t.todo.size

def LkSt.work (s : LkSt) : Nat := (s.thr.map Thr.work).sum

structure LkSt.Inv (s : LkSt) : Prop where
  ordered : ∀ (i : Nat) (t : Thr), s.thr[i]? = some t → t.todo.Ordered t.held s.closed
  pend : ∀ (i : Nat) (t : Thr), s.thr[i]? = some t → t.pend = true → ∃ r p, t.todo = .lock r p

theorem lk_sum_set {α : Type} (f : α → Nat) : ∀ {l : List α} {i : Nat} {a b : α}, l[i]? = some a →
    ((l.set i b).map f).sum + f a = (l.map f).sum + f b
  | [], _, _, _, h => by simp at h
  | x :: l, 0, a, b, h => by
    simp only [List.getElem?_cons_zero, Option.some.injEq] at h
    subst h
    simp only [List.set_cons_zero, List.map_cons, List.sum_cons]; omega
  | x :: l, i + 1, a, b, h => by
    have := lk_sum_set f (b := b) (show l[i]? = some a by simpa using h)
    simp only [List.set_cons_succ, List.map_cons, List.sum_cons]; omega

theorem lk_set {α : Type} {l : List α} {i j : Nat} {a b : α} (h : (l.set i a)[j]? = some b) :
    b = a ∨ l[j]? = some b := by
  rw [List.getElem?_set] at h
  split at h
  · split at h
    · cases h; exact .inl rfl
    · cases h
  · exact .inr h

/-- a step keeps the order and takes work away -/
theorem go_inv {s s' : LkSt} {i : Nat} (hi : s.Inv) (h : s.go i = some s') : s'.Inv ∧ s'.work < s.work := by
  unfold LkSt.go at h
  split at h
  · cases h
  · rename_i t ht
    have ho := hi.ordered i t ht
    have hpn := hi.pend i t ht
    have put : ∀ {u : Thr} {cl : List Nat}, (∀ c ∈ s.closed, c ∈ cl) → u.todo.Ordered u.held cl →
        (u.pend = true → ∃ r p, u.todo = .lock r p) → u.work < t.work →
        LkSt.Inv { s.put i u with closed := cl } ∧ LkSt.work { s.put i u with closed := cl } < s.work := by
      intro u cl hc h1 h2 h3
      refine ⟨⟨fun j v hj => ?_, fun j v hj => ?_⟩, ?_⟩
      · rcases lk_set hj with rfl | hj
        · exact h1
        · exact ordered_mono (hi.ordered j v hj) hc
      · rcases lk_set hj with rfl | hj
        · exact h2
        · exact hi.pend j v hj
      · have := lk_sum_set Thr.work (b := u) ht
        simp only [LkSt.work, LkSt.put]; omega
    have np : (∀ r p, t.todo ≠ .lock r p) → t.work = t.todo.size := by
      intro hn
      unfold Thr.work
      split
      · obtain ⟨r, p, e⟩ := hpn ‹_›; exact absurd e (hn r p)
      · rfl
    split at h
    · cases h
    · rename_i r p e
      rw [e] at ho
      split at h
      · split at h
        · cases h
        · cases h
          exact put (fun _ h => h) ho.2 (fun h => by cases h) (by simp [Thr.work, Prog.size, *])
      · split at h
        · cases h
        · cases h
          exact put (fun _ h => h) (by rw [e]; exact ho) (fun _ => ⟨r, p, e⟩) (by simp [Thr.work, Prog.size, *])
    · rename_i r p e
      rw [e] at ho np
      obtain ⟨h', eh, ho⟩ := ho
      cases h
      refine put (fun _ h => h) ?_ (fun h => by cases h) (by rw [np (by simp)]; simp [Thr.work, Prog.size])
      rw [eh]; simpa using ho
    · rename_i r p e
      rw [e] at ho np
      split at h
      · cases h
      · cases h
        exact put (fun _ h => h) ho.2 (fun h => by cases h) (by rw [np (by simp)]; simp [Thr.work, Prog.size])
    · rename_i r p e
      rw [e] at ho np
      obtain ⟨h', eh, ho⟩ := ho
      cases h
      refine put (fun _ h => h) ?_ (fun h => by cases h) (by rw [np (by simp)]; simp [Thr.work, Prog.size])
      rw [eh]; simpa using ho
    · rename_i c p q e
      rw [e] at ho np
      cases h
      refine put (fun _ h => h) ?_ (fun h => by cases h) ?_
      · dsimp only
        split
        · exact ho.2
        · exact ho.1 ‹_›
      · rw [np (by simp)]
        simp only [Thr.work, Prog.size, Bool.false_eq_true, if_false]
        split <;> omega
    · rename_i c p q e
      rw [e] at ho np
      split at h
      · cases h
        exact put (fun _ h => h) ho.2 (fun h => by cases h) (by rw [np (by simp)]; simp [Thr.work, Prog.size]; omega)
      · cases h
        exact put (fun _ h => List.mem_cons_of_mem _ h) (ho.1 ‹_›) (fun h => by cases h)
          (by rw [np (by simp)]; simp [Thr.work, Prog.size]; omega)

theorem held_of {t : Thr} {r : Res} (h : t.holds r = true) : ∃ b, (r, b) ∈ t.held := by
  unfold Thr.holds at h
  simp only [Bool.or_eq_true, List.contains_iff_mem] at h
  rcases h with h | h
  · exact ⟨_, h⟩
  · exact ⟨_, h⟩

/-- who cannot go on waits for a lock that somebody has -/
theorem waits {s : LkSt} (hno : ∀ i, s.go i = none) {i : Nat} {t : Thr} (ht : s.thr[i]? = some t)
    (hd : t.todo ≠ .done) : ∃ r p, (t.todo = .lock r p ∨ t.todo = .rlock r p) ∧
      ∃ (j : Nat) (u : Thr), s.thr[j]? = some u ∧ u.holds r = true := by
  -- a writer that waits
  have pend : ∀ {j : Nat} {u : Thr} {r : Res}, s.thr[j]? = some u → u.pends r = true →
      ∃ (j : Nat) (u : Thr), s.thr[j]? = some u ∧ u.holds r = true := by
    intro j u r hj hp
    have hg := hno j
    unfold Thr.pends at hp
    rw [Bool.and_eq_true] at hp
    obtain ⟨hp, hq⟩ := hp
    split at hq
    · rename_i r' p e
      simp only [decide_eq_true_eq] at hq
      subst hq
      simp only [LkSt.go, hj, e, hp, if_true] at hg
      split at hg
      · rename_i hany
        obtain ⟨v, hv, hh⟩ := List.any_eq_true.mp hany
        obtain ⟨k, hk⟩ := List.getElem?_of_mem hv
        exact ⟨k, v, hk, hh⟩
      · cases hg
    · cases hq
  have writer : ∀ {r : Res}, s.thr.any (·.writes r) = true →
      ∃ (j : Nat) (u : Thr), s.thr[j]? = some u ∧ u.holds r = true := by
    intro r hany
    obtain ⟨v, hv, hh⟩ := List.any_eq_true.mp hany
    obtain ⟨k, hk⟩ := List.getElem?_of_mem hv
    unfold Thr.writes at hh
    rw [Bool.or_eq_true] at hh
    rcases hh with hh | hh
    · exact ⟨k, v, hk, by unfold Thr.holds; rw [hh]; rfl⟩
    · exact pend hk hh
  have hg := hno i
  simp only [LkSt.go, ht] at hg
  split at hg
  · exact absurd ‹_› hd
  · rename_i r p e
    refine ⟨r, p, .inl e, ?_⟩
    split at hg
    · refine pend ht (r := r) ?_
      simp [Thr.pends, *]
    · split at hg
      · exact writer ‹_›
      · cases hg
  · cases hg
  · rename_i r p e
    refine ⟨r, p, .inr e, ?_⟩
    split at hg
    · exact writer ‹_›
    · cases hg
  · cases hg
  · cases hg
  · split at hg <;> cases hg

/-- if nobody can go on everybody is done -/
theorem all_done {s : LkSt} (hi : s.Inv) (hno : ∀ i, s.go i = none) {i : Nat} {t : Thr} (ht : s.thr[i]? = some t) :
    t.todo = .done := by
  have climb : ∀ (m : Nat) {i : Nat} {t : Thr} {r : Res} {p : Prog}, s.thr[i]? = some t →
      (t.todo = .lock r p ∨ t.todo = .rlock r p) →
      (∃ (j : Nat) (u : Thr), s.thr[j]? = some u ∧ u.holds r = true) → 5 ≤ r.rank + m → False := by
    intro m
    induction m with
    | zero => intro i t r p _ _ _ h; cases r <;> simp [Res.rank] at h
    | succ m ih =>
      intro i t r p _ _ ⟨j, u, hu, hh⟩ hm
      obtain ⟨b, hb⟩ := held_of hh
      have ho := hi.ordered j u hu
      have hd : u.todo ≠ .done := by
        intro e; rw [e] at ho; have : u.held = [] := ho; rw [this] at hb; cases hb
      obtain ⟨r', p', hw, hx⟩ := waits hno hu hd
      refine ih hu hw hx ?_
      have : r.rank < r'.rank := by
        rcases hw with e | e <;> (rw [e] at ho; exact ho.1 _ hb)
      omega
  by_cases hd : t.todo = .done
  · exact hd
  · obtain ⟨r, p, hw, hx⟩ := waits hno ht hd
    exact (climb 5 ht hw hx (by omega)).elim

theorem lkrun_append {s s' : LkSt} {ops ops' : List LkOp} (h : s.run ops = some s') :
    s.run (ops ++ ops') = s'.run ops' := by
  induction ops generalizing s with
  | nil => cases h; rfl
  | cons op ops ih =>
    simp only [LkSt.run, List.cons_append] at h ⊢
    split at h
    · exact ih h
    · cases h

theorem run_inv {s s' : LkSt} {ops : List LkOp} (hi : s.Inv) (hu : Uses safe ops) (h : s.run ops = some s') : s'.Inv := by
  induction ops generalizing s with
  | nil => cases h; exact hi
  | cons op ops ih =>
    simp only [LkSt.run] at h
    split at h
    · rename_i t ht
      refine ih ?_ (fun g hg => hu g (List.mem_cons_of_mem _ hg)) h
      cases op with
      | go i => exact (go_inv hi ht).1
      | spawn g =>
        cases ht
        have hg := ordered_gor (cl := s.closed) (hu g List.mem_cons_self)
        refine ⟨fun i t ht => ?_, fun i t ht hp => ?_⟩
        all_goals
          rw [List.getElem?_append] at ht
          split at ht
        · exact hi.ordered i t ht
        · rw [List.getElem?_singleton] at ht
          split at ht
          · cases ht; exact hg
          · cases ht
        · exact hi.pend i t ht hp
        · rw [List.getElem?_singleton] at ht
          split at ht
          · cases ht; cases hp
          · cases ht
    · cases h

/-- without new goroutines a run is as long as the work at most -/
theorem run_short {s s' : LkSt} {is : List Nat} (hi : s.Inv) (h : s.run (is.map .go) = some s') :
    is.length + s'.work ≤ s.work := by
  induction is generalizing s with
  | nil => cases h; simp
  | cons i is ih =>
    simp only [List.map_cons, LkSt.run] at h
    split at h
    · rename_i t ht
      obtain ⟨h1, h2⟩ := go_inv hi ht
      have := ih h1 h
      simp only [List.length_cons]; omega
    · cases h

theorem run_end (n : Nat) : ∀ {s : LkSt}, s.work ≤ n → s.Inv → ∃ (is : List Nat) (s' : LkSt),
    s.run (is.map .go) = some s' ∧ ∀ (i : Nat) (t : Thr), s'.thr[i]? = some t → t.todo = .done := by
  induction n with
  | zero =>
    intro s hn hi
    refine ⟨[], s, rfl, fun i t ht => all_done hi (fun j => ?_) ht⟩
    cases hg : s.go j with
    | none => rfl
    | some s' => have := (go_inv hi hg).2; omega
  | succ n ih =>
    intro s hn hi
    by_cases hno : ∀ j, s.go j = none
    · exact ⟨[], s, rfl, fun i t ht => all_done hi hno ht⟩
    · obtain ⟨j, hj⟩ := Classical.not_forall.mp hno
      obtain ⟨s1, h1⟩ := Option.ne_none_iff_exists'.mp hj
      obtain ⟨h2, h3⟩ := go_inv hi h1
      obtain ⟨is, s', h4, h5⟩ := ih (s := s1) (by omega) h2
      exact ⟨j :: is, s', by simp only [List.map_cons, LkSt.run, LkSt.step, h1]; exact h4, h5⟩

/-! ## knots -/

/-- the goroutine waits for `r` -/
def Thr.wants (t : Thr) (r : Res) : Bool :=
  match t.todo with
  | .lock r' _ => r' = r
  | .rlock r' _ => r' = r
  | _ => false

/-- every goroutine of `w` waits for something that a goroutine of `w` holds for writing -/
def LkSt.Knot (s : LkSt) (w : List Nat) : Prop :=
  ∀ i ∈ w, ∃ t r, s.thr[i]? = some t ∧ t.wants r = true ∧
    ∃ j ∈ w, ∃ u, s.thr[j]? = some u ∧ (r, true) ∈ u.held

theorem knot_go {s : LkSt} {w : List Nat} (hk : s.Knot w) {i : Nat} (hi : i ∈ w) : s.go i = none := by
  obtain ⟨t, r, ht, hw, j, _, u, hu, hh⟩ := hk i hi
  have hmem := List.mem_of_getElem? hu
  have hc : u.held.contains (r, true) = true := by simpa using hh
  have h1 : s.thr.any (·.holds r) = true := List.any_eq_true.mpr ⟨u, hmem, by unfold Thr.holds; rw [hc]; rfl⟩
  have h2 : s.thr.any (·.writes r) = true := List.any_eq_true.mpr ⟨u, hmem, by unfold Thr.writes; rw [hc]; rfl⟩
  unfold Thr.wants at hw
  split at hw
  · rename_i r' p e
    simp only [decide_eq_true_eq] at hw; subst hw
    simp only [LkSt.go, ht, e, h1, h2, if_true]
    split <;> rfl
  · rename_i r' p e
    simp only [decide_eq_true_eq] at hw; subst hw
    simp only [LkSt.go, ht, e, h2, if_true]
  · cases hw

theorem go_other {s s' : LkSt} {i j : Nat} (h : s.go i = some s') (hj : j ≠ i) : s'.thr[j]? = s.thr[j]? := by
  have hp : ∀ (t : Thr), (s.put i t).thr[j]? = s.thr[j]? := fun t =>
    List.getElem?_set_ne (fun e => hj e.symm)
  unfold LkSt.go at h
  split at h
  · cases h
  · split at h
    · cases h
    · split at h
      · split at h
        · cases h
        · cases h; exact hp _
      · split at h
        · cases h
        · cases h; exact hp _
    · cases h; exact hp _
    · split at h
      · cases h
      · cases h; exact hp _
    · cases h; exact hp _
    · cases h; exact hp _
    · split at h
      · cases h; exact hp _
      · cases h; exact hp _

theorem knot_step {s s' : LkSt} {w : List Nat} {op : LkOp} (hk : s.Knot w) (h : s.step op = some s') :
    ∀ i ∈ w, s'.thr[i]? = s.thr[i]? := by
  intro i hi
  cases op with
  | spawn g =>
    cases h
    obtain ⟨t, _, ht, _⟩ := hk i hi
    exact List.getElem?_append_left (List.getElem?_eq_some_iff.mp ht).1
  | go j =>
    refine go_other h (fun e => ?_)
    subst e
    rw [LkSt.step, knot_go hk hi] at h
    cases h

theorem knot_run {s s' : LkSt} {w : List Nat} {ops : List LkOp} (hk : s.Knot w) (h : s.run ops = some s') :
    s'.Knot w := by
  induction ops generalizing s with
  | nil => cases h; exact hk
  | cons op ops ih =>
    simp only [LkSt.run] at h
    split at h
    · rename_i t ht
      have hs := knot_step hk ht
      refine ih (fun i hi => ?_) h
      obtain ⟨x, r, hx, hw, j, hj, u, hu, hh⟩ := hk i hi
      exact ⟨x, r, (hs i hi).trans hx, hw, j, hj, u, (hs j hj).trans hu, hh⟩
    · cases h

theorem knot_stuck {s : LkSt} {w : List Nat} (hk : s.Knot w) {i : Nat} (hi : i ∈ w) : Stuck s i := by
  intro ops s' h
  obtain ⟨t, r, ht, hw, _⟩ := knot_run hk h i hi
  refine ⟨t, ht, fun e => ?_⟩
  unfold Thr.wants at hw
  rw [e] at hw
  cases hw

/-- the same, to compute with -/
def LkSt.knot (s : LkSt) (w : List Nat) : Bool :=
  w.all fun i => match s.thr[i]? with
    | none => false
    | some t => w.any fun j => match s.thr[j]? with
      | none => false
      | some u => u.held.any fun h => h.2 && t.wants h.1

theorem knot_of {s : LkSt} {w : List Nat} (h : s.knot w = true) : s.Knot w := by
  intro i hi
  have h1 := List.all_eq_true.mp h i hi
  split at h1
  · cases h1
  · rename_i t ht
    obtain ⟨j, hj, h2⟩ := List.any_eq_true.mp h1
    split at h2
    · cases h2
    · rename_i u hu
      obtain ⟨⟨r, b⟩, hx, h3⟩ := List.any_eq_true.mp h2
      rw [Bool.and_eq_true] at h3
      obtain ⟨h3, h4⟩ := h3
      cases h3
      exact ⟨t, r, ht, h4, j, hj, u, hu, hx⟩

end Neffos
