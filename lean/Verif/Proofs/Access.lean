import Verif.Spec.Access
set_option autoImplicit false
/-!
# Every access but three kinds is made with the mutex of the variable
-/
namespace Neffos
open Spec

/-- the variables that are read without their mutex by a program that uses `u` -/
def Bare (u : UnguardedUses) : Vr → Prop
  | .ns _ => u.leaveAll = true
  | .conns => u.getConnections = true
  | .batch => u.waitMessages = true
  | _ => False

abbrev Held := List (Mx × Bool)

def heldAfter (h : Held) : List Acc → Held
  | [] => h
  | .lock m :: p => heldAfter ((m, true) :: h) p
  | .unlock m :: p => heldAfter (h.erase (m, true)) p
  | .rlock m :: p => heldAfter ((m, false) :: h) p
  | .runlock m :: p => heldAfter (h.erase (m, false)) p
  | .load _ :: p => heldAfter h p
  | .store _ :: p => heldAfter h p

def Guarded (u : UnguardedUses) (h : Held) : List Acc → Prop
  | [] => True
  | .lock m :: p => Guarded u ((m, true) :: h) p
  | .unlock m :: p => Guarded u (h.erase (m, true)) p
  | .rlock m :: p => Guarded u ((m, false) :: h) p
  | .runlock m :: p => Guarded u (h.erase (m, false)) p
  | .load v :: p => ((guard v, true) ∈ h ∨ (guard v, false) ∈ h ∨ Bare u v) ∧ Guarded u h p
  | .store v :: p => (guard v, true) ∈ h ∧ Guarded u h p

theorem heldAfter_append (h : Held) (p q : List Acc) : heldAfter h (p ++ q) = heldAfter (heldAfter h p) q := by
  induction p generalizing h with
  | nil => rfl
  | cons a p ih => cases a <;> exact ih _

theorem Guarded_append (u : UnguardedUses) (h : Held) (p q : List Acc) :
    Guarded u h (p ++ q) ↔ Guarded u h p ∧ Guarded u (heldAfter h p) q := by
  induction p generalizing h with
  | nil => simp [Guarded, heldAfter]
  | cons a p ih => cases a <;> simp [Guarded, heldAfter, ih, and_assoc]

/-- guarded whatever else is held, and leaves the mutexes as they were -/
def Neutral (u : UnguardedUses) (h : Held) (p : List Acc) : Prop := Guarded u h p ∧ heldAfter h p = h

theorem Neutral.append {u : UnguardedUses} {h : Held} {p q : List Acc} (hp : Neutral u h p) (hq : Neutral u h q) :
    Neutral u h (p ++ q) :=
  ⟨(Guarded_append ..).2 ⟨hp.1, by rw [hp.2]; exact hq.1⟩, by rw [heldAfter_append, hp.2, hq.2]⟩

theorem Neutral.nil {u : UnguardedUses} {h : Held} : Neutral u h [] := ⟨trivial, rfl⟩

theorem Neutral.flatMap {α : Type} {u : UnguardedUses} {h : Held} {f : α → List Acc} :
    ∀ {l : List α}, (∀ x ∈ l, Neutral u h (f x)) → Neutral u h (l.flatMap f)
  | [], _ => Neutral.nil
  | x :: l, hx => by
    rw [List.flatMap_cons]
    exact (hx x (List.mem_cons_self ..)).append (Neutral.flatMap fun y hy => hx y (List.mem_cons_of_mem _ hy))

/-- a critical section -/
theorem Neutral.locked {u : UnguardedUses} {h : Held} {p : List Acc} (m : Mx) (hp : Neutral u ((m, true) :: h) p) :
    Neutral u h (.lock m :: p ++ [.unlock m]) := by
  refine ⟨?_, ?_⟩
  · refine (Guarded_append ..).2 ⟨hp.1, trivial⟩
  · rw [heldAfter_append]
    show heldAfter (heldAfter ((m, true) :: h) p) _ = h
    rw [hp.2]; simp [heldAfter]

theorem Neutral.rlocked {u : UnguardedUses} {h : Held} {p : List Acc} (m : Mx) (hp : Neutral u ((m, false) :: h) p) :
    Neutral u h (.rlock m :: p ++ [.runlock m]) := by
  refine ⟨?_, ?_⟩
  · refine (Guarded_append ..).2 ⟨hp.1, trivial⟩
  · rw [heldAfter_append]
    show heldAfter (heldAfter ((m, false) :: h) p) _ = h
    rw [hp.2]; simp [heldAfter]

theorem Neutral.load {u : UnguardedUses} {h : Held} {v : Vr} (hv : (guard v, true) ∈ h ∨ (guard v, false) ∈ h ∨ Bare u v) :
    Neutral u h [.load v] := ⟨⟨hv, trivial⟩, rfl⟩

theorem Neutral.store {u : UnguardedUses} {h : Held} {v : Vr} (hv : (guard v, true) ∈ h) : Neutral u h [.store v] :=
  ⟨⟨hv, trivial⟩, rfl⟩

theorem Neutral.loadL {u : UnguardedUses} {h : Held} (v : Vr) : Neutral u ((guard v, true) :: h) [.load v] :=
  Neutral.load (by simp)

theorem Neutral.storeL {u : UnguardedUses} {h : Held} (v : Vr) : Neutral u ((guard v, true) :: h) [.store v] :=
  Neutral.store (by simp)

theorem Neutral.bare {u : UnguardedUses} {h : Held} (v : Vr) (hv : Bare u v) : Neutral u h [.load v] :=
  Neutral.load (Or.inr (Or.inr hv))

theorem Neutral.rd {u : UnguardedUses} {h : Held} (v : Vr) : Neutral u h (rdAcc (guard v) v) :=
  Neutral.rlocked (p := [.load v]) _ (Neutral.load (by simp))

theorem Neutral.wr {u : UnguardedUses} {h : Held} (v : Vr) : Neutral u h (wrAcc (guard v) v) :=
  Neutral.locked (p := [.store v]) _ (Neutral.store (by simp))

theorem Code.neutral {u : UnguardedUses} {p : List Acc} (hp : Code u p) : ∀ h : Held, Neutral u h p := by
  induction hp with
  | nil => exact fun h => Neutral.nil
  | seq _ _ ih1 ih2 => exact fun h => (ih1 h).append (ih2 h)
  | «namespace» c => exact fun h => Neutral.rd (.ns c)
  | getProc c made =>
    intro h
    refine (Neutral.rd (.procs c)).append ?_
    cases made
    · exact Neutral.nil
    · exact Neutral.wr (.procs c)
  | write c d _ ih =>
    intro h
    refine Neutral.append ?_ (ih h)
    cases d with
    | none => exact Neutral.nil
    | ns => exact Neutral.rd (.ns c)
    | room o => exact (Neutral.rd (.ns c)).append (Neutral.rd (.rooms o))
  | ask c _ ih => exact fun h => ((Neutral.wr (.wait c)).append (ih h)).append (Neutral.wr (.wait c))
  | room o => exact fun h => Neutral.rd (.rooms o)
  | forceLeave o _ _ ih1 ih2 =>
    intro h
    refine Neutral.locked (p := [.load (.rooms o)] ++ _) _ ((Neutral.loadL _).append (Neutral.flatMap ?_))
    intro x hx
    exact ((ih1 x hx _).append (Neutral.storeL _)).append (ih2 x hx _)
  | close c _ _ ih1 ih2 =>
    intro h
    refine Neutral.append (Neutral.locked (p := [.load (.ns c)] ++ _) _
      ((Neutral.loadL _).append (Neutral.flatMap ?_)))
      (Neutral.locked (p := [.load (.wait c)] ++ [.store (.wait c)]) _
        ((Neutral.loadL _).append (Neutral.storeL _)))
    intro x hx
    exact ((ih1 x hx _).append (ih2 x hx _)).append (Neutral.storeL _)
  | askConnect c made _ _ _ ih1 ih2 ih3 =>
    intro h
    refine (((((Neutral.append (Neutral.rd (.procs c)) ?_).append (Neutral.rd (.ns c))).append (ih1 h)).append
      (ih2 h)).append (Neutral.wr (.ns c))).append (ih3 h)
    cases made
    · exact Neutral.nil
    · exact Neutral.wr (.procs c)
  | replyConnect c _ _ _ ih1 ih2 ih3 =>
    exact fun h => ((((Neutral.rd (.ns c)).append (ih1 h)).append (Neutral.wr (.ns c))).append (ih2 h)).append (ih3 h)
  | askDisconnect c _ _ _ ih1 ih2 ih3 =>
    exact fun h => ((((Neutral.rd (.ns c)).append (ih1 h)).append (ih2 h)).append (Neutral.wr (.ns c))).append (ih3 h)
  | disconnectAll c _ _ _ ih1 ih2 ih3 =>
    intro h
    refine Neutral.locked (p := [.load (.ns c)] ++ _) _ ((Neutral.loadL _).append (Neutral.flatMap ?_))
    intro x hx
    exact ((((Neutral.loadL _).append (ih1 x hx _)).append (ih2 x hx _)).append
      (Neutral.storeL _)).append (ih3 x hx _)
  | replyDisconnect c _ _ _ ih1 ih2 ih3 =>
    exact fun h => ((((Neutral.rd (.ns c)).append (ih1 h)).append (ih2 h)).append (Neutral.wr (.ns c))).append (ih3 h)
  | askRoom o _ _ _ ih1 ih2 ih3 =>
    exact fun h => ((((Neutral.rd (.rooms o)).append (ih1 h)).append (ih2 h)).append (Neutral.wr (.rooms o))).append
      (ih3 h)
  | replyRoom o _ _ _ ih1 ih2 ih3 =>
    exact fun h => ((((Neutral.rd (.rooms o)).append (ih1 h)).append (Neutral.wr (.rooms o))).append (ih2 h)).append
      (ih3 h)
  | leaveAll c o _ _ _ hu ih1 ih2 ih3 =>
    intro h
    refine Neutral.locked (p := [.load (.rooms o)] ++ _) _ ((Neutral.loadL _).append (Neutral.flatMap ?_))
    intro x hx
    refine ((((Neutral.loadL _).append (Neutral.append (Neutral.append (Neutral.wr (.wait c)) ?_)
      (Neutral.wr (.wait c)))).append (ih2 x hx _)).append (Neutral.storeL _)).append (ih3 x hx _)
    exact Neutral.append (p := [.load (.ns c)] ++ [.load (.rooms o)])
      ((Neutral.bare (.ns c) hu).append (Neutral.loadL _)) (ih1 x hx _)
  | enqueue c =>
    exact fun h => Neutral.locked (p := [.load (.queue c)] ++ [.store (.queue c)]) _
        ((Neutral.loadL _).append (Neutral.storeL _))
  | handleQueue c _ ih =>
    intro h
    refine Neutral.locked (p := [.load (.queue c)] ++ _) _ ((Neutral.loadL _).append (Neutral.flatMap ?_))
    exact fun x hx => (ih x hx _).append (Neutral.storeL _)
  | handleMessage c server _ ih =>
    intro h
    refine Neutral.append (Neutral.append ?_ (Neutral.rd (.wait c))) (ih h)
    cases server
    · exact Neutral.nil
    · exact Neutral.rd .srvWait
  | set c =>
    exact fun h => Neutral.locked (p := [.load (.store c)] ++ [.store (.store c)]) _
        ((Neutral.loadL _).append (Neutral.storeL _))
  | get c => exact fun h => Neutral.rd (.store c)
  | loopConn _ ih =>
    exact fun h => Neutral.locked (p := ([.load .conns] ++ [.store .conns]) ++ _) _
        (((Neutral.loadL _).append (Neutral.storeL _)).append (ih _))
  | loopEach _ ih =>
    intro h
    refine Neutral.locked (p := [.load .conns] ++ _) _ ((Neutral.loadL _).append (Neutral.flatMap ?_))
    exact fun x hx => (ih x hx _).append (Neutral.loadL _)
  | exc e _ ih =>
    exact fun h => Neutral.locked (p := ([.load (.exc e)] ++ [.store (.exc e)]) ++ _) _
        (((Neutral.loadL _).append (Neutral.storeL _)).append (ih _))
  | serverAsk _ ih => exact fun h => ((Neutral.wr .srvWait).append (ih h)).append (Neutral.wr .srvWait)
  | getConnections _ hu ih =>
    intro h
    refine Neutral.rlocked (p := [.load .conns] ++ _) _ ((Neutral.bare .conns hu).append (Neutral.flatMap ?_))
    exact fun x hx => (ih x hx _).append (Neutral.bare .conns hu)
  | broadcast => exact fun h => Neutral.wr .batch
  | waitMessages _ hu ih =>
    intro h
    exact Neutral.append (p := [.lock .bmu, .unlock .bmu] ++ [.load .batch])
      ((Neutral.locked (p := []) _ Neutral.nil).append (Neutral.bare .batch hu))
      (Neutral.locked _ (ih _))

/-! ## The mutexes -/

structure MemInv (u : UnguardedUses) (s : MemSt) : Prop where
  guarded : ∀ (i : Nat) (t : MemThr), s.thr[i]? = some t → Guarded u t.held t.todo
  /-- who holds a mutex for writing is the only one who holds it -/
  excl : ∀ (i j : Nat) (t t' : MemThr) (m : Mx) (b : Bool), s.thr[i]? = some t → s.thr[j]? = some t' → (m, true) ∈ t.held → (m, b) ∈ t'.held → i = j

theorem MemInv.upd {u : UnguardedUses} {s : MemSt} {i : Nat} {t : MemThr} {p : List Acc} {h : Held} (hs : MemInv u s)
    (hi : s.thr[i]? = some t) (hg : Guarded u h p) (hh : ∀ x ∈ h, x ∈ t.held ∨
      (x.2 = true ∧ ∀ (j : Nat) (t' : MemThr), s.thr[j]? = some t' → ∀ b, (x.1, b) ∉ t'.held) ∨
      (x.2 = false ∧ ∀ (j : Nat) (t' : MemThr), s.thr[j]? = some t' → (x.1, true) ∉ t'.held)) :
    MemInv u ⟨s.thr.set i ⟨p, h⟩⟩ := by
  have hlt : i < s.thr.length := (List.getElem?_eq_some_iff.1 hi).1
  have hget : ∀ (k : Nat) (t' : MemThr), (s.thr.set i ⟨p, h⟩)[k]? = some t' → (k = i ∧ t' = ⟨p, h⟩) ∨ (k ≠ i ∧ s.thr[k]? = some t') := by
    intro k t' hk
    by_cases hki : k = i
    · subst hki
      rw [List.getElem?_set_self hlt] at hk
      exact Or.inl ⟨rfl, (Option.some.inj hk).symm⟩
    · rw [List.getElem?_set_ne (Ne.symm hki)] at hk
      exact Or.inr ⟨hki, hk⟩
  refine ⟨?_, ?_⟩
  · intro k t' hk
    rcases hget k t' hk with ⟨_, rfl⟩ | ⟨_, hk'⟩
    · exact hg
    · exact hs.guarded k t' hk'
  · intro j k tj tk m b hj hk hmj hmk
    rcases hget j tj hj with ⟨hji, rfl⟩ | ⟨hji, hj'⟩ <;> rcases hget k tk hk with ⟨hki, rfl⟩ | ⟨hki, hk'⟩
    · exact hji.trans hki.symm
    · rcases hh _ hmj with h1 | ⟨_, h1⟩ | ⟨h1, _⟩
      · exact hji.trans (hs.excl i k t tk m b hi hk' h1 hmk)
      · exact absurd hmk (h1 k tk hk' b)
      · cases h1
    · rcases hh _ hmk with h1 | ⟨h0, h1⟩ | ⟨h0, h1⟩
      · exact (hs.excl j i tj t m b hj' hi hmj h1).trans hki.symm
      · exact absurd hmj (h1 j tj hj' true)
      · exact absurd hmj (h1 j tj hj')
    · exact hs.excl j k tj tk m b hj' hk' hmj hmk

theorem memInv_go {u : UnguardedUses} {s s' : MemSt} {i : Nat} (hs : MemInv u s) (h : s.go i = some s') : MemInv u s' := by
  unfold MemSt.go at h
  split at h
  · cases h
  · rename_i t hi
    have hg := hs.guarded i t hi
    split at h
    · cases h
    · rename_i m p ht
      rw [ht] at hg
      split at h
      · cases h
      · rename_i hany
        cases h
        refine hs.upd hi hg ?_
        intro x hx
        rcases List.mem_cons.1 hx with rfl | hx
        · refine Or.inr (Or.inl ⟨rfl, fun j t' hj b hb => hany ?_⟩)
          refine List.any_eq_true.2 ⟨t', List.mem_of_getElem? hj, ?_⟩
          cases b <;> simp_all [MemThr.has]
        · exact Or.inl hx
    · rename_i m p ht
      rw [ht] at hg
      cases h
      exact hs.upd hi hg fun x hx => Or.inl (List.mem_of_mem_erase hx)
    · rename_i m p ht
      rw [ht] at hg
      split at h
      · cases h
      · rename_i hany
        cases h
        refine hs.upd hi hg ?_
        intro x hx
        rcases List.mem_cons.1 hx with rfl | hx
        · refine Or.inr (Or.inr ⟨rfl, fun j t' hj hb => hany ?_⟩)
          exact List.any_eq_true.2 ⟨t', List.mem_of_getElem? hj, by simpa using hb⟩
        · exact Or.inl hx
    · rename_i m p ht
      rw [ht] at hg
      cases h
      exact hs.upd hi hg fun x hx => Or.inl (List.mem_of_mem_erase hx)
    · rename_i v p ht
      rw [ht] at hg
      cases h
      exact hs.upd hi hg.2 fun x hx => Or.inl hx
    · rename_i v p ht
      rw [ht] at hg
      cases h
      exact hs.upd hi hg.2 fun x hx => Or.inl hx

theorem memInv_reach {u : UnguardedUses} {s : MemSt} (h : MemReach u s) : MemInv u s := by
  induction h with
  | init => exact ⟨fun i t h => by simp at h, fun i j t t' m b h => by simp at h⟩
  | @spawn s p _ hp ih =>
    have hget : ∀ (k : Nat) (t' : MemThr), (s.thr ++ [⟨p, []⟩])[k]? = some t' → s.thr[k]? = some t' ∨ t' = ⟨p, []⟩ := by
      intro k t' hk
      rw [List.getElem?_append] at hk
      split at hk
      · exact Or.inl hk
      · refine Or.inr ?_
        have := List.mem_of_getElem? hk
        simpa using this
    refine ⟨?_, ?_⟩
    · intro i t hi
      rcases hget i t hi with h | rfl
      · exact ih.guarded i t h
      · exact (hp.neutral []).1
    · intro i j t t' m b hi hj hm hb
      rcases hget i t hi with h1 | rfl
      · rcases hget j t' hj with h2 | rfl
        · exact ih.excl i j t t' m b h1 h2 hm hb
        · cases hb
      · cases hm
  | go _ h ih => exact memInv_go ih h

theorem race_bare {u : UnguardedUses} {s : MemSt} {v : Vr} {i j : Nat} (h : MemInv u s) (hij : i ≠ j) (hw : WritesVar s i v)
    (ha : WritesVar s j v ∨ ReadsVar s j v) : ¬ WritesVar s j v ∧ Bare u v := by
  obtain ⟨t, p, ht, hp⟩ := hw
  have hg := h.guarded i t ht
  rw [hp] at hg
  refine ⟨?_, ?_⟩
  · rintro ⟨t', p', ht', hp'⟩
    have hg' := h.guarded j t' ht'
    rw [hp'] at hg'
    exact hij (h.excl i j t t' _ _ ht ht' hg.1 hg'.1)
  · rcases ha with ⟨t', p', ht', hp'⟩ | ⟨t', p', ht', hp'⟩
    · have hg' := h.guarded j t' ht'
      rw [hp'] at hg'
      exact absurd (h.excl i j t t' _ _ ht ht' hg.1 hg'.1) hij
    · have hg' := h.guarded j t' ht'
      rw [hp'] at hg'
      rcases hg'.1 with h1 | h1 | h1
      · exact absurd (h.excl i j t t' _ _ ht ht' hg.1 h1) hij
      · exact absurd (h.excl i j t t' _ _ ht ht' hg.1 h1) hij
      · exact h1

end Neffos
