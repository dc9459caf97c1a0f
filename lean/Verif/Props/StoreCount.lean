import Verif.Props.Store
/-!
# C76: what concurrent increments and decrements leave

`Increment` and `Decrement` are a `Get` and a `Set` (C48). Here is exactly what can come of `n` of them at once.
-/
set_option autoImplicit false
namespace Neffos

namespace Spec

/-- `Increment` or `Decrement` -/
def countOp (up : Bool) (k : Bytes) : StoreOp := if up then .inc k else .dec k

/-- `n` goroutines with one operation each -/
def eachOnce (op : StoreOp) (n : Nat) : List (List StoreOp) := List.replicate n [op]

/-- all are done -/
def AllDone (s : StoreSys) : Prop := ∀ c ∈ s.clients, c.todo = []

/-- the number that counting starts from: a value that is not an int counts as 0 -/
def countBase : Val → BitVec 64
  | .int x => x
  | _ => 0

/-- `m` more, or `m` less -/
def counted (up : Bool) (v : Val) (m : Nat) : BitVec 64 :=
  if up then countBase v + BitVec.ofNat 64 m else countBase v - BitVec.ofNat 64 m

end Spec
open Spec

/-- what is stored after `m` operations that counted -/
def countVal (up : Bool) (v : Val) (m : Nat) : Val := if m = 0 then v else .int (counted up v m)

/-- what the operation stores -/
def countNext (up : Bool) (v : Val) : BitVec 64 := if up then incremented v else decremented v

theorem ofNat_add_one (m : Nat) : BitVec.ofNat 64 (m + 1) = BitVec.ofNat 64 m + 1 := by
  apply BitVec.eq_of_toNat_eq
  simp [BitVec.toNat_add]

theorem countNext_val (up : Bool) (v : Val) (m : Nat) : countNext up (countVal up v m) = counted up v (m + 1) := by
  cases m with
  | zero => cases up <;> cases v <;> simp [countNext, countVal, counted, countBase, incremented, decremented]
  | succ m =>
    cases up
    · simp only [countNext, countVal, counted, decremented, Nat.succ_ne_zero, if_false, Bool.false_eq_true]
      rw [ofNat_add_one (m + 1)]
      generalize BitVec.ofNat 64 (m + 1) = y
      bv_omega
    · simp only [countNext, countVal, counted, incremented, Nat.succ_ne_zero, if_false, if_true]
      rw [ofNat_add_one (m + 1), BitVec.add_assoc]

theorem next_read (up : Bool) (k : Bytes) (st : Store) (rs : List Val) :
    Client.next st ⟨[countOp up k], none, rs⟩ = some (st, ⟨[countOp up k], some (st k), rs⟩) := by
  cases up <;> rfl

theorem next_write (up : Bool) (k : Bytes) (st : Store) (v : Val) (rs : List Val) :
    Client.next st ⟨[countOp up k], some v, rs⟩ =
      some (st.set k (.int (countNext up v)), ⟨[], none, rs ++ [.int (countNext up v)]⟩) := by
  cases up <;> rfl

/-- how many goroutines are done -/
def finished (cs : List Client) : Nat := cs.countP (fun c => c.todo = [])

/-- the goroutine has not begun, has read a value within the bounds, or is done -/
def ClientOk (up : Bool) (k : Bytes) (v : Val) (d : Nat) (c : Client) : Prop :=
  (c.todo = [countOp up k] ∧ (c.got = none ∨ ∃ m, c.got = some (countVal up v m) ∧ m ≤ d)) ∨ c.todo = []

structure CountOk (up : Bool) (k : Bytes) (v : Val) (n : Nat) (s : StoreSys) : Prop where
  len : s.clients.length = n
  val : ∃ m, s.store k = countVal up v m ∧ m ≤ finished s.clients ∧ (0 < finished s.clients → 1 ≤ m)
  each : ∀ c ∈ s.clients, ClientOk up k v (finished s.clients) c

theorem countP_set_of {α : Type} (p : α → Bool) (l : List α) (i : Nat) (a b : α) (h : l[i]? = some a)
    (ha : p a = false) : (l.set i b).countP p = l.countP p + if p b then 1 else 0 := by
  induction l generalizing i with
  | nil => simp at h
  | cons y l ih =>
    cases i with
    | zero =>
      simp at h
      subst h
      simp [List.countP_cons, ha]
    | succ i =>
      simp only [List.getElem?_cons_succ] at h
      simp only [List.set_cons_succ, List.countP_cons, ih i h]
      omega

theorem clientOk_mono {up : Bool} {k : Bytes} {v : Val} {d d' : Nat} {c : Client} (h : ClientOk up k v d c) (hd : d ≤ d') :
    ClientOk up k v d' c := by
  rcases h with ⟨h1, h2⟩ | h
  · refine .inl ⟨h1, h2.imp id ?_⟩
    rintro ⟨m, h3, h4⟩
    exact ⟨m, h3, Nat.le_trans h4 hd⟩
  · exact .inr h

theorem count_step {up : Bool} {k : Bytes} {v : Val} {n : Nat} {s s' : StoreSys} {i : Nat} (h : CountOk up k v n s)
    (hs : s.step i = some s') : CountOk up k v n s' := by
  unfold StoreSys.step at hs
  cases hc : s.clients[i]? with
  | none => simp [hc] at hs
  | some c =>
    rw [hc] at hs
    dsimp only at hs
    obtain ⟨m, v1, v2, v3⟩ := h.val
    have heach := h.each c (List.mem_of_getElem? hc)
    obtain ⟨todo, got, rs⟩ := c
    rcases heach with ⟨ht, hg⟩ | ht
    · dsimp only at ht hg
      subst ht
      rcases hg with hg | ⟨m', hg, hm'⟩
      · subst hg
        rw [next_read] at hs
        simp only [Option.some.injEq] at hs
        subst hs
        have hf : finished (s.clients.set i ⟨[countOp up k], some (s.store k), rs⟩) = finished s.clients := by
          unfold finished
          rw [countP_set_of _ _ _ _ _ hc (by simp)]
          simp
        refine ⟨by simp [h.len], ⟨m, v1, by rw [hf]; exact v2, by rw [hf]; exact v3⟩, ?_⟩
        intro y hy
        dsimp only at hy ⊢
        rw [hf]
        rcases List.mem_or_eq_of_mem_set hy with hy | rfl
        · exact h.each y hy
        · exact .inl ⟨rfl, .inr ⟨m, by rw [v1], v2⟩⟩
      · subst hg
        rw [next_write] at hs
        simp only [Option.some.injEq] at hs
        subst hs
        rw [countNext_val]
        have hf : finished (s.clients.set i ⟨[], none, rs ++ [.int (counted up v (m' + 1))]⟩) = finished s.clients + 1 := by
          unfold finished
          rw [countP_set_of _ _ _ _ _ hc (by simp)]
          simp
        refine ⟨by simp [h.len], ⟨m' + 1, by simp [Store.set, countVal], by rw [hf]; omega, by omega⟩, ?_⟩
        intro y hy
        dsimp only at hy ⊢
        rw [hf]
        rcases List.mem_or_eq_of_mem_set hy with hy | rfl
        · exact clientOk_mono (h.each y hy) (by omega)
        · exact .inr rfl
    · dsimp only at ht
      subst ht
      simp [Client.next] at hs

theorem count_reach {up : Bool} {k : Bytes} {n : Nat} {st : Store} {s : StoreSys}
    (h : StoreSys.Reach st (eachOnce (countOp up k) n) s) : CountOk up k (st k) n s := by
  induction h with
  | init =>
    have hf : finished (StoreSys.init st (eachOnce (countOp up k) n)).clients = 0 := by
      unfold finished
      rw [List.countP_eq_zero]
      intro c hc
      simp [StoreSys.init, eachOnce] at hc
      simp [hc.2]
    refine ⟨by simp [StoreSys.init, eachOnce], ⟨0, by simp [StoreSys.init, countVal], by simp, by rw [hf]; omega⟩, ?_⟩
    intro c hc
    simp [StoreSys.init, eachOnce] at hc
    exact .inl ⟨by simp [hc.2], .inl (by simp [hc.2])⟩
  | step _ hs ih => exact count_step ih hs

/-- C76: `n` concurrent Increments (Decrements) of one key leave at least one and at most `n` more
(less) than before, in every interleaving. -/
theorem c76_bounds {up : Bool} {k : Bytes} {n : Nat} {st : Store} {s : StoreSys} (hn : 0 < n)
    (h : StoreSys.Reach st (eachOnce (countOp up k) n) s) (hd : AllDone s) :
    ∃ m, 1 ≤ m ∧ m ≤ n ∧ s.store k = .int (counted up (st k) m) := by
  have hc := count_reach h
  have hf : finished s.clients = n := by
    rw [← hc.len]
    unfold finished
    rw [List.countP_eq_length]
    intro c hm
    simp [hd c hm]
  obtain ⟨m, h1, h2, h3⟩ := hc.val
  have hm := h3 (by omega)
  refine ⟨m, hm, by omega, ?_⟩
  rw [h1, countVal, if_neg (by omega)]

/-! ### Every value in between happens -/

/-- the goroutines: those before `a` have written, those from there to `b` have read `v`, the others have not begun -/
def staged (up : Bool) (k : Bytes) (v : Val) (rs : Nat → List Val) (n a b : Nat) : List Client :=
  (List.range n).map (fun i => if i < a then ⟨[], none, rs i⟩ else if i < b then ⟨[countOp up k], some v, []⟩
    else ⟨[countOp up k], none, []⟩)

theorem staged_get (up : Bool) (k : Bytes) (v : Val) (rs : Nat → List Val) (n a b i : Nat) (h : i < n) :
    (staged up k v rs n a b)[i]? = some (if i < a then ⟨[], none, rs i⟩ else if i < b then ⟨[countOp up k], some v, []⟩
      else ⟨[countOp up k], none, []⟩) := by
  simp [staged, h]

theorem staged_none (up : Bool) (k : Bytes) (v : Val) (rs : Nat → List Val) (n a b i : Nat) (h : ¬ i < n) :
    (staged up k v rs n a b)[i]? = none := by
  simp [staged]; omega

theorem staged_length (up : Bool) (k : Bytes) (v : Val) (rs : Nat → List Val) (n a b : Nat) :
    (staged up k v rs n a b).length = n := by simp [staged]

/-- one goroutine moves on -/
theorem staged_set {up : Bool} {k : Bytes} {v : Val} {rs rs' : Nat → List Val} {n a b a' b' i : Nat} {c : Client} (hi : i < n)
    (hc : some c = (staged up k v rs' n a' b')[i]?)
    (ho : ∀ j, j ≠ i → (j < a' ↔ j < a) ∧ (j < b' ↔ j < b) ∧ rs' j = rs j) :
    (staged up k v rs n a b).set i c = staged up k v rs' n a' b' := by
  apply List.ext_getElem?
  intro j
  rw [List.getElem?_set]
  by_cases hij : i = j
  · subst hij
    rw [if_pos rfl, staged_length, if_pos hi]
    exact hc
  · rw [if_neg hij]
    obtain ⟨h1, h2, h3⟩ := ho j (fun h => hij h.symm)
    by_cases hj : j < n
    · rw [staged_get _ _ _ _ _ _ _ _ hj, staged_get _ _ _ _ _ _ _ _ hj]
      simp only [h1, h2, h3]
    · rw [staged_none _ _ _ _ _ _ _ _ hj, staged_none _ _ _ _ _ _ _ _ hj]

/-- the first `b` goroutines read -/
theorem reach_reads (up : Bool) (k : Bytes) (n : Nat) (st : Store) (b : Nat) (hb : b ≤ n) :
    StoreSys.Reach st (eachOnce (countOp up k) n) ⟨st, staged up k (st k) (fun _ => []) n 0 b⟩ := by
  induction b with
  | zero =>
    have : (⟨st, staged up k (st k) (fun _ => []) n 0 0⟩ : StoreSys) = StoreSys.init st (eachOnce (countOp up k) n) := by
      simp [StoreSys.init, eachOnce, staged, List.map_const']
    rw [this]
    exact .init
  | succ b ih =>
    refine .step (i := b) (ih (by omega)) ?_
    have hg := staged_get up k (st k) (fun _ => []) n 0 b b (by omega)
    simp at hg
    simp only [StoreSys.step, hg, next_read, Option.some.injEq, StoreSys.mk.injEq, true_and]
    refine staged_set (by omega) ?_ (fun j hj => ⟨Iff.rfl, by omega, rfl⟩)
    rw [staged_get _ _ _ _ _ _ _ _ (by omega)]
    simp

/-- they write, one after the other -/
theorem reach_writes (up : Bool) (k : Bytes) (n : Nat) (st : Store) (b : Nat) (hb : b ≤ n) (a : Nat) (ha : a ≤ b) :
    ∃ st' rs, StoreSys.Reach st (eachOnce (countOp up k) n) ⟨st', staged up k (st k) rs n a b⟩ ∧
      (0 < a → st' k = countVal up (st k) 1) := by
  induction a with
  | zero => exact ⟨st, _, reach_reads up k n st b hb, by omega⟩
  | succ a ih =>
    obtain ⟨st', rs, hr, _⟩ := ih (by omega)
    have hg := staged_get up k (st k) rs n a b a (by omega)
    simp [show a < b by omega] at hg
    refine ⟨st'.set k (.int (countNext up (st k))), fun i => if i = a then [.int (countNext up (st k))] else rs i,
      .step (i := a) hr ?_, ?_⟩
    · simp only [StoreSys.step, hg, next_write, Option.some.injEq, StoreSys.mk.injEq, true_and]
      refine staged_set (by omega) ?_ (fun j hj => ⟨by omega, Iff.rfl, by simp [hj]⟩)
      rw [staged_get _ _ _ _ _ _ _ _ (by omega)]
      simp
    · intro _
      have := countNext_val up (st k) 0
      simp only [countVal, if_true] at this
      simp [Store.set, this, countVal]

/-- the others count, one after the other -/
theorem reach_rest (up : Bool) (k : Bytes) (n : Nat) (st : Store) (b : Nat) (hb : b ≤ n) (h0 : 0 < b) (j : Nat)
    (hj : b + j ≤ n) : ∃ st' rs, StoreSys.Reach st (eachOnce (countOp up k) n) ⟨st', staged up k (st k) rs n (b + j) (b + j)⟩ ∧
      st' k = countVal up (st k) (1 + j) := by
  induction j with
  | zero =>
    obtain ⟨st', rs, h1, h2⟩ := reach_writes up k n st b hb b (Nat.le_refl b)
    exact ⟨st', rs, h1, h2 h0⟩
  | succ j ih =>
    obtain ⟨st', rs, hr, hv⟩ := ih (by omega)
    have hg := staged_get up k (st k) rs n (b + j) (b + j) (b + j) (by omega)
    simp at hg
    refine ⟨st'.set k (.int (countNext up (st' k))), fun i => if i = b + j then [.int (countNext up (st' k))] else rs i,
      .step (i := b + j) (.step (i := b + j) hr (by simp only [StoreSys.step, hg, next_read]; rfl)) ?_, ?_⟩
    · simp only [StoreSys.step, List.getElem?_set, staged_length, if_true, show b + j < n by omega, next_write,
        Option.some.injEq, StoreSys.mk.injEq, true_and, List.set_set]
      refine staged_set (by omega) ?_ (fun i hi => ⟨by omega, by omega, by simp [hi]⟩)
      rw [staged_get _ _ _ _ _ _ _ _ (by omega)]
      simp [show b + j < b + (j + 1) by omega]
    · simp only [Store.set, if_true]
      rw [hv, countNext_val, countVal, if_neg (by omega)]
      rfl

/-- C76: and each of these values is the outcome of some interleaving. So exactly the values from
one to `n` more (less) are possible. -/
theorem c76_every (up : Bool) (k : Bytes) (st : Store) {n m : Nat} (h1 : 1 ≤ m) (h2 : m ≤ n) :
    ∃ s, StoreSys.Reach st (eachOnce (countOp up k) n) s ∧ AllDone s ∧ s.store k = .int (counted up (st k) m) := by
  obtain ⟨st', rs, hr, hv⟩ := reach_rest up k n st (n - m + 1) (by omega) (by omega) (m - 1) (by omega)
  refine ⟨_, hr, ?_, ?_⟩
  · intro c hc
    have he : n - m + 1 + (m - 1) = n := by omega
    rw [he] at hc
    simp only [staged, List.mem_map, List.mem_range] at hc
    obtain ⟨i, hi, rfl⟩ := hc
    simp [hi]
  · show st' k = _
    have : 1 + (m - 1) = m := by omega
    rw [hv, this, countVal, if_neg (by omega)]

/-- C76, both directions at once. -/
theorem c76_exact (up : Bool) (k : Bytes) (st : Store) (n : Nat) (hn : 0 < n) (y : Val) :
    (∃ s, StoreSys.Reach st (eachOnce (countOp up k) n) s ∧ AllDone s ∧ s.store k = y) ↔
      ∃ m, 1 ≤ m ∧ m ≤ n ∧ y = .int (counted up (st k) m) := by
  constructor
  · rintro ⟨s, h1, h2, rfl⟩
    exact c76_bounds hn h1 h2
  · rintro ⟨m, h1, h2, rfl⟩
    exact c76_every up k st h1 h2

/-- three goroutines, two of the increments lost -/
example : ∃ s, StoreSys.Reach (fun _ => .int 5) (eachOnce (.inc (b! "n")) 3) s ∧ AllDone s ∧
    s.store (b! "n") = .int 6 :=
  c76_every true (b! "n") _ (n := 3) (m := 1) (by omega) (by omega)

/-- none lost, from a key that was never set -/
example : ∃ s, StoreSys.Reach (fun _ => .nil) (eachOnce (.dec (b! "n")) 3) s ∧ AllDone s ∧
    s.store (b! "n") = .int (-3) :=
  c76_every false (b! "n") _ (n := 3) (m := 3) (by omega) (by omega)

end Neffos
