import Verif.Model.Store
/-!
# C48: the store of a connection
-/
set_option autoImplicit false
namespace Neffos

/-! ## One goroutine -/

/-- run operations one after the other; the results, oldest first -/
def runStore (st : Store) : List StoreOp → Store × List Val
  | [] => (st, [])
  | op :: ops =>
    let r := op.run st
    let r' := runStore r.1 ops
    (r'.1, r.2 :: r'.2)

/-- the value that the last operation of a list on a key leaves, by the English rules:
Set gives its value, Increment adds one to an int and gives 1 otherwise, Decrement
subtracts one from an int and gives -1 otherwise -/
def valueAfter (k : Bytes) (v : Val) : List StoreOp → Val
  | [] => v
  | .set k' v' :: ops => valueAfter k (if k' = k then v' else v) ops
  | .get _ :: ops => valueAfter k v ops
  | .inc k' :: ops =>
    valueAfter k (if k' = k then (match v with | .int n => .int (n + 1) | _ => .int 1) else v) ops
  | .dec k' :: ops =>
    valueAfter k (if k' = k then (match v with | .int n => .int (n - 1) | _ => .int (-1)) else v) ops

/-- C48: after any operations, Get gives the value that the operations on this key alone
left: operations on other keys do not matter. -/
theorem c48_value (st : Store) (ops : List StoreOp) (k : Bytes) :
    (StoreOp.run (runStore st ops).1 (.get k)).2 = valueAfter k (st k) ops := by
  induction ops generalizing st with
  | nil => rfl
  | cons op ops ih =>
    have : (runStore st (op :: ops)).1 = (runStore (op.run st).1 ops).1 := rfl
    rw [this, ih]
    cases op with
    | set k' v =>
      simp only [StoreOp.run, valueAfter, Store.set]
      by_cases h : k' = k
      · simp [h]
      · simp [h, Ne.symm h]
    | get k' => rfl
    | inc k' =>
      simp only [StoreOp.run, valueAfter, Store.set]
      by_cases h : k' = k
      · subst h; cases st k' <;> simp [incremented]
      · simp [h, Ne.symm h]
    | dec k' =>
      simp only [StoreOp.run, valueAfter, Store.set]
      by_cases h : k' = k
      · subst h; cases st k' <;> simp [decremented]
      · simp [h, Ne.symm h]

/-- C48: Get gives the last value that was Set. -/
theorem c48_set_get (st : Store) (k : Bytes) (v : Val) (ops : List StoreOp)
    (ho : ∀ op ∈ ops, op.key ≠ k ∨ ∃ k', op = .get k') :
    (StoreOp.run (runStore st (.set k v :: ops)).1 (.get k)).2 = v := by
  rw [c48_value]
  simp only [valueAfter, if_true]
  induction ops with
  | nil => rfl
  | cons op ops ih =>
    have ih' := ih (fun o h => ho o (List.mem_cons_of_mem _ h))
    have h := ho op (by simp)
    cases op with
    | get k' => exact ih'
    | set k' v' =>
      have : k' ≠ k := h.elim (fun h => h) (fun ⟨_, h⟩ => by cases h)
      simp only [valueAfter, this, if_false]; exact ih'
    | inc k' =>
      have : k' ≠ k := h.elim (fun h => h) (fun ⟨_, h⟩ => by cases h)
      simp only [valueAfter, this, if_false]; exact ih'
    | dec k' =>
      have : k' ≠ k := h.elim (fun h => h) (fun ⟨_, h⟩ => by cases h)
      simp only [valueAfter, this, if_false]; exact ih'

/-- C48: a key that was never set reads as nil. -/
theorem c48_unset (k : Bytes) (ops : List StoreOp) (ho : ∀ op ∈ ops, op.key ≠ k) :
    (StoreOp.run (runStore (fun _ => .nil) ops).1 (.get k)).2 = .nil := by
  rw [c48_value]
  suffices h : ∀ v, valueAfter k v ops = v from h _
  induction ops with
  | nil => intro v; rfl
  | cons op ops ih =>
    intro v
    have ih' := ih (fun o h => ho o (List.mem_cons_of_mem _ h))
    have h := ho op (by simp)
    cases op with
    | get k' => exact ih' v
    | set k' v' =>
      have : k' ≠ k := h
      simp only [valueAfter, this, if_false]; exact ih' v
    | inc k' =>
      have : k' ≠ k := h
      simp only [valueAfter, this, if_false]; exact ih' v
    | dec k' =>
      have : k' ≠ k := h
      simp only [valueAfter, this, if_false]; exact ih' v

/-- C48: Increment and Decrement return the value they leave. -/
theorem c48_returns (st : Store) (k : Bytes) :
    (StoreOp.run st (.inc k)).2 = (StoreOp.run (StoreOp.run st (.inc k)).1 (.get k)).2 ∧
    (StoreOp.run st (.dec k)).2 = (StoreOp.run (StoreOp.run st (.dec k)).1 (.get k)).2 := by
  simp [StoreOp.run, Store.set]

/-- C48: any number of Increments after each other count. -/
theorem c48_count (st : Store) (k : Bytes) (x : BitVec 64) (hx : st k = .int x) (n : Nat) :
    (runStore st (List.replicate n (.inc k))).1 k = .int (x + BitVec.ofNat 64 n) := by
  induction n generalizing st x with
  | zero => simp [runStore, hx]
  | succ n ih =>
    have h1 : (StoreOp.run st (.inc k)).1 k = .int (x + 1) := by
      simp [StoreOp.run, Store.set, hx, incremented]
    have := ih _ _ h1
    rw [List.replicate_succ]
    show (runStore (StoreOp.run st (.inc k)).1 (List.replicate n (.inc k))).1 k = _
    rw [this]
    congr 1
    rw [BitVec.add_assoc, BitVec.add_comm 1]
    congr 1
    apply BitVec.eq_of_toNat_eq
    simp [BitVec.toNat_add, BitVec.toNat_ofNat]

example : (runStore (fun _ => .nil) [.set (b! "a") (.other 7), .inc (b! "b"), .inc (b! "b"),
    .dec (b! "a"), .get (b! "b")]).2 = [.nil, .int 1, .int 2, .int (-1), .int 2] := by
  decide +kernel

/-! ## Many goroutines -/

/-- C48 fails: two goroutines increment the same key once each and one increment is lost. -/
theorem c48_lost_refuted : ∃ s : StoreSys,
    StoreSys.Reach (fun _ => .nil) [[.inc (b! "n")], [.inc (b! "n")]] s ∧
    (∀ c ∈ s.clients, c.todo = []) ∧ s.store (b! "n") = .int 1 := by
  refine ⟨_, .step (i := 1) (.step (i := 0) (.step (i := 1) (.step (i := 0) .init rfl) rfl) rfl) rfl,
    by decide +kernel, by decide +kernel⟩

/-- different goroutines use different keys -/
def Separate (progs : List (List StoreOp)) : Prop :=
  ∀ (i j : Nat) (p q : List StoreOp), i ≠ j → progs[i]? = some p → progs[j]? = some q →
    ∀ o ∈ p, ∀ o' ∈ q, o.key ≠ o'.key

theorem runStore_append (st : Store) (a b : List StoreOp) :
    runStore st (a ++ b) = ((runStore (runStore st a).1 b).1, (runStore st a).2 ++ (runStore (runStore st a).1 b).2) := by
  induction a generalizing st with
  | nil => rfl
  | cons o a ih =>
    simp only [List.cons_append, runStore]
    rw [ih]

theorem run_local (st st' : Store) (o : StoreOp) (h : st o.key = st' o.key) :
    (o.run st).2 = (o.run st').2 ∧ ((o.run st).1 o.key = (o.run st').1 o.key) := by
  cases o <;> simp_all [StoreOp.run, Store.set, StoreOp.key]

theorem run_other (st : Store) (o : StoreOp) (k : Bytes) (h : o.key ≠ k) : (o.run st).1 k = st k := by
  have h' : k ≠ o.key := Ne.symm h
  cases o <;> simp_all [StoreOp.run, Store.set, StoreOp.key]

/-- what is true of a client at any time -/
def Steps (st0 st : Store) (p : List StoreOp) (c : Client) : Prop :=
  ∃ d, p = d ++ c.todo ∧ c.results = (runStore st0 d).2 ∧
    (∀ o ∈ p, st o.key = (runStore st0 d).1 o.key) ∧
    (∀ v, c.got = some v → ∃ o rest, c.todo = o :: rest ∧ v = st o.key)

theorem next_steps {st0 st st' : Store} {p : List StoreOp} {c c' : Client}
    (h : Steps st0 st p c) (hn : c.next st = some (st', c')) :
    Steps st0 st' p c' ∧ ∀ k, (∀ o ∈ p, o.key ≠ k) → st' k = st k := by
  obtain ⟨d, hp, hr, hs, hg⟩ := h
  have done : ∀ (o : StoreOp) (rest : List StoreOp), c.todo = o :: rest →
      st' = (o.run st).1 → c' = ⟨rest, none, c.results ++ [(o.run st).2]⟩ →
      Steps st0 st' p c' ∧ ∀ k, (∀ o ∈ p, o.key ≠ k) → st' k = st k := by
    intro o rest ht e1 e2
    have ho : o ∈ p := by rw [hp, ht]; simp
    have hl := run_local st (runStore st0 d).1 o (hs o ho)
    refine ⟨⟨d ++ [o], by rw [e2, hp, ht]; simp, ?_, ?_, by simp [e2]⟩, ?_⟩
    · rw [e2, runStore_append]
      simp only [runStore, hr, hl.1]
    · intro o' ho'
      rw [e1, runStore_append]
      simp only [runStore]
      by_cases hk : o.key = o'.key
      · rw [← hk]; exact hl.2
      · rw [run_other _ _ _ hk, run_other _ _ _ hk]; exact hs o' ho'
    · intro k hk
      rw [e1, run_other _ _ _ (hk o ho)]
  unfold Client.next at hn
  split at hn
  · cases hn
  · rename_i k v rest ht
    cases hn
    exact done _ _ ht rfl rfl
  · rename_i k rest ht
    cases hn
    exact done _ _ ht rfl rfl
  · rename_i k rest ht
    split at hn
    · cases hn
      refine ⟨⟨d, hp, hr, hs, ?_⟩, fun _ _ => rfl⟩
      intro v hv
      cases hv
      exact ⟨_, rest, ht, rfl⟩
    · rename_i v hv
      cases hn
      obtain ⟨o, rest', h1, h2⟩ := hg v hv
      rw [ht] at h1
      cases h1
      have h2' : v = st k := h2
      subst h2'
      exact done _ _ ht rfl rfl
  · rename_i k rest ht
    split at hn
    · cases hn
      refine ⟨⟨d, hp, hr, hs, ?_⟩, fun _ _ => rfl⟩
      intro v hv
      cases hv
      exact ⟨_, rest, ht, rfl⟩
    · rename_i v hv
      cases hn
      obtain ⟨o, rest', h1, h2⟩ := hg v hv
      rw [ht] at h1
      cases h1
      have h2' : v = st k := h2
      subst h2'
      exact done _ _ ht rfl rfl

theorem steps_keep {st0 st st' : Store} {p : List StoreOp} {c : Client} (h : Steps st0 st p c)
    (hk : ∀ o ∈ p, st' o.key = st o.key) : Steps st0 st' p c := by
  obtain ⟨d, hp, hr, hs, hg⟩ := h
  refine ⟨d, hp, hr, fun o ho => by rw [hk o ho]; exact hs o ho, fun v hv => ?_⟩
  obtain ⟨o, rest, h1, h2⟩ := hg v hv
  refine ⟨o, rest, h1, ?_⟩
  rw [hk o (by rw [hp, h1]; simp)]; exact h2

theorem reach_steps {st0 : Store} {progs : List (List StoreOp)} {s : StoreSys}
    (hsep : Separate progs) (h : StoreSys.Reach st0 progs s) :
    s.clients.length = progs.length ∧
    ∀ (i : Nat) (p : List StoreOp) (c : Client), progs[i]? = some p → s.clients[i]? = some c → Steps st0 s.store p c := by
  induction h with
  | init =>
    refine ⟨by simp [StoreSys.init], fun i p c hp hc => ?_⟩
    simp only [StoreSys.init, List.getElem?_map, hp, Option.map_some, Option.some.injEq] at hc
    subst hc
    exact ⟨[], rfl, rfl, fun _ _ => rfl, by simp⟩
  | @step s s' j _ hst ih =>
    obtain ⟨hlen, ih⟩ := ih
    unfold StoreSys.step at hst
    split at hst
    · cases hst
    · rename_i cj hcj
      split at hst
      · cases hst
      · rename_i st' cj' hn
        cases hst
        refine ⟨by simpa using hlen, fun i p c hp hc => ?_⟩
        have hjlt : j < s.clients.length := (List.getElem?_eq_some_iff.mp hcj).1
        obtain ⟨pj, hpj⟩ : ∃ pj, progs[j]? = some pj :=
          ⟨progs[j]'(hlen ▸ hjlt), List.getElem?_eq_getElem _⟩
        have hstep := next_steps (ih j pj cj hpj hcj) hn
        by_cases e : j = i
        · subst e
          rw [hpj] at hp; cases hp
          rw [List.getElem?_set_self hjlt] at hc
          cases hc
          exact hstep.1
        · have hc' : s.clients[i]? = some c := by
            have : (s.clients.set j cj')[i]? = some c := hc
            rwa [List.getElem?_set_ne e] at this
          refine steps_keep (ih i p c hp hc') (fun o ho => hstep.2 _ ?_)
          intro o' ho'
          exact hsep j i pj p e hpj hp o' ho' o ho

/-- C48, partial: under any interleaving of any number of goroutines that use different keys,
when a goroutine is finished, its operations returned and its keys hold what they would if it
had been alone. So nothing is lost then. -/
theorem c48_separate_partial {st0 : Store} {progs : List (List StoreOp)} {s : StoreSys}
    (hsep : Separate progs) (h : StoreSys.Reach st0 progs s) {i : Nat} {p : List StoreOp}
    {c : Client} (hp : progs[i]? = some p) (hc : s.clients[i]? = some c) (hd : c.todo = []) :
    c.results = (runStore st0 p).2 ∧ ∀ o ∈ p, s.store o.key = (runStore st0 p).1 o.key := by
  obtain ⟨d, h1, h2, h3, _⟩ := (reach_steps hsep h).2 i p c hp hc
  rw [hd, List.append_nil] at h1
  subst h1
  exact ⟨h2, h3⟩

example : ∃ s, Separate [[.inc (b! "n")], [.inc (b! "m"), .inc (b! "m")]] ∧
    StoreSys.Reach (fun _ => .nil) [[.inc (b! "n")], [.inc (b! "m"), .inc (b! "m")]] s ∧
    (∀ c ∈ s.clients, c.todo = []) ∧ s.store (b! "m") = .int 2 := by
  refine ⟨_, ?_, .step (i := 1) (.step (i := 1) (.step (i := 0) (.step (i := 1) (.step (i := 0)
    (.step (i := 1) .init rfl) rfl) rfl) rfl) rfl) rfl, by decide +kernel, by decide +kernel⟩
  intro i j p q hij hp hq o ho o' ho'
  match i, j with
  | 0, 0 => exact absurd rfl hij
  | 0, 1 => cases hp; cases hq; revert ho ho'; simp; rintro rfl rfl; decide
  | 1, 0 => cases hp; cases hq; revert ho ho'; simp; rintro rfl rfl; decide
  | 1, 1 => exact absurd rfl hij
  | i + 2, _ => simp at hp
  | 0, j + 2 => simp at hq
  | 1, j + 2 => simp at hq

end Neffos
