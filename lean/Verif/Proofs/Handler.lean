import Verif.Model.Handler
import Verif.Proofs.ConnClose
/-!
# Lemmas about handlers
-/
set_option autoImplicit false
namespace Neffos

variable {α : Type}

theorem Heap.at_put (h : Heap α) (p q : Nat) (k : Bytes) (v : α) :
    (h.put p k v).at q = if p = q ∧ q < h.length then mapSet (h.at q) k v else h.at q := by
  unfold Heap.at Heap.put
  rw [List.getElem?_modify]
  by_cases e : p = q
  · subst e
    by_cases hl : p < h.length
    · simp [hl]
    · simp [hl]
  · simp [e]

theorem Heap.length_put (h : Heap α) (p : Nat) (k : Bytes) (v : α) :
    (h.put p k v).length = h.length := by unfold Heap.put; simp

/-- the loop of `copyInto` -/
def copyLoop (src dst : Nat) (ks : List Bytes) (h : Heap α) : Heap α :=
  ks.foldl (fun h evt =>
      match mapGet (h.at src) evt with
      | some cb => h.put dst evt cb
      | none => h) h

theorem copyLoop_length (src dst : Nat) (ks : List Bytes) (h : Heap α) :
    (copyLoop src dst ks h).length = h.length := by
  unfold copyLoop
  induction ks generalizing h with
  | nil => rfl
  | cons k ks ih =>
    rw [List.foldl_cons, ih]
    split
    · exact Heap.length_put _ _ _ _
    · rfl

theorem copyLoop_other (src dst : Nat) (ks : List Bytes) (h : Heap α) (q : Nat) (hq : q ≠ dst) :
    (copyLoop src dst ks h).at q = h.at q := by
  unfold copyLoop
  induction ks generalizing h with
  | nil => rfl
  | cons k ks ih =>
    rw [List.foldl_cons, ih]
    split
    · rw [Heap.at_put, if_neg (fun e => hq e.1.symm)]
    · rfl

theorem copyLoop_dst (src dst : Nat) (ks : List Bytes) (h : Heap α) (hne : src ≠ dst)
    (hd : dst < h.length) (ev : Bytes) :
    mapGet ((copyLoop src dst ks h).at dst) ev =
      if ev ∈ ks ∧ (mapGet (h.at src) ev).isSome then mapGet (h.at src) ev
      else mapGet (h.at dst) ev := by
  unfold copyLoop
  induction ks generalizing h with
  | nil => simp
  | cons k ks ih =>
    rw [List.foldl_cons]
    cases hk : mapGet (h.at src) k with
    | none =>
      dsimp only
      rw [ih h hd]
      by_cases e : ev = k
      · subst e; simp [hk]
      · simp [e]
    | some cb =>
      dsimp only
      rw [ih _ (by rw [Heap.length_put]; exact hd)]
      have h1 : (h.put dst k cb).at src = h.at src := by
        rw [Heap.at_put, if_neg (fun e => hne e.1.symm)]
      have h2 : (h.put dst k cb).at dst = mapSet (h.at dst) k cb := by
        rw [Heap.at_put, if_pos ⟨rfl, hd⟩]
      rw [h1, h2, mapGet_mapSet]
      by_cases e : ev = k
      · subst e; simp [hk]
      · simp [e]

/-- the callback for a namespace and event in the result -/
def JoinSt.look (s : JoinSt α) (ns ev : Bytes) : Option α :=
  match mapGet s.out ns with
  | some q => mapGet (s.heap.at q) ev
  | none => none

theorem copyInto_heap (rg : Ranges) (src dst : Nat) (s : JoinSt α) :
    (copyInto rg src dst s).heap =
      copyLoop src dst (rg.order s.tick ((s.heap.at src).map (·.1))) s.heap := rfl

theorem mem_order (rg : Ranges) (n : Nat) (m : List (Bytes × α)) (ev : Bytes) :
    ev ∈ rg.order n (m.map (·.1)) ↔ (mapGet m ev).isSome := by
  rw [(rg.perm n _).mem_iff, mapGet_isSome_iff]

theorem copyInto_dst (rg : Ranges) (src dst : Nat) (s : JoinSt α) (hne : src ≠ dst)
    (hd : dst < s.heap.length) (ev : Bytes) :
    mapGet ((copyInto rg src dst s).heap.at dst) ev =
      (mapGet (s.heap.at src) ev).or (mapGet (s.heap.at dst) ev) := by
  rw [copyInto_heap, copyLoop_dst _ _ _ _ hne hd]
  simp only [mem_order]
  cases mapGet (s.heap.at src) ev <;> simp

/-- what joining keeps true: the maps that existed are unchanged, the maps of the result are
new and different -/
structure Joined (heap0 : Heap α) (s : JoinSt α) : Prop where
  len : heap0.length ≤ s.heap.length
  old : ∀ p, p < heap0.length → s.heap.at p = heap0.at p
  fresh : ∀ ns q, mapGet s.out ns = some q → heap0.length ≤ q ∧ q < s.heap.length
  inj : ∀ ns ns' q, mapGet s.out ns = some q → mapGet s.out ns' = some q → ns = ns'

theorem at_alloc (h : Heap α) (q : Nat) (hq : q < h.length) : Heap.at (h ++ [[]]) q = h.at q := by
  unfold Heap.at
  rw [List.getElem?_append_left hq]

theorem at_alloc_new (h : Heap α) : Heap.at (h ++ [[]]) h.length = [] := by
  unfold Heap.at; simp

/-- the changes of one round -/
theorem joinOne_spec (rg : Ranges) (nss : NsMap) {heap0 : Heap α} {s : JoinSt α} (ns : Bytes)
    (hv : ∀ n p, mapGet nss n = some (some p) → p < heap0.length) (hj : Joined heap0 s) :
    Joined heap0 (joinOne rg nss s ns) ∧
    (∀ n ev, (joinOne rg nss s ns).look n ev =
      match mapGet nss n with
      | some (some p) => if n = ns then (mapGet (heap0.at p) ev).or (s.look n ev) else s.look n ev
      | _ => s.look n ev) ∧
    (∀ n, (mapGet (joinOne rg nss s ns).out n).isSome =
      ((mapGet s.out n).isSome || (n = ns && match mapGet nss n with
        | some (some _) => true
        | _ => false))) := by
  unfold joinOne
  cases hn : mapGet nss ns with
  | none =>
    refine ⟨hj, fun n ev => ?_, fun n => ?_⟩
    · dsimp only; split
      · rename_i p hp
        rw [if_neg (fun e => by rw [e, hn] at hp; simp at hp)]
      · rfl
    · by_cases e : n = ns
      · subst e; simp [hn]
      · simp [e]
  | some op =>
    cases op with
    | none =>
      refine ⟨hj, fun n ev => ?_, fun n => ?_⟩
      · dsimp only; split
        · rename_i p hp
          rw [if_neg (fun e => by rw [e, hn] at hp; simp at hp)]
        · rfl
      · by_cases e : n = ns
        · subst e; simp [hn]
        · simp [e]
    | some p =>
      have hp := hv _ _ hn
      have hps : p < s.heap.length := Nat.lt_of_lt_of_le hp hj.len
      dsimp only
      generalize hs1 : copyInto rg p s.heap.length { s with heap := s.heap ++ [[]] } = s1
      have hout : s1.out = s.out := by rw [← hs1]; rfl
      have hl1 : s1.heap.length = s.heap.length + 1 := by
        rw [← hs1, copyInto_heap, copyLoop_length]; simp
      have hold1 : ∀ q, q < s.heap.length → s1.heap.at q = s.heap.at q := by
        intro q hq
        rw [← hs1, copyInto_heap, copyLoop_other _ _ _ _ _ (Nat.ne_of_lt hq)]
        exact at_alloc _ _ hq
      have hnew1 : ∀ ev, mapGet (s1.heap.at s.heap.length) ev = mapGet (heap0.at p) ev := by
        intro ev
        rw [← hs1, copyInto_dst _ _ _ _ (Nat.ne_of_lt hps) (by simp)]
        dsimp only
        rw [at_alloc _ _ hps, at_alloc_new, hj.old p hp]
        cases mapGet (heap0.at p) ev <;> rfl
      rw [hout]
      cases hc : mapGet s.out ns with
      | some cur =>
        dsimp only
        obtain ⟨f1, f2⟩ := hj.fresh _ _ hc
        have f3 : cur < s1.heap.length := by rw [hl1]; exact Nat.lt_succ_of_lt f2
        have hlen2 : (copyInto rg s.heap.length cur s1).heap.length = s.heap.length + 1 := by
          rw [copyInto_heap, copyLoop_length, hl1]
        have hoth : ∀ q, q ≠ cur → q < s.heap.length →
            (copyInto rg s.heap.length cur s1).heap.at q = s.heap.at q := by
          intro q h1 h2
          rw [copyInto_heap, copyLoop_other _ _ _ _ _ h1, hold1 q h2]
        have hcur : ∀ ev, mapGet ((copyInto rg s.heap.length cur s1).heap.at cur) ev =
            (mapGet (heap0.at p) ev).or (mapGet (s.heap.at cur) ev) := by
          intro ev
          rw [copyInto_dst _ _ _ _ (Ne.symm (Nat.ne_of_lt f2)) f3, hnew1, hold1 cur f2]
        have hout2 : (copyInto rg s.heap.length cur s1).out = s.out := by
          rw [← hout]; rfl
        refine ⟨⟨?_, ?_, ?_, ?_⟩, ?_, ?_⟩
        · rw [hlen2]; exact Nat.le_succ_of_le hj.len
        · intro q hq
          rw [hoth q (Nat.ne_of_lt (Nat.lt_of_lt_of_le hq f1)) (Nat.lt_of_lt_of_le hq hj.len)]
          exact hj.old q hq
        · intro n q h
          rw [hout2] at h
          rw [hlen2]
          exact ⟨(hj.fresh _ _ h).1, Nat.lt_succ_of_lt (hj.fresh _ _ h).2⟩
        · intro n n' q h h'
          rw [hout2] at h h'
          exact hj.inj _ _ _ h h'
        · intro n ev
          unfold JoinSt.look
          rw [hout2]
          by_cases e : n = ns
          · subst e
            rw [hn, hc]
            simp [hcur]
          · cases ho : mapGet s.out n with
            | none => dsimp only; split <;> simp [e]
            | some q =>
              have hq := hj.fresh _ _ ho
              have : q ≠ cur := fun e' => e (hj.inj n ns q ho (e' ▸ hc))
              dsimp only
              rw [hoth q this hq.2]
              split <;> simp [e]
        · intro n
          rw [hout2]
          by_cases e : n = ns
          · subst e; simp [hc]
          · simp [e]
      | none =>
        dsimp only
        refine ⟨⟨?_, ?_, ?_, ?_⟩, ?_, ?_⟩
        · rw [hl1]; exact Nat.le_succ_of_le hj.len
        · intro q hq
          rw [hold1 q (Nat.lt_of_lt_of_le hq hj.len)]
          exact hj.old q hq
        · intro n q h
          rw [mapGet_mapSet] at h
          rw [hl1]
          split at h
          · cases h
            exact ⟨hj.len, Nat.lt_succ_self _⟩
          · exact ⟨(hj.fresh _ _ h).1, Nat.lt_succ_of_lt (hj.fresh _ _ h).2⟩
        · intro n n' q h h'
          rw [mapGet_mapSet] at h h'
          split at h
          · rename_i e
            split at h'
            · rename_i e'; rw [e, e']
            · cases h
              exact absurd (hj.fresh _ _ h').2 (Nat.lt_irrefl _)
          · split at h'
            · cases h'
              exact absurd (hj.fresh _ _ h).2 (Nat.lt_irrefl _)
            · exact hj.inj _ _ _ h h'
        · intro n ev
          unfold JoinSt.look
          dsimp only
          rw [mapGet_mapSet]
          by_cases e : n = ns
          · subst e
            rw [hn, hc]
            simp [hnew1]
          · rw [if_neg e]
            cases ho : mapGet s.out n with
            | none => dsimp only; split <;> simp [e]
            | some q =>
              dsimp only
              rw [hold1 q (hj.fresh _ _ ho).2]
              split <;> simp [e]
        · intro n
          rw [mapGet_mapSet]
          by_cases e : n = ns
          · subst e; simp [hn]
          · simp [e]

/-- several rounds -/
theorem joinLoop_spec (rg : Ranges) (nss : NsMap) {heap0 : Heap α} (ks : List Bytes)
    (hv : ∀ n p, mapGet nss n = some (some p) → p < heap0.length) (s : JoinSt α)
    (hj : Joined heap0 s) :
    Joined heap0 (ks.foldl (joinOne rg nss) s) ∧
    (∀ n ev, (ks.foldl (joinOne rg nss) s).look n ev =
      match mapGet nss n with
      | some (some p) => if n ∈ ks then (mapGet (heap0.at p) ev).or (s.look n ev) else s.look n ev
      | _ => s.look n ev) ∧
    (∀ n, (mapGet (ks.foldl (joinOne rg nss) s).out n).isSome =
      ((mapGet s.out n).isSome || (decide (n ∈ ks) && match mapGet nss n with
        | some (some _) => true
        | _ => false))) := by
  induction ks generalizing s with
  | nil =>
    refine ⟨hj, fun n ev => ?_, fun n => by simp⟩
    split <;> simp
  | cons k ks ih =>
    obtain ⟨a1, a2, a3⟩ := joinOne_spec rg nss k hv hj
    obtain ⟨b1, b2, b3⟩ := ih _ a1
    rw [List.foldl_cons]
    refine ⟨b1, fun n ev => ?_, fun n => ?_⟩
    · rw [b2 n ev, a2 n ev]
      cases mapGet nss n with
      | none => rfl
      | some o =>
        cases o with
        | none => rfl
        | some p =>
          dsimp only
          by_cases e : n = k
          · subst e
            by_cases e2 : n ∈ ks
            · simp only [e2, List.mem_cons, or_true, if_true]
              cases mapGet (heap0.at p) ev <;> rfl
            · simp [e2]
          · simp [e]
    · rw [b3 n, a3 n]
      by_cases e : n = k
      · subst e
        cases (mapGet s.out n).isSome <;> cases mapGet nss n <;> simp
      · simp [e]

theorem joinNs_spec (rg : Ranges) (nss : NsMap) {heap0 : Heap α}
    (hv : ∀ n p, mapGet nss n = some (some p) → p < heap0.length) (s : JoinSt α)
    (hj : Joined heap0 s) :
    Joined heap0 (joinNs rg s nss) ∧
    (∀ n ev, (joinNs rg s nss).look n ev =
      match mapGet nss n with
      | some (some p) => (mapGet (heap0.at p) ev).or (s.look n ev)
      | _ => s.look n ev) ∧
    (∀ n, (mapGet (joinNs rg s nss).out n).isSome =
      ((mapGet s.out n).isSome || match mapGet nss n with
        | some (some _) => true
        | _ => false)) := by
  have hj' : Joined heap0 { s with tick := s.tick + 1 } := ⟨hj.len, hj.old, hj.fresh, hj.inj⟩
  obtain ⟨a1, a2, a3⟩ := joinLoop_spec rg nss (rg.order s.tick (nss.map (·.1))) hv _ hj'
  refine ⟨a1, fun n ev => ?_, fun n => ?_⟩
  · have := a2 n ev
    unfold joinNs
    rw [this]
    cases hn : mapGet nss n with
    | none => rfl
    | some o =>
      cases o with
      | none => rfl
      | some p =>
        dsimp only
        rw [if_pos ((mem_order rg s.tick nss n).mpr (by simp [hn]))]
        rfl
  · have := a3 n
    unfold joinNs
    rw [this]
    cases hn : mapGet nss n with
    | none => simp
    | some o =>
      have hm := (mem_order rg s.tick nss n).mpr (by simp [hn])
      simp [hm]

/-- the handler declares this callback -/
def declares (heap : Heap α) (nss : NsMap) (ns ev : Bytes) : Option α :=
  match mapGet nss ns with
  | some (some p) => mapGet (heap.at p) ev
  | _ => none

/-- the last handler that declares the event -/
def lastOf (heap : Heap α) (hs : List NsMap) (ns ev : Bytes) (d : Option α) : Option α :=
  hs.foldl (fun acc nss => (declares heap nss ns ev).or acc) d

theorem join_spec (rg : Ranges) {heap0 : Heap α} (hs : List NsMap)
    (hv : ∀ nss ∈ hs, ∀ n p, mapGet nss n = some (some p) → p < heap0.length) (s : JoinSt α)
    (hj : Joined heap0 s) :
    Joined heap0 (hs.foldl (joinNs rg) s) ∧
    (∀ n ev, (hs.foldl (joinNs rg) s).look n ev = lastOf heap0 hs n ev (s.look n ev)) ∧
    (∀ n, (mapGet (hs.foldl (joinNs rg) s).out n).isSome = true ↔
      (mapGet s.out n).isSome = true ∨ ∃ nss ∈ hs, ∃ p, mapGet nss n = some (some p)) := by
  induction hs generalizing s with
  | nil => exact ⟨hj, fun _ _ => rfl, fun n => by simp⟩
  | cons h hs ih =>
    obtain ⟨a1, a2, a3⟩ := joinNs_spec rg h (hv h (by simp)) s hj
    obtain ⟨b1, b2, b3⟩ := ih (fun nss hm => hv nss (List.mem_cons_of_mem _ hm)) _ a1
    rw [List.foldl_cons]
    refine ⟨b1, fun n ev => ?_, fun n => ?_⟩
    · rw [b2, a2]
      unfold lastOf
      rw [List.foldl_cons]
      congr 1
      unfold declares
      cases mapGet h n with
      | none => rfl
      | some o => cases o <;> rfl
    · rw [b3, a3]
      constructor
      · rintro (h1 | ⟨nss, h1, h2⟩)
        · rw [Bool.or_eq_true] at h1
          rcases h1 with h1 | h1
          · exact .inl h1
          · refine .inr ⟨h, by simp, ?_⟩
            cases hn : mapGet h n with
            | none => rw [hn] at h1; simp at h1
            | some o =>
              cases o with
              | none => rw [hn] at h1; simp at h1
              | some p => exact ⟨p, rfl⟩
        · exact .inr ⟨nss, List.mem_cons_of_mem _ h1, h2⟩
      · rintro (h1 | ⟨nss, h1, p, h2⟩)
        · left; simp [h1]
        · rcases List.mem_cons.mp h1 with rfl | h1
          · left; simp [h2]
          · exact .inr ⟨nss, h1, p, h2⟩

theorem lastOf_eq_some (heap : Heap α) (hs : List NsMap) (ns ev : Bytes) (d : Option α) (cb : α) :
    lastOf heap hs ns ev d = some cb ↔
      (∃ hs1 nss hs2, hs = hs1 ++ nss :: hs2 ∧ declares heap nss ns ev = some cb ∧
        ∀ n ∈ hs2, declares heap n ns ev = none) ∨
      (d = some cb ∧ ∀ n ∈ hs, declares heap n ns ev = none) := by
  induction hs generalizing d with
  | nil => simp [lastOf]
  | cons h hs ih =>
    have : lastOf heap (h :: hs) ns ev d = lastOf heap hs ns ev ((declares heap h ns ev).or d) := rfl
    rw [this, ih]
    constructor
    · rintro (⟨h1, n, h2, rfl, e1, e2⟩ | ⟨e1, e2⟩)
      · exact .inl ⟨h :: h1, n, h2, rfl, e1, e2⟩
      · cases hd : declares heap h ns ev with
        | none =>
          rw [hd] at e1
          refine .inr ⟨e1, fun n hn => ?_⟩
          rcases List.mem_cons.mp hn with rfl | hn
          · exact hd
          · exact e2 n hn
        | some x =>
          rw [hd] at e1
          refine .inl ⟨[], h, hs, rfl, ?_, e2⟩
          rw [hd]; exact e1
    · rintro (⟨h1, n, h2, e0, e1, e2⟩ | ⟨e1, e2⟩)
      · cases h1 with
        | nil =>
          simp only [List.nil_append, List.cons.injEq] at e0
          obtain ⟨rfl, rfl⟩ := e0
          exact .inr ⟨by rw [e1]; rfl, e2⟩
        | cons a h1 =>
          simp only [List.cons_append, List.cons.injEq] at e0
          obtain ⟨rfl, rfl⟩ := e0
          exact .inl ⟨h1, n, h2, rfl, e1, e2⟩
      · refine .inr ⟨by rw [e2 h (by simp)]; exact e1, fun n hn => e2 n (List.mem_cons_of_mem _ hn)⟩

/-! ## Structs -/

theorem eventsOfMethods_get (matcher : Option Matcher) (ms : List Method) (ev m : Bytes) :
    mapGet (eventsOfMethods matcher ms) ev = some (.call m) ↔
      ∃ ms1 f ms2, ms = ms1 ++ ⟨m, f⟩ :: ms2 ∧ f = true ∧ eventOfMethod matcher m = some ev ∧
        ∀ x ∈ ms2, x.fits = true → eventOfMethod matcher x.name ≠ some ev := by
  unfold eventsOfMethods
  suffices h : ∀ evs : List (Bytes × StructCb),
      mapGet (ms.foldl (addMethod matcher) evs) ev = some (.call m) ↔
      (∃ ms1 f ms2, ms = ms1 ++ ⟨m, f⟩ :: ms2 ∧ f = true ∧ eventOfMethod matcher m = some ev ∧
        ∀ x ∈ ms2, x.fits = true → eventOfMethod matcher x.name ≠ some ev) ∨
      (mapGet evs ev = some (.call m) ∧
        ∀ x ∈ ms, x.fits = true → eventOfMethod matcher x.name ≠ some ev) by
    rw [h []]; simp [mapGet]
  induction ms with
  | nil => intro evs; simp
  | cons a ms ih =>
    intro evs
    rw [List.foldl_cons, ih]
    unfold addMethod
    constructor
    · rintro (⟨m1, f, m2, rfl, e⟩ | ⟨e1, e2⟩)
      · exact .inl ⟨a :: m1, f, m2, rfl, e⟩
      · by_cases hf : a.fits = true
        · cases he : eventOfMethod matcher a.name with
          | none =>
            rw [he] at e1
            simp only [hf] at e1
            refine .inr ⟨e1, fun x hx => ?_⟩
            rcases List.mem_cons.mp hx with rfl | hx
            · rw [he]; simp
            · exact e2 x hx
          | some ev' =>
            rw [he] at e1
            simp only [hf, Bool.not_true, Bool.false_eq_true, if_false] at e1
            rw [mapGet_mapSet] at e1
            split at e1
            · rename_i e
              subst e
              simp only [Option.some.injEq, StructCb.call.injEq] at e1
              subst e1
              exact .inl ⟨[], true, ms, by simp [← hf], rfl, he, e2⟩
            · rename_i e
              refine .inr ⟨e1, fun x hx => ?_⟩
              rcases List.mem_cons.mp hx with rfl | hx
              · rw [he]; simp [Ne.symm e]
              · exact e2 x hx
        · simp only [hf] at e1
          refine .inr ⟨e1, fun x hx => ?_⟩
          rcases List.mem_cons.mp hx with rfl | hx
          · intro h; exact absurd h hf
          · exact e2 x hx
    · rintro (⟨m1, f, m2, e0, hf, e1, e2⟩ | ⟨e1, e2⟩)
      · cases m1 with
        | nil =>
          simp only [List.nil_append, List.cons.injEq] at e0
          obtain ⟨rfl, rfl⟩ := e0
          refine .inr ⟨?_, e2⟩
          dsimp only
          rw [hf, e1]
          simp [mapGet_mapSet]
        | cons b m1 =>
          simp only [List.cons_append, List.cons.injEq] at e0
          obtain ⟨rfl, rfl⟩ := e0
          exact .inl ⟨m1, f, m2, rfl, hf, e1, e2⟩
      · refine .inr ⟨?_, fun x hx => e2 x (List.mem_cons_of_mem _ hx)⟩
        by_cases hf : a.fits = true
        · have := e2 a (by simp) hf
          cases he : eventOfMethod matcher a.name with
          | none => simpa [hf] using e1
          | some ev' =>
            simp only [hf, Bool.not_true, Bool.false_eq_true, if_false]
            rw [mapGet_mapSet, if_neg (fun e => this (by rw [he, e]))]
            exact e1
        · simp only [hf]; exact e1

theorem eventsOfMethods_call (matcher : Option Matcher) (ms : List Method) (ev : Bytes)
    (cb : StructCb) (h : mapGet (eventsOfMethods matcher ms) ev = some cb) : ∃ m, cb = .call m := by
  unfold eventsOfMethods at h
  suffices hh : ∀ evs : List (Bytes × StructCb), (∀ e c, mapGet evs e = some c → ∃ m, c = .call m) →
      ∀ e c, mapGet (ms.foldl (addMethod matcher) evs) e = some c → ∃ m, c = .call m from
    hh [] (by simp [mapGet]) ev cb h
  clear h
  induction ms with
  | nil => intro evs h; exact h
  | cons a ms ih =>
    intro evs h
    rw [List.foldl_cons]
    apply ih
    intro e c hc
    unfold addMethod at hc
    split at hc
    · exact h e c hc
    · split at hc
      · exact h e c hc
      · rw [mapGet_mapSet] at hc
        split at hc
        · cases hc; exact ⟨_, rfl⟩
        · exact h e c hc

end Neffos
