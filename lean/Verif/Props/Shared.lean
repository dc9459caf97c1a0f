import Verif.Props.Register
/-!
# C114: On with maps that several namespaces share
-/
set_option autoImplicit false
namespace Neffos

namespace Spec

/-- the namespaces are the same or have the same Events map -/
def SharesMap (m : NsMap) (n n' : Bytes) : Prop :=
  n = n' ∨ ∃ p, mapGet m n = some (some p) ∧ mapGet m n' = some (some p)

/-- the maps exist -/
def MapsExist {α : Type} (heap : Heap α) (m : NsMap) : Prop := ∀ n p, mapGet m n = some (some p) → p < heap.length

/-- `cb` is registered by the last of the calls that are for the event and for a namespace which shares its map with
`ns` -/
def LastShared {α : Type} (m : NsMap) (ns ev : Bytes) (calls : List (Bytes × Bytes × α)) (cb : α) : Prop :=
  ∃ before n after, calls = before ++ (n, ev, cb) :: after ∧ SharesMap m n ns ∧
    ∀ c ∈ after, c.2.1 = ev → ¬ SharesMap m c.1 ns

end Spec
open Neffos.Spec

variable {α : Type}

namespace Shared

theorem symm {m : NsMap} {n n' : Bytes} (h : SharesMap m n n') : SharesMap m n' n := by
  rcases h with rfl | ⟨p, h1, h2⟩
  · exact .inl rfl
  · exact .inr ⟨p, h2, h1⟩

theorem one {heap heap' : Heap α} {m m' : NsMap} {p : Nat} {ns ev : Bytes} {cb : α} (h : MapsExist heap m)
    (ho : namespacesOn heap (some m) ns ev cb = some (heap', m', p)) :
    MapsExist heap' m' ∧ (∀ n n', SharesMap m' n n' ↔ SharesMap m n n') ∧
    (∀ n e, (SharesMap m ns n ∧ ev = e) → declares heap' m' n e = some cb) ∧
    (∀ n e, ¬ (SharesMap m ns n ∧ ev = e) → declares heap' m' n e = declares heap m n e) := by
  simp only [namespacesOn] at ho
  have old : ∀ q, mapGet m ns = some (some q) → (heap.put q ev cb, m, q) = (heap', m', p) →
      MapsExist heap' m' ∧ (∀ n n', SharesMap m' n n' ↔ SharesMap m n n') ∧
      (∀ n e, (SharesMap m ns n ∧ ev = e) → declares heap' m' n e = some cb) ∧
      (∀ n e, ¬ (SharesMap m ns n ∧ ev = e) → declares heap' m' n e = declares heap m n e) := by
    intro q hq he
    cases he
    refine ⟨fun n r hr => by rw [Heap.length_put]; exact h n r hr, fun _ _ => Iff.rfl, ?_, ?_⟩
    · rintro n e ⟨hs, rfl⟩
      have hn : mapGet m n = some (some p) := by
        rcases hs with rfl | ⟨r, h1, h2⟩
        · exact hq
        · rw [hq] at h1; cases h1; exact h2
      unfold declares
      simp only [hn, Heap.at_put]
      rw [if_pos ⟨trivial, h ns p hq⟩, mapGet_mapSet, if_pos rfl]
    · intro n e hne
      unfold declares
      cases hn : mapGet m n with
      | none => rfl
      | some o =>
        cases o with
        | none => rfl
        | some r =>
          simp only [Heap.at_put]
          by_cases hr : p = r
          · subst hr
            have : ev ≠ e := fun he => hne ⟨.inr ⟨p, hq, hn⟩, he⟩
            rw [if_pos ⟨rfl, h ns p hq⟩, mapGet_mapSet, if_neg (fun x => this x.symm)]
          · rw [if_neg (fun x => hr x.1)]
  have new : (∀ q, mapGet m ns ≠ some (some q)) →
      ((heap ++ [[]]).put heap.length ev cb, mapSet m ns (some heap.length), heap.length) = (heap', m', p) →
      MapsExist heap' m' ∧ (∀ n n', SharesMap m' n n' ↔ SharesMap m n n') ∧
      (∀ n e, (SharesMap m ns n ∧ ev = e) → declares heap' m' n e = some cb) ∧
      (∀ n e, ¬ (SharesMap m ns n ∧ ev = e) → declares heap' m' n e = declares heap m n e) := by
    intro hq he
    cases he
    have own : ∀ n, SharesMap m ns n → n = ns := by
      rintro n (rfl | ⟨r, h1, _⟩)
      · rfl
      · exact absurd h1 (hq r)
    refine ⟨?_, ?_, ?_, ?_⟩
    · intro n r hr
      rw [Heap.length_put, List.length_append]
      rw [mapGet_mapSet] at hr
      split at hr
      · cases hr; simp
      · have := h n r hr; simp; omega
    · intro n n'
      constructor
      · rintro (rfl | ⟨r, h1, h2⟩)
        · exact .inl rfl
        · rw [mapGet_mapSet] at h1 h2
          split at h1 <;> split at h2
          · rename_i a b; exact .inl (by rw [a, b])
          · cases h1; have := h n' _ h2; omega
          · cases h2; have := h n _ h1; omega
          · exact .inr ⟨r, h1, h2⟩
      · rintro (rfl | ⟨r, h1, h2⟩)
        · exact .inl rfl
        · refine .inr ⟨r, ?_, ?_⟩
          · rw [mapGet_mapSet, if_neg (fun e => hq r (by rw [← e]; exact h1))]; exact h1
          · rw [mapGet_mapSet, if_neg (fun e => hq r (by rw [← e]; exact h2))]; exact h2
    · rintro n e ⟨hs, rfl⟩
      cases own n hs
      unfold declares
      rw [mapGet_mapSet, if_pos rfl]
      dsimp only
      rw [Heap.at_put, if_pos ⟨rfl, by simp⟩, at_alloc_new, mapGet_mapSet, if_pos rfl]
    · intro n e hne
      unfold declares
      rw [mapGet_mapSet]
      by_cases hn : n = ns
      · subst hn
        have hev : ev ≠ e := fun he => hne ⟨.inl rfl, he⟩
        rw [if_pos rfl]
        dsimp only
        rw [Heap.at_put, if_pos ⟨rfl, by simp⟩, at_alloc_new, mapGet_mapSet, if_neg (fun x => hev x.symm)]
        split
        · rename_i q hh; exact absurd hh (hq q)
        · rfl
      · rw [if_neg hn]
        cases hg : mapGet m n with
        | none => rfl
        | some o =>
          cases o with
          | none => rfl
          | some r =>
            have hr := h n r hg
            simp only [Heap.at_put]
            rw [if_neg (fun x => by omega), at_alloc _ _ hr]
  cases hg : mapGet m ns with
  | none => rw [hg] at ho; exact new (by simp [hg]) (Option.some.inj ho)
  | some o =>
    cases o with
    | none => rw [hg] at ho; exact new (by simp [hg]) (Option.some.inj ho)
    | some q => rw [hg] at ho; exact old q hg (Option.some.inj ho)

theorem last_cons {m m' : NsMap} (hs : ∀ n n', SharesMap m' n n' ↔ SharesMap m n n') {ns ev n e : Bytes} {cb cb' : α}
    {t : List (Bytes × Bytes × α)} (h : LastShared m' ns ev t cb) : LastShared m ns ev ((n, e, cb') :: t) cb := by
  obtain ⟨b, k, a, rfl, h1, h2⟩ := h
  exact ⟨(n, e, cb') :: b, k, a, rfl, (hs _ _).mp h1, fun c hc he hx => h2 c hc he ((hs _ _).mpr hx)⟩

theorem last_uncons {m m' : NsMap} (hs : ∀ n n', SharesMap m' n n' ↔ SharesMap m n n') {ns ev n e : Bytes} {cb cb' : α}
    {t : List (Bytes × Bytes × α)} (h : LastShared m ns ev ((n, e, cb') :: t) cb) :
    LastShared m' ns ev t cb ∨
      (e = ev ∧ cb' = cb ∧ SharesMap m n ns ∧ ∀ c ∈ t, c.2.1 = ev → ¬ SharesMap m c.1 ns) := by
  obtain ⟨b, k, a, h0, h1, h2⟩ := h
  rcases b with _ | ⟨x, b⟩
  · simp only [List.nil_append, List.cons.injEq, Prod.mk.injEq] at h0
    obtain ⟨⟨rfl, rfl, rfl⟩, rfl⟩ := h0
    exact .inr ⟨rfl, rfl, h1, h2⟩
  · simp only [List.cons_append, List.cons.injEq] at h0
    exact .inl ⟨b, k, a, h0.2, (hs _ _).mpr h1, fun c hc he hx => h2 c hc he ((hs _ _).mp hx)⟩

end Shared
open Shared

/-- C114: after any calls of Namespaces.On the callback of an event of a namespace is the one registered last for
this event and for a namespace that had the same Events map at the beginning, itself included; without such a call it
is the one it had. -/
theorem c114_on (heap : Heap α) (m : NsMap) (h : MapsExist heap m) (calls : List (Bytes × Bytes × α)) (ns ev : Bytes) :
    (∀ cb, LastShared m ns ev calls cb → declares (onAll heap m calls).1 (onAll heap m calls).2 ns ev = some cb) ∧
    ((∀ c ∈ calls, c.2.1 = ev → ¬ SharesMap m c.1 ns) →
      declares (onAll heap m calls).1 (onAll heap m calls).2 ns ev = declares heap m ns ev) := by
  induction calls generalizing heap m with
  | nil =>
    refine ⟨fun cb hc => ?_, fun _ => rfl⟩
    obtain ⟨b, n, a, h1, _⟩ := hc
    simp at h1
  | cons c t ih =>
    obtain ⟨n, e, cb'⟩ := c
    simp only [onAll]
    cases ho : namespacesOn heap (some m) n e cb' with
    | none =>
      simp only [namespacesOn] at ho
      split at ho <;> cases ho
    | some r =>
      obtain ⟨heap', m', p⟩ := r
      obtain ⟨hm, hs, hd1, hd2⟩ := one h ho
      obtain ⟨i1, i2⟩ := ih heap' m' hm
      simp only
      refine ⟨fun cb hc => ?_, fun hc => ?_⟩
      · rcases last_uncons hs hc with hl | ⟨rfl, rfl, hsh, hno⟩
        · exact i1 cb hl
        · rw [i2 (fun c hc he hx => hno c hc he ((hs _ _).mp hx))]
          exact hd1 ns e ⟨hsh, rfl⟩
      · rw [i2 (fun c' hc' he hx => hc c' (List.mem_cons_of_mem _ hc') he ((hs _ _).mp hx))]
        refine hd2 ns ev (fun ⟨hx, he⟩ => hc (n, e, cb') (List.mem_cons_self ..) he hx)

/-- C114: one of the two cases of `c114_on` is always the case. -/
theorem c114_cases (m : NsMap) (calls : List (Bytes × Bytes × α)) (ns ev : Bytes) :
    (∃ cb, LastShared m ns ev calls cb) ∨ ∀ c ∈ calls, c.2.1 = ev → ¬ SharesMap m c.1 ns := by
  induction calls with
  | nil => exact .inr (by simp)
  | cons c t ih =>
    obtain ⟨n, e, cb'⟩ := c
    rcases ih with ⟨cb, hc⟩ | hno
    · exact .inl ⟨cb, last_cons (fun _ _ => Iff.rfl) hc⟩
    · by_cases h : e = ev ∧ SharesMap m n ns
      · obtain ⟨rfl, h⟩ := h
        exact .inl ⟨cb', [], n, t, rfl, h, hno⟩
      · refine .inr fun c hc he hx => ?_
        rcases List.mem_cons.mp hc with rfl | hc
        · exact h ⟨he, hx⟩
        · exact hno c hc he hx

/-- C114: calls of On keep which namespaces share a map: none starts to, none stops. -/
theorem c114_shares (heap : Heap α) (m : NsMap) (h : MapsExist heap m) (calls : List (Bytes × Bytes × α)) (n n' : Bytes) :
    SharesMap (onAll heap m calls).2 n n' ↔ SharesMap m n n' := by
  induction calls generalizing heap m with
  | nil => rfl
  | cons c t ih =>
    obtain ⟨k, e, cb'⟩ := c
    simp only [onAll]
    cases ho : namespacesOn heap (some m) k e cb' with
    | none =>
      simp only [namespacesOn] at ho
      split at ho <;> cases ho
    | some r =>
      obtain ⟨heap', m', p⟩ := r
      obtain ⟨hm, hs, _, _⟩ := one h ho
      exact (ih heap' m' hm).trans (hs n n')

/-- C114: Events.On registers for exactly the namespaces that have this map. -/
theorem c114_events {heap heap' : Heap α} {m : NsMap} {p : Nat} {ev : Bytes} {cb : α} (hp : p < heap.length)
    (ho : eventsOn heap (some p) ev cb = some heap') (n e : Bytes) :
    declares heap' m n e = if mapGet m n = some (some p) ∧ e = ev then some cb else declares heap m n e := by
  simp only [eventsOn, Option.map_some, Option.some.injEq] at ho
  subst ho
  unfold declares
  cases hn : mapGet m n with
  | none => simp
  | some o =>
    cases o with
    | none => simp
    | some r =>
      simp only [Heap.at_put]
      by_cases hr : p = r
      · subst hr
        rw [if_pos ⟨rfl, hp⟩, mapGet_mapSet]
        by_cases he : e = ev <;> simp [he]
      · rw [if_neg (fun x => hr x.1), if_neg]
        rintro ⟨h1, _⟩
        cases h1
        exact hr rfl

/-- C114: On panics exactly on a nil map. -/
theorem c114_nil (heap : Heap α) (ns ev : Bytes) (cb : α) :
    (∀ e, eventsOn heap e ev cb = none ↔ e = none) ∧
    ∀ m, namespacesOn heap m ns ev cb = none ↔ m = none := by
  refine ⟨fun e => ?_, fun m => ?_⟩
  · cases e <;> simp [eventsOn]
  · cases m with
    | none => simp [namespacesOn]
    | some m =>
      simp only [namespacesOn]
      split <;> simp

/-- two namespaces share a map, a third has its own and a fourth comes with the calls -/
example :
    let heap : Heap Nat := [[(b! "ev", 1)], []]
    let m : NsMap := [(b! "a", some 0), (b! "b", some 0), (b! "c", some 1)]
    let calls := [(b! "a", b! "ev", 2), (b! "b", b! "ev", 3), (b! "c", b! "ev", 4), (b! "d", b! "ev", 5), (b! "d", b! "x", 6)]
    LastShared m (b! "a") (b! "ev") calls 3 ∧
    declares (onAll heap m calls).1 (onAll heap m calls).2 (b! "a") (b! "ev") = some 3 ∧
    declares (onAll heap m calls).1 (onAll heap m calls).2 (b! "c") (b! "ev") = some 4 ∧
    declares (onAll heap m calls).1 (onAll heap m calls).2 (b! "d") (b! "ev") = some 5 := by
  refine ⟨⟨[(b! "a", b! "ev", 2)], b! "b", [(b! "c", b! "ev", 4), (b! "d", b! "ev", 5), (b! "d", b! "x", 6)], rfl,
    .inr ⟨0, by decide +kernel, by decide +kernel⟩, ?_⟩, by decide +kernel, by decide +kernel, by decide +kernel⟩
  rintro c hc he (h | ⟨p, h1, h2⟩)
  · simp only [List.mem_cons, List.not_mem_nil, or_false] at hc
    rcases hc with rfl | rfl | rfl <;> revert h <;> decide +kernel
  · have h3 : mapGet (α := Option Nat) [(b! "a", some 0), (b! "b", some 0), (b! "c", some 1)] (b! "a") = some (some 0) := by
      decide +kernel
    rw [h3] at h2
    cases h2
    simp only [List.mem_cons, List.not_mem_nil, or_false] at hc
    rcases hc with rfl | rfl | rfl <;> revert h1 <;> decide +kernel

end Neffos
