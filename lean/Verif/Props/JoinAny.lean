import Verif.Props.Handlers
set_option autoImplicit false
/-!
# C11: joining handlers of any kind
-/
namespace Neffos

variable {α : Type}

/-- spec: the events map has this callback for the event -/
def EvDeclares (heap : Heap α) (e : Option Nat) (ev : Bytes) (cb : α) : Prop :=
  ∃ p, e = some p ∧ mapGet (heap.at p) ev = some cb

/-- spec: what a handler declares, by its kind. `Events` declare for the empty namespace;
`WithTimeout` has both namespaces and events, and its events win. -/
def HandlerDeclares (heap : Heap α) : Handlers → Bytes → Bytes → α → Prop
  | .events e, ns, ev, cb => ns = [] ∧ EvDeclares heap e ev cb
  | .namespaces m, ns, ev, cb => Declares heap m ns ev cb
  | .withTimeout _ _ m e, ns, ev, cb =>
    (ns = [] ∧ EvDeclares heap e ev cb) ∨
      (Declares heap m ns ev cb ∧ ¬ (ns = [] ∧ ∃ cb', EvDeclares heap e ev cb'))
  | .struct _ _ n p, ns, ev, cb => ns = n ∧ mapGet (heap.at p) ev = some cb

/-- spec: the maps of a handler exist -/
def HandlerExists (heap : Heap α) : Handlers → Prop
  | .events e => ∀ p, e = some p → p < heap.length
  | .namespaces m => Exists heap m
  | .withTimeout _ _ m e => Exists heap m ∧ ∀ p, e = some p → p < heap.length
  | .struct _ _ _ p => p < heap.length

namespace JoinAny

/-- two lists of the same length, related element by element -/
inductive Each {A B : Type} (R : A → B → Prop) : List A → List B → Prop where
  | nil : Each R [] []
  | cons {a : A} {b : B} {as : List A} {bs : List B} : R a b → Each R as bs → Each R (a :: as) (b :: bs)

/-- a later heap: nothing that existed was changed -/
def Grew (h h' : Heap α) : Prop := h.length ≤ h'.length ∧ ∀ p, p < h.length → h'.at p = h.at p

theorem Grew.trans {a b c : Heap α} (h1 : Grew a b) (h2 : Grew b c) : Grew a c :=
  ⟨Nat.le_trans h1.1 h2.1, fun p hp => (h2.2 p (Nat.lt_of_lt_of_le hp h1.1)).trans (h1.2 p hp)⟩

theorem Grew.exists {a b : Heap α} (g : Grew a b) {m : NsMap} (h : Exists a m) : Exists b m :=
  fun ns p hp => Nat.lt_of_lt_of_le (h ns p hp) g.1

theorem Grew.declares {a b : Heap α} (g : Grew a b) {m : NsMap} (h : Exists a m) (ns ev : Bytes) (cb : α) :
    Declares b m ns ev cb ↔ Declares a m ns ev cb := by
  unfold Declares
  constructor
  · rintro ⟨p, h1, h2⟩; exact ⟨p, h1, by rw [← g.2 p (h ns p h1)]; exact h2⟩
  · rintro ⟨p, h1, h2⟩; exact ⟨p, h1, by rw [g.2 p (h ns p h1)]; exact h2⟩

theorem Grew.ev {a b : Heap α} (g : Grew a b) {e : Option Nat} (h : ∀ p, e = some p → p < a.length)
    (ev : Bytes) (cb : α) : EvDeclares b e ev cb ↔ EvDeclares a e ev cb := by
  unfold EvDeclares
  constructor
  · rintro ⟨p, h1, h2⟩; exact ⟨p, h1, by rw [← g.2 p (h p h1)]; exact h2⟩
  · rintro ⟨p, h1, h2⟩; exact ⟨p, h1, by rw [g.2 p (h p h1)]; exact h2⟩

theorem Grew.hexists {a b : Heap α} (g : Grew a b) {x : Handlers} (h : HandlerExists a x) :
    HandlerExists b x := by
  cases x with
  | events e => exact fun p hp => Nat.lt_of_lt_of_le (h p hp) g.1
  | namespaces m => exact g.exists h
  | withTimeout r w m e => exact ⟨g.exists h.1, fun p hp => Nat.lt_of_lt_of_le (h.2 p hp) g.1⟩
  | struct r w n p => exact Nat.lt_of_lt_of_le h g.1

theorem Grew.hdeclares {a b : Heap α} (g : Grew a b) {x : Handlers} (h : HandlerExists a x)
    (ns ev : Bytes) (cb : α) : HandlerDeclares b x ns ev cb ↔ HandlerDeclares a x ns ev cb := by
  cases x with
  | events e => simp only [HandlerDeclares, g.ev h]
  | namespaces m => simp only [HandlerDeclares, g.declares h]
  | withTimeout r w m e => simp only [HandlerDeclares, g.declares h.1, g.ev h.2]
  | struct r w n p =>
    have h' : p < a.length := h
    simp only [HandlerDeclares, g.2 p h']

theorem mapGet_some (l : List (Bytes × Nat)) (ns : Bytes) (q : Nat) :
    mapGet (l.map (fun p => (p.1, some p.2))) ns = some (some q) ↔ mapGet l ns = some q := by
  induction l with
  | nil => simp [mapGet]
  | cons x l ih =>
    simp only [List.map_cons, mapGet]
    split <;> simp_all

theorem join_grew (rg : Ranges) (heap : Heap α) (hs : List NsMap) (hv : ∀ nss ∈ hs, Exists heap nss) :
    Grew heap (joinConnHandlers rg hs heap).heap ∧
    Exists (joinConnHandlers rg hs heap).heap
      ((joinConnHandlers rg hs heap).out.map (fun p => (p.1, some p.2))) := by
  obtain ⟨h1, _, _⟩ := join_spec rg hs hv ⟨heap, 0, []⟩
    ⟨Nat.le_refl _, fun _ _ => rfl, by simp [mapGet], by simp [mapGet]⟩
  refine ⟨⟨h1.len, h1.old⟩, fun ns q h => ?_⟩
  exact (h1.fresh ns q ((mapGet_some _ _ _).mp h)).2

theorem join_declares (rg : Ranges) (heap : Heap α) (hs : List NsMap) (hv : ∀ nss ∈ hs, Exists heap nss)
    (ns ev : Bytes) (cb : α) :
    Declares (joinConnHandlers rg hs heap).heap
      ((joinConnHandlers rg hs heap).out.map (fun p => (p.1, some p.2))) ns ev cb ↔
    ∃ before nss after, hs = before ++ nss :: after ∧ Declares heap nss ns ev cb ∧
      ∀ n ∈ after, ∀ cb', ¬ Declares heap n ns ev cb' := by
  rw [← c11_last rg heap hs hv]
  unfold Declares
  simp only [mapGet_some]

theorem single (heap : Heap α) (n : Bytes) (e : Option Nat) (ns ev : Bytes) (cb : α) :
    Declares heap [(n, e)] ns ev cb ↔ ns = n ∧ EvDeclares heap e ev cb := by
  unfold Declares EvDeclares
  simp only [mapGet]
  by_cases h : n = ns
  · rw [if_pos h]; simp [h.symm]
  · rw [if_neg h]; simp; intro h'; exact absurd h'.symm h

theorem single_exists (heap : Heap α) (n : Bytes) (e : Option Nat) (h : ∀ p, e = some p → p < heap.length) :
    Exists heap [(n, e)] := by
  intro ns p hp
  simp only [mapGet] at hp
  split at hp
  · exact h p (by injection hp)
  · simp at hp

theorem get_spec (rg : Ranges) (heap : Heap α) (x : Handlers) (h : HandlerExists heap x) :
    Grew heap (getNamespaces rg heap x).1 ∧
    Exists (getNamespaces rg heap x).1 (getNamespaces rg heap x).2 ∧
    ∀ ns ev cb, Declares (getNamespaces rg heap x).1 (getNamespaces rg heap x).2 ns ev cb ↔
      HandlerDeclares heap x ns ev cb := by
  cases x with
  | events e =>
    exact ⟨⟨Nat.le_refl _, fun _ _ => rfl⟩, single_exists _ _ _ h, fun ns ev cb => single _ _ _ _ _ _⟩
  | namespaces m => exact ⟨⟨Nat.le_refl _, fun _ _ => rfl⟩, h, fun ns ev cb => Iff.rfl⟩
  | struct r w n p =>
    refine ⟨⟨Nat.le_refl _, fun _ _ => rfl⟩, single_exists _ _ _ (fun q hq => ?_), fun ns ev cb => ?_⟩
    · cases hq; exact h
    · rw [show (getNamespaces rg heap (.struct r w n p)) = (heap, [(n, some p)]) from rfl, single]
      unfold EvDeclares HandlerDeclares
      simp
  | withTimeout r w m e =>
    have hv : ∀ nss ∈ [m, [([], e)]], Exists heap nss := by
      intro nss hn
      rcases List.mem_cons.mp hn with rfl | hn
      · exact h.1
      · rw [List.mem_singleton.mp hn]; exact single_exists _ _ _ h.2
    refine ⟨(join_grew rg heap _ hv).1, (join_grew rg heap _ hv).2, fun ns ev cb => ?_⟩
    show Declares (joinConnHandlers rg [m, [([], e)]] heap).heap
      ((joinConnHandlers rg [m, [([], e)]] heap).out.map (fun p => (p.1, some p.2))) ns ev cb ↔ _
    rw [join_declares rg heap _ hv]
    unfold HandlerDeclares
    constructor
    · rintro ⟨before, nss, after, he, hd, ha⟩
      match before, he with
      | [], he =>
        simp only [List.nil_append, List.cons.injEq] at he
        obtain ⟨rfl, rfl⟩ := he
        refine .inr ⟨hd, fun ⟨hn, cb', hc⟩ => ?_⟩
        exact ha _ (by simp) cb' ((single ..).mpr ⟨hn, hc⟩)
      | [x], he =>
        simp only [List.cons_append, List.nil_append, List.cons.injEq] at he
        obtain ⟨rfl, rfl, rfl⟩ := he
        exact .inl ((single ..).mp hd)
      | x :: y :: l, he =>
        simp only [List.cons_append, List.cons.injEq] at he
        exact absurd he.2.2.symm (by simp)
    · rintro (hd | ⟨hd, hn⟩)
      · exact ⟨[m], [([], e)], [], rfl, (single ..).mpr hd, by simp⟩
      · refine ⟨[], m, [[([], e)]], rfl, hd, ?_⟩
        intro n hm cb' hc
        rw [List.mem_singleton.mp hm, single] at hc
        exact hn ⟨hc.1, cb', hc.2⟩

/-- the maps of the handlers, one by one -/
theorem fold_spec (rg : Ranges) (heap0 : Heap α) : ∀ (hs : List Handlers) (hv : ∀ x ∈ hs, HandlerExists heap0 x)
    (heap : Heap α) (g : Grew heap0 heap) (done : List NsMap) (hd : ∀ m ∈ done, Exists heap m),
    let r := hs.foldl (fun (acc : Heap α × List NsMap) h =>
      let r := getNamespaces rg acc.1 h
      (r.1, acc.2 ++ [r.2])) (heap, done)
    Grew heap r.1 ∧ (∀ m ∈ r.2, Exists r.1 m) ∧
    ∃ ms, r.2 = done ++ ms ∧ Each
      (fun m x => ∀ ns ev cb, Declares r.1 m ns ev cb ↔ HandlerDeclares heap0 x ns ev cb) ms hs
  | [], _, heap, g, done, hd => by
    refine ⟨⟨Nat.le_refl _, fun _ _ => rfl⟩, hd, [], by simp, .nil⟩
  | x :: hs, hv, heap, g, done, hd => by
    obtain ⟨g1, e1, d1⟩ := get_spec rg heap x (g.hexists (hv x (by simp)))
    obtain ⟨g2, e2, ms, h3, h4⟩ := fold_spec rg heap0 hs (fun y hy => hv y (List.mem_cons_of_mem _ hy))
      (getNamespaces rg heap x).1 (g.trans g1) (done ++ [(getNamespaces rg heap x).2])
      (by
        intro m hm
        rcases List.mem_append.mp hm with hm | hm
        · exact g1.exists (hd m hm)
        · rw [List.mem_singleton.mp hm]; exact e1)
    refine ⟨g1.trans g2, e2, (getNamespaces rg heap x).2 :: ms, ?_, .cons ?_ h4⟩
    · rw [List.foldl_cons]; simpa using h3
    · intro ns ev cb
      rw [List.foldl_cons]
      rw [g2.declares e1, d1, g.hdeclares (hv x (by simp))]

theorem forall₂_split {A B : Type} {R : A → B → Prop} {as : List A} {bs : List B} (h : Each R as bs)
    {P : A → Prop} {Q : B → Prop} (hpq : ∀ a b, R a b → (P a ↔ Q b))
    {P' : A → Prop} {Q' : B → Prop} (hpq' : ∀ a b, R a b → (P' a ↔ Q' b)) :
    (∃ x a y, as = x ++ a :: y ∧ P a ∧ ∀ n ∈ y, P' n) ↔ ∃ x b y, bs = x ++ b :: y ∧ Q b ∧ ∀ n ∈ y, Q' n := by
  have all : ∀ {as : List A} {bs : List B}, Each R as bs → ((∀ n ∈ as, P' n) ↔ ∀ n ∈ bs, Q' n) := by
    intro as bs h
    induction h with
    | nil => simp
    | cons h _ ih => simp only [List.forall_mem_cons, hpq' _ _ h, ih]
  have cons : ∀ {C : Type} (c : C) (cs : List C) (S S' : C → Prop),
      (∃ (x : List C) (a : C) (y : List C), c :: cs = x ++ a :: y ∧ S a ∧ ∀ n ∈ y, S' n) ↔
        (S c ∧ ∀ n ∈ cs, S' n) ∨ ∃ (x : List C) (a : C) (y : List C), cs = x ++ a :: y ∧ S a ∧ ∀ n ∈ y, S' n := by
    intro C c cs S S'
    constructor
    · rintro ⟨x, a, y, h1, h2, h3⟩
      cases x with
      | nil =>
        simp only [List.nil_append, List.cons.injEq] at h1
        obtain ⟨rfl, rfl⟩ := h1
        exact .inl ⟨h2, h3⟩
      | cons d x =>
        simp only [List.cons_append, List.cons.injEq] at h1
        exact .inr ⟨x, a, y, h1.2, h2, h3⟩
    · rintro (⟨h1, h2⟩ | ⟨x, a, y, rfl, h2, h3⟩)
      · exact ⟨[], c, cs, rfl, h1, h2⟩
      · exact ⟨c :: x, a, y, rfl, h2, h3⟩
  induction h with
  | nil => simp
  | cons hr hrest ih => exact (cons _ _ _ _).trans ((or_congr (and_congr (hpq _ _ hr) (all hrest)) ih).trans (cons _ _ _ _).symm)

end JoinAny

/-- C11 for handlers of every kind: `JoinConnHandlers` returns `Namespaces` that have, for every
namespace and event, the callback of the last handler that declares one, and none where no handler
does; no map of a handler is changed. -/
theorem c11_any (rg : Ranges) (heap : Heap α) (hs : List Handlers)
    (hv : ∀ x ∈ hs, HandlerExists heap x) :
    ∃ m, (joinHandlers rg heap hs).2 = .namespaces m ∧
      (∀ ns ev cb, Declares (joinHandlers rg heap hs).1 m ns ev cb ↔
        ∃ before x after, hs = before ++ x :: after ∧ HandlerDeclares heap x ns ev cb ∧
          ∀ y ∈ after, ∀ cb', ¬ HandlerDeclares heap y ns ev cb') ∧
      ∀ p, p < heap.length → (joinHandlers rg heap hs).1.at p = heap.at p := by
  obtain ⟨g, e, ms, h1, h2⟩ := JoinAny.fold_spec rg heap hs hv heap ⟨Nat.le_refl _, fun _ _ => rfl⟩ [] (by simp)
  rw [List.nil_append] at h1
  unfold joinHandlers
  dsimp only
  generalize hs.foldl (fun (acc : Heap α × List NsMap) h =>
      ((getNamespaces rg acc.1 h).1, acc.2 ++ [(getNamespaces rg acc.1 h).2])) (heap, []) = r at *
  refine ⟨_, rfl, fun ns ev cb => ?_, fun p hp => ?_⟩
  · rw [JoinAny.join_declares rg r.1 r.2 e, h1]
    exact JoinAny.forall₂_split h2 (fun a b h => h ns ev cb)
      (fun a b h => forall_congr' fun cb' => not_congr (h ns ev cb'))
  · exact (g.trans (JoinAny.join_grew rg r.1 r.2 e).1).2 p hp

/-- a WithTimeout with namespaces and events, a struct and events, joined: the events for the
empty namespace are those of the last that has them -/
example : let heap : Heap Nat := [[(b! "a", 1)], [(b! "a", 2), (b! "b", 3)], [(b! "a", 4)], [(b! "b", 5)]]
    let hs : List Handlers := [.withTimeout 1 2 [([], some 0), (b! "x", some 0)] (some 1),
      .struct 0 0 (b! "x") 2, .events (some 3)]
    (∀ x ∈ hs, HandlerExists heap x) ∧
    HandlerDeclares heap hs[0] [] (b! "a") 2 ∧ HandlerDeclares heap hs[1] (b! "x") (b! "a") 4 ∧
    (match (joinHandlers reverseRanges heap hs).2 with
      | .namespaces m => [declares (joinHandlers reverseRanges heap hs).1 m [] (b! "a"),
          declares (joinHandlers reverseRanges heap hs).1 m [] (b! "b"),
          declares (joinHandlers reverseRanges heap hs).1 m (b! "x") (b! "a"),
          declares (joinHandlers reverseRanges heap hs).1 m (b! "x") (b! "b")]
      | _ => []) = [some 2, some 5, some 4, none] := by
  refine ⟨?_, .inl ⟨rfl, 1, rfl, rfl⟩, ⟨rfl, rfl⟩, by decide +kernel⟩
  intro x hx
  simp only [List.mem_cons, List.not_mem_nil, or_false] at hx
  rcases hx with rfl | rfl | rfl
  · refine ⟨?_, fun p hp => by cases hp; decide⟩
    intro ns p hp
    simp only [mapGet] at hp
    split at hp
    · cases hp; decide
    · split at hp <;> cases hp; decide
  · show 2 < 4; decide
  · intro p hp; cases hp; decide

end Neffos
