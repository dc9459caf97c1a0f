import Verif.Model.Register
import Verif.Proofs.Handler
import Verif.Proofs.ConnPrim
import Verif.Props.Wire
/-!
# C72, C73, C74: On, NewStruct, Marshal
-/
set_option autoImplicit false
namespace Neffos
open Neffos.Spec

/-! ## C72 -/

/-- No two namespaces share an Events map, and all maps exist. -/
def UnsharedMaps {α : Type} (heap : Heap α) (m : NsMap) : Prop :=
  (∀ n p, mapGet m n = some (some p) → p < heap.length) ∧
  ∀ n n' p, mapGet m n = some (some p) → mapGet m n' = some (some p) → n = n'

/-- the callback that these calls leave for an event, given the one before -/
def lastOn {α : Type} (ns ev : Bytes) (old : Option α) : List (Bytes × Bytes × α) → Option α
  | [] => old
  | (n, e, cb) :: t => lastOn ns ev (if n = ns ∧ e = ev then some cb else old) t

variable {α : Type}

theorem on_one {heap heap' : Heap α} {m m' : NsMap} {p : Nat} {ns ev : Bytes} {cb : α} (h : UnsharedMaps heap m)
    (ho : namespacesOn heap (some m) ns ev cb = some (heap', m', p)) :
    UnsharedMaps heap' m' ∧ mapGet m' ns = some (some p) ∧
    ∀ n e, declares heap' m' n e = if ns = n ∧ ev = e then some cb else declares heap m n e := by
  simp only [namespacesOn] at ho
  have old : ∀ q, mapGet m ns = some (some q) → (heap.put q ev cb, m, q) = (heap', m', p) →
      UnsharedMaps heap' m' ∧ mapGet m' ns = some (some p) ∧
      ∀ n e, declares heap' m' n e = if ns = n ∧ ev = e then some cb else declares heap m n e := by
    rintro q hq he
    cases he
    refine ⟨⟨fun n r hr => by rw [Heap.length_put]; exact h.1 n r hr, h.2⟩, hq, fun n e => ?_⟩
    unfold declares
    cases hn : mapGet m n with
    | none =>
      rw [if_neg]
      rintro ⟨rfl, _⟩
      rw [hq] at hn; cases hn
    | some o =>
      cases o with
      | none =>
        simp only
        rw [if_neg]
        rintro ⟨rfl, _⟩
        rw [hq] at hn; cases hn
      | some r =>
        simp only [Heap.at_put]
        by_cases hr : p = r
        · subst hr
          have hnn : ns = n := h.2 ns n p hq hn
          subst hnn
          rw [if_pos ⟨rfl, h.1 ns p hq⟩, mapGet_mapSet]
          by_cases hev : ev = e
          · subst hev; simp
          · rw [if_neg (fun x => hev x.symm), if_neg (fun x => hev x.2)]
        · rw [if_neg (fun x => hr x.1), if_neg]
          rintro ⟨rfl, _⟩
          rw [hq] at hn
          cases hn
          exact hr rfl
  have new : (∀ q, mapGet m ns ≠ some (some q)) →
      ((heap ++ [[]]).put heap.length ev cb, mapSet m ns (some heap.length), heap.length) = (heap', m', p) →
      UnsharedMaps heap' m' ∧ mapGet m' ns = some (some p) ∧
      ∀ n e, declares heap' m' n e = if ns = n ∧ ev = e then some cb else declares heap m n e := by
    rintro hq he
    cases he
    refine ⟨⟨?_, ?_⟩, by rw [mapGet_mapSet, if_pos rfl], ?_⟩
    · intro n r hr
      rw [Heap.length_put, List.length_append]
      rw [mapGet_mapSet] at hr
      split at hr
      · cases hr; simp
      · have := h.1 n r hr; simp; omega
    · intro n n' r hn hn'
      rw [mapGet_mapSet] at hn hn'
      split at hn <;> split at hn'
      · rename_i a b; rw [a, b]
      · cases hn; have := h.1 n' _ hn'; omega
      · cases hn'; have := h.1 n _ hn; omega
      · exact h.2 n n' r hn hn'
    · intro n e
      unfold declares
      rw [mapGet_mapSet]
      by_cases hn : n = ns
      · subst hn
        rw [if_pos rfl]
        dsimp only
        rw [Heap.at_put, if_pos ⟨rfl, by simp⟩, at_alloc_new, mapGet_mapSet]
        by_cases hev : ev = e
        · subst hev; simp
        · rw [if_neg (fun x => hev x.symm), if_neg (fun x => hev x.2)]
          split
          · rename_i q hh; exact absurd hh (hq q)
          · rfl
      · rw [if_neg hn, if_neg (fun x => hn x.1.symm)]
        cases hg : mapGet m n with
        | none => rfl
        | some o =>
          cases o with
          | none => rfl
          | some r =>
            have hr := h.1 n r hg
            simp only [Heap.at_put]
            rw [if_neg (fun x => by omega), at_alloc _ _ hr]
  cases hg : mapGet m ns with
  | none => rw [hg] at ho; exact new (by simp [hg]) (Option.some.inj ho)
  | some o =>
    cases o with
    | none => rw [hg] at ho; exact new (by simp [hg]) (Option.some.inj ho)
    | some q => rw [hg] at ho; exact old q hg (Option.some.inj ho)

/-- C72 for maps that are not shared: after any calls of On, the callback of an event is the last one
registered for it, or else the one it had. -/
theorem c72_on_partial (heap : Heap α) (m : NsMap) (calls : List (Bytes × Bytes × α)) (h : UnsharedMaps heap m) (ns ev : Bytes) :
    declares (onAll heap m calls).1 (onAll heap m calls).2 ns ev = lastOn ns ev (declares heap m ns ev) calls := by
  induction calls generalizing heap m with
  | nil => rfl
  | cons c t ih =>
    obtain ⟨n, e, cb⟩ := c
    simp only [onAll, lastOn]
    cases ho : namespacesOn heap (some m) n e cb with
    | none =>
      simp only [namespacesOn] at ho
      split at ho <;> cases ho
    | some r =>
      obtain ⟨heap', m', p⟩ := r
      obtain ⟨hs, _, hd⟩ := on_one h ho
      simp only
      rw [ih heap' m' hs, hd]

/-- C72: On returns the Events of the namespace themselves: On of the result is On of the namespace. -/
theorem c72_chain {heap heap' : Heap α} {m m' : NsMap} {p : Nat} {ns ev : Bytes} {cb : α} (h : UnsharedMaps heap m)
    (ho : namespacesOn heap (some m) ns ev cb = some (heap', m', p)) (ev2 : Bytes) (cb2 : α) :
    namespacesOn heap' (some m') ns ev2 cb2 = (eventsOn heap' (some p) ev2 cb2).map fun hp => (hp, m', p) := by
  simp [namespacesOn, eventsOn, (on_one h ho).2.1]

/-- C72: On panics exactly on a nil map. -/
theorem c72_nil (heap : Heap α) (nss : Option NsMap) (e : Option Nat) (ns ev : Bytes) (cb : α) :
    (namespacesOn heap nss ns ev cb = none ↔ nss = none) ∧ (eventsOn heap e ev cb = none ↔ e = none) := by
  constructor
  · cases nss with
    | none => simp [namespacesOn]
    | some m =>
      simp only [namespacesOn, reduceCtorEq, iff_false]
      split <;> simp
  · cases e <;> simp [eventsOn]

/-- C72 fails for a shared map: when two namespaces have the same Events, On for one registers for both. -/
theorem c72_shared_refuted : ∃ (heap : Heap Nat) (m : NsMap),
    declares heap m (b! "a") (b! "ev") = none ∧
    declares (onAll heap m [(b! "b", b! "ev", 7)]).1 (onAll heap m [(b! "b", b! "ev", 7)]).2 (b! "a") (b! "ev") = some 7 :=
  ⟨[[]], [(b! "a", some 0), (b! "b", some 0)], by decide +kernel, by decide +kernel⟩

example : UnsharedMaps (α := Nat) [[(b! "x", 1)]] [(b! "a", some 0), (b! "b", none)] ∧
    declares (onAll (α := Nat) [[(b! "x", 1)]] [(b! "a", some 0), (b! "b", none)]
      [(b! "b", b! "x", 2), (b! "b", b! "x", 3), (b! "c", b! "y", 4)]).1
      (onAll (α := Nat) [[(b! "x", 1)]] [(b! "a", some 0), (b! "b", none)]
      [(b! "b", b! "x", 2), (b! "b", b! "x", 3), (b! "c", b! "y", 4)]).2 (b! "b") (b! "x") = some 3 := by
  refine ⟨⟨?_, ?_⟩, by decide +kernel⟩
  · intro n p h
    simp only [mapGet] at h
    split at h
    · cases h; decide
    · split at h <;> cases h
  · intro n n' p h h'
    simp only [mapGet] at h h'
    split at h
    · split at h'
      · rename_i a b; rw [← a, ← b]
      · split at h' <;> cases h'
    · split at h <;> cases h

/-! ## C73 -/

/-- C73: exactly which arguments NewStruct takes: a handler, or a valid pointer to a struct, which is no NSConn, with an
exported method that is not called Namespace. -/
theorem c73_accepts (a : StructArg) (hu : (a.methods.map (·.name)).Nodup) :
    (∃ r, newStruct a = .ok r) ↔ a.isNil = false ∧ (a.isHandler = true ∨
      a.valid = true ∧ a.isPtr = true ∧ a.toNSConn = false ∧ a.toStruct = true ∧ ∃ m ∈ a.methods, m.name ≠ b! "Namespace") := by
  obtain ⟨n, s, v, p, c, t, ms⟩ := a
  simp only at hu
  have key : (ms.length = 0 ∨ ms.length = 1 ∧ ms.any (·.name = b! "Namespace") = true) ↔
      ¬ ∃ m ∈ ms, m.name ≠ b! "Namespace" := by
    match ms, hu with
    | [], _ => simp
    | [x], _ => simp
    | x :: y :: rest, hu =>
      simp only [List.length_cons]
      constructor
      · rintro (h | ⟨h, _⟩) <;> omega
      · intro h
        exfalso
        have h1 : x.name = b! "Namespace" := Decidable.byContradiction fun e => h ⟨x, by simp, e⟩
        have h2 : y.name = b! "Namespace" := Decidable.byContradiction fun e => h ⟨y, by simp, e⟩
        simp [h1, h2] at hu
  unfold newStruct
  by_cases hk : ∃ m ∈ ms, m.name ≠ b! "Namespace"
  · have hk' := fun x => (key.mp x) hk
    simp only [if_neg hk']
    cases n <;> cases s <;> cases v <;> cases p <;> cases c <;> cases t <;> simp_all
  · have hk' := key.mpr hk
    simp only [if_pos hk']
    cases n <;> cases s <;> cases v <;> cases p <;> cases c <;> cases t <;> simp_all

/-- C73: a struct that is accepted and has a method of the right type, without a matcher, handles an event. -/
theorem c73_handles_partial (ms : List Method) (dynamic : Bool) (m : Method) (hm : m ∈ ms) (hf : m.fits = true) :
    ∃ ev cb, mapGet (makeEventsFromStruct none dynamic ms) ev = some cb := by
  have hne : eventsOfMethods none ms ≠ [] := by
    have gen : ∀ (l : List Method) (acc : List (Bytes × StructCb)), (acc ≠ [] ∨ m ∈ l) →
        l.foldl (addMethod none) acc ≠ [] := by
      intro l
      induction l with
      | nil => intro acc h; simpa using h
      | cons x t ih =>
        intro acc h
        rw [List.foldl_cons]
        apply ih
        by_cases hx : x.fits = true
        · left
          have : ∃ ev, eventOfMethod none x.name = some ev := by
            unfold eventOfMethod
            dsimp only
            exact ⟨_, ite_self _⟩
          obtain ⟨ev, he⟩ := this
          simp [addMethod, hx, he, mapSet]
        · rcases h with h | h
          · left; simpa [addMethod, hx] using h
          · rcases List.mem_cons.mp h with rfl | h
            · exact absurd hf hx
            · exact .inr h
    exact gen ms [] (.inr hm)
  cases dynamic with
  | true =>
    exact ⟨OnNamespaceConnect, _, by
      unfold makeEventsFromStruct
      dsimp only
      rw [if_pos rfl, mapGet_mapSet, if_pos rfl]⟩
  | false =>
    unfold makeEventsFromStruct
    simp only [Bool.false_eq_true, if_false]
    cases h : eventsOfMethods none ms with
    | nil => exact absurd h hne
    | cons p t => exact ⟨p.1, p.2, by simp [mapGet]⟩

/-- C73 fails: NewStruct takes a struct none of whose methods is a callback; it handles no event. -/
theorem c73_none_refuted : ∃ (a : StructArg) (m : Method), newStruct a = .ok false ∧ a.methods = [m] ∧
    ∀ matcher, makeEventsFromStruct matcher false a.methods = [] :=
  ⟨{ methods := [⟨b! "Chat", false⟩] }, ⟨b! "Chat", false⟩, rfl, rfl, fun _ => rfl⟩

example : newStruct { methods := [⟨b! "Chat", true⟩, ⟨b! "Namespace", false⟩] } = .ok false := by rfl

/-! ## C74 -/

/-- C74 for values that can be marshaled: the receiver of the message unmarshals the value that was marshaled, whatever
the two sides use for it, when unmarshaling is the inverse of marshaling. -/
theorem c74_value_partial (known : List KnownErr) (typ : MsgType) (an : Bool) (m : Message) {V : Type} (v : Marshalable)
    (u : Unmarshalable V) (x : V) (b : Bytes)
    (hm : (v.own = some (.ok b)) ∨ v.own = none ∧ v.default = .ok b)
    (hu : (∃ f, u.own = some f ∧ f b = .ok x) ∨ u.own = none ∧ u.default b = .ok x)
    (hb : marshal (some v) = some m.body)
    (hnat : m.isNative = false ∨ m.wait ≠ []) (hx : m.fromExplicit = []) (he : m.err = none)
    (hw : PlainToken m.wait) (h1 : SafeName m.ns) (h2 : SafeName m.room) (h3 : SafeName m.event) :
    ∃ w, serializeMessage m = some w ∧
      unmarshal (deserializeMessage known typ w an false).body (some u) = some (.ok x) := by
  obtain ⟨w, hw1, hw2⟩ := c01_round_trip known typ an m hnat hx he hw h1 h2 h3
  refine ⟨w, hw1, ?_⟩
  have hmb : m.body = b := by
    rcases hm with h | ⟨h, h'⟩
    · simpa [marshal, h, eq_comm] using hb
    · simpa [marshal, h, h', eq_comm] using hb
  rw [hw2]
  simp only [hmb]
  rcases hu with ⟨f, h, h'⟩ | ⟨h, h'⟩
  · simp [unmarshal, h, h']
  · simp [unmarshal, h, h']

/-- C74: the method of a value comes before the default, on both sides; nil is a panic. -/
theorem c74_choice {V : Type} (r d : Except GoErr Bytes) (f g : Bytes → Except GoErr V) (b : Bytes) :
    marshal (some ⟨some r, d⟩) = marshal (some ⟨none, r⟩) ∧
    unmarshal b (some ⟨some f, g⟩) = some (f b) ∧ unmarshal b (some (⟨none, g⟩ : Unmarshalable V)) = some (g b) ∧
    marshal none = none ∧ unmarshal b (none : Option (Unmarshalable V)) = none := by
  refine ⟨rfl, rfl, rfl, rfl, rfl⟩

/-- C74 fails: a value that cannot be marshaled is sent all the same. The receiver sees no error, and the text of the error is the
body. -/
theorem c74_error_refuted (known : List KnownErr) (typ : MsgType) (an : Bool) (e : GoErr) (d : Except GoErr Bytes) :
    ∃ (m : Message) (w : Bytes), marshal (some ⟨some (.error e), d⟩) = some m.body ∧ serializeMessage m = some w ∧
      (deserializeMessage known typ w an false).err = none ∧
      (deserializeMessage known typ w an false).isError = false ∧
      (deserializeMessage known typ w an false).body = e.errorText := by
  let m : Message := { ns := b! "ns", event := b! "ev", body := e.errorText }
  obtain ⟨w, h1, h2⟩ := c01_round_trip known typ an m (.inl rfl) rfl rfl
    ⟨by simp [m], by intro h; simp [m] at h, by intro c t h; simp [m] at h⟩
    ((unescape_escape_iff (b! "ns")).mp (by decide +kernel)) ((unescape_escape_iff []).mp (by decide +kernel))
    ((unescape_escape_iff (b! "ev")).mp (by decide +kernel))
  refine ⟨m, w, rfl, h1, ?_⟩
  rw [h2]
  exact ⟨rfl, rfl, rfl⟩

example : marshal (some ⟨none, .ok (b! "7")⟩) = some (b! "7") ∧
    marshal (some ⟨some (.error (.text (b! "bad"))), .ok (b! "7")⟩) = some (b! "bad") := ⟨rfl, rfl⟩

end Neffos
