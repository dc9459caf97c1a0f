import Verif.Proofs.Handler
/-!
# C10, C11, C12, C56: dispatch, joined handlers, struct handlers, timeouts
-/
set_option autoImplicit false
namespace Neffos

variable {α : Type}

/-! ## C10 -/

/-- C10: with a callback registered under the name of the event, that callback runs, its
result is the result and nothing else happens. -/
theorem c10_exact {σ : Type} (e : List (Bytes × MsgHandler σ)) (hk : (e.map (·.1)).Nodup)
    (c : Nat) (msg : Message) (w : σ) (h : MsgHandler σ) (hm : (msg.event, h) ∈ e) :
    fireEvent e c msg w = h c msg w := by
  unfold fireEvent
  rw [mapGet_of_mem hk hm]

/-- C10: without one, the callback registered for any event runs. -/
theorem c10_any {σ : Type} (e : List (Bytes × MsgHandler σ)) (hk : (e.map (·.1)).Nodup)
    (c : Nat) (msg : Message) (w : σ) (hno : ∀ h, (msg.event, h) ∉ e) (h : MsgHandler σ)
    (hm : (b! "_OnAnyEvent", h) ∈ e) : fireEvent e c msg w = h c msg w := by
  unfold fireEvent
  have h1 : mapGet e msg.event = none := by
    cases hx : mapGet e msg.event with
    | none => rfl
    | some h =>
      have : (mapGet e msg.event).isSome := by rw [hx]; rfl
      rw [mapGet_isSome_iff] at this
      obtain ⟨p, hp, he⟩ := List.mem_map.mp this
      exact absurd (he ▸ hp) (hno p.2)
  have h2 : mapGet e OnAnyEvent = some h := mapGet_of_mem hk hm
  rw [h1, h2]

/-- C10: without either nothing happens and the result is nil. -/
theorem c10_none {σ : Type} (e : List (Bytes × MsgHandler σ)) (c : Nat) (msg : Message) (w : σ)
    (hno : ∀ h, (msg.event, h) ∉ e) (hna : ∀ h, (b! "_OnAnyEvent", h) ∉ e) :
    fireEvent e c msg w = (w, none) := by
  have key : ∀ k, (∀ h, (k, h) ∉ e) → mapGet e k = none := by
    intro k hno
    cases hx : mapGet e k with
    | none => rfl
    | some h =>
      have : (mapGet e k).isSome := by rw [hx]; rfl
      rw [mapGet_isSome_iff] at this
      obtain ⟨p, hp, he⟩ := List.mem_map.mp this
      exact absurd (he ▸ hp) (hno p.2)
  unfold fireEvent
  have h2 : mapGet e OnAnyEvent = none := key _ hna
  rw [key _ hno, h2]

/-- three callbacks that note their number -/
def noting (n : Nat) (ret : Option GoErr) : MsgHandler (List Nat) := fun _ _ w => (w ++ [n], ret)

/-- a table with two named events and a fallback -/
def exTable : List (Bytes × MsgHandler (List Nat)) :=
  [(b! "chat", noting 1 none), (b! "_OnAnyEvent", noting 2 (some .eof)),
    (b! "bye", noting 3 none)]

example : (exTable.map (·.1)).Nodup ∧ (b! "bye", noting 3 none) ∈ exTable ∧
    fireEvent exTable 0 { event := b! "bye" } [] = ([3], none) ∧
    fireEvent exTable 0 { event := b! "x" } [] = ([2], some .eof) :=
  ⟨by decide +kernel, by simp [exTable], rfl, rfl⟩

/-- C10, on a connection: firing notes one callback at most, that of the event name if
declared in the namespace of the NSConn, else the OnAnyEvent one, with its result; all else
that happens are the writes and closes of that callback. -/
theorem c10_fire (cfg : Cfg) (s : St) (obj : Nat) (msg : Message) :
    fire cfg s obj msg =
      if msg.event ∈ cfg.events (s.nsName obj) then
        ((cfg.cb s.log obj msg.event msg).1.foldl (runAct cfg)
          (s.emit (.fired obj (s.view obj msg) msg (some msg.event)
            (cfg.cb s.log obj msg.event msg).2)), (cfg.cb s.log obj msg.event msg).2)
      else if b! "_OnAnyEvent" ∈ cfg.events (s.nsName obj) then
        ((cfg.cb s.log obj (b! "_OnAnyEvent") msg).1.foldl (runAct cfg)
          (s.emit (.fired obj (s.view obj msg) msg (some (b! "_OnAnyEvent"))
            (cfg.cb s.log obj (b! "_OnAnyEvent") msg).2)),
          (cfg.cb s.log obj (b! "_OnAnyEvent") msg).2)
      else (s.emit (.fired obj (s.view obj msg) msg none none), none) := by
  unfold fire pick
  dsimp only
  by_cases h1 : msg.event ∈ cfg.events (s.nsName obj)
  · simp [h1]
  · by_cases h2 : (b! "_OnAnyEvent") ∈ cfg.events (s.nsName obj)
    · have h3 : OnAnyEvent ∈ cfg.events (s.nsName obj) := h2
      rw [if_neg h1, if_neg h1, if_pos h2, if_pos h3]
      rfl
    · have h3 : OnAnyEvent ∉ cfg.events (s.nsName obj) := h2
      rw [if_neg h1, if_neg h1, if_neg h2, if_neg h3]

/-! ## C11 -/

/-- a handler declares a callback for a namespace and an event -/
def Declares (heap : Heap α) (nss : NsMap) (ns ev : Bytes) (cb : α) : Prop :=
  ∃ p, mapGet nss ns = some (some p) ∧ mapGet (heap.at p) ev = some cb

/-- the maps of a handler exist -/
def Exists (heap : Heap α) (nss : NsMap) : Prop :=
  ∀ ns p, mapGet nss ns = some (some p) → p < heap.length

theorem declares_iff (heap : Heap α) (nss : NsMap) (ns ev : Bytes) (cb : α) :
    declares heap nss ns ev = some cb ↔ Declares heap nss ns ev cb := by
  unfold declares Declares
  cases mapGet nss ns with
  | none => simp
  | some o => cases o <;> simp

/-- C11: the joined handler has a callback for a namespace and event exactly when some handler
declares it, and it is that of the last one that does. -/
theorem c11_last (rg : Ranges) (heap : Heap α) (hs : List NsMap) (hv : ∀ nss ∈ hs, Exists heap nss)
    (ns ev : Bytes) (cb : α) :
    (∃ q, mapGet (joinConnHandlers rg hs heap).out ns = some q ∧
      mapGet ((joinConnHandlers rg hs heap).heap.at q) ev = some cb) ↔
    ∃ before nss after, hs = before ++ nss :: after ∧ Declares heap nss ns ev cb ∧
      ∀ n ∈ after, ∀ cb', ¬ Declares heap n ns ev cb' := by
  obtain ⟨_, h2, _⟩ := join_spec rg hs hv ⟨heap, 0, []⟩
    ⟨Nat.le_refl _, fun _ _ => rfl, by simp [mapGet], by simp [mapGet]⟩
  have e := h2 ns ev
  have : (joinConnHandlers rg hs heap).look ns ev = some cb ↔
      ∃ q, mapGet (joinConnHandlers rg hs heap).out ns = some q ∧
      mapGet ((joinConnHandlers rg hs heap).heap.at q) ev = some cb := by
    unfold JoinSt.look
    cases mapGet (joinConnHandlers rg hs heap).out ns <;> simp
  rw [← this]
  have e' : (joinConnHandlers rg hs heap).look ns ev = lastOf heap hs ns ev none := e
  rw [e', lastOf_eq_some]
  simp only [reduceCtorEq, false_and, or_false]
  constructor
  · rintro ⟨a, n, b, h1, h2, h3⟩
    refine ⟨a, n, b, h1, (declares_iff ..).mp h2, fun m hm cb' hd => ?_⟩
    rw [← declares_iff, h3 m hm] at hd
    cases hd
  · rintro ⟨a, n, b, h1, h2, h3⟩
    refine ⟨a, n, b, h1, (declares_iff ..).mpr h2, fun m hm => ?_⟩
    cases hd : declares heap m ns ev with
    | none => rfl
    | some cb' => exact absurd ((declares_iff ..).mp hd) (h3 m hm cb')

/-- C11: a namespace is declared by the joined handler exactly when some handler declares it
with events that are not nil. -/
theorem c11_namespaces (rg : Ranges) (heap : Heap α) (hs : List NsMap)
    (hv : ∀ nss ∈ hs, Exists heap nss) (ns : Bytes) :
    (∃ q, mapGet (joinConnHandlers rg hs heap).out ns = some q) ↔
      ∃ nss ∈ hs, ∃ p, mapGet nss ns = some (some p) := by
  obtain ⟨_, _, h3⟩ := join_spec rg hs hv ⟨heap, 0, []⟩
    ⟨Nat.le_refl _, fun _ _ => rfl, by simp [mapGet], by simp [mapGet]⟩
  have e := h3 ns
  simp only [mapGet, Option.isSome_none, Bool.false_eq_true, false_or] at e
  rw [← e, Option.isSome_iff_exists]
  exact Iff.rfl

/-- C11: the maps of the handlers are not changed, and those of the result are new ones, a
different one for each namespace. -/
theorem c11_inputs (rg : Ranges) (heap : Heap α) (hs : List NsMap)
    (hv : ∀ nss ∈ hs, Exists heap nss) :
    (∀ p, p < heap.length → (joinConnHandlers rg hs heap).heap.at p = heap.at p) ∧
    (∀ ns q, mapGet (joinConnHandlers rg hs heap).out ns = some q → heap.length ≤ q) ∧
    (∀ ns ns' q, mapGet (joinConnHandlers rg hs heap).out ns = some q →
      mapGet (joinConnHandlers rg hs heap).out ns' = some q → ns = ns') := by
  obtain ⟨h1, _, _⟩ := join_spec rg hs hv ⟨heap, 0, []⟩
    ⟨Nat.le_refl _, fun _ _ => rfl, by simp [mapGet], by simp [mapGet]⟩
  exact ⟨h1.old, fun ns q h => (h1.fresh ns q h).1, h1.inj⟩

/-- C11: the iteration order of Go maps does not matter. -/
theorem c11_order (rg rg' : Ranges) (heap : Heap α) (hs : List NsMap)
    (hv : ∀ nss ∈ hs, Exists heap nss) (ns ev : Bytes) (cb : α) :
    (∃ q, mapGet (joinConnHandlers rg hs heap).out ns = some q ∧
      mapGet ((joinConnHandlers rg hs heap).heap.at q) ev = some cb) ↔
    (∃ q, mapGet (joinConnHandlers rg' hs heap).out ns = some q ∧
      mapGet ((joinConnHandlers rg' hs heap).heap.at q) ev = some cb) := by
  rw [c11_last rg heap hs hv, c11_last rg' heap hs hv]

/-- maps are ranged over in reverse -/
def reverseRanges : Ranges := ⟨fun _ xs => xs.reverse, fun _ xs => List.reverse_perm xs⟩

/-- two handlers with a common namespace and a common event, and nil events -/
def exHeap : Heap Nat := [[(b! "a", 1), (b! "b", 2)], [(b! "b", 3)], [(b! "c", 4)]]
def exHandlers : List NsMap := [[(b! "x", some 0), (b! "n", none)], [(b! "y", some 2), (b! "x", some 1)]]

example : (∀ nss ∈ exHandlers, Exists exHeap nss) ∧
    Declares exHeap [(b! "y", some 2), (b! "x", some 1)] (b! "x") (b! "b") 3 ∧
    (joinConnHandlers reverseRanges exHandlers exHeap).look (b! "x") (b! "b") = some 3 ∧
    (joinConnHandlers reverseRanges exHandlers exHeap).look (b! "x") (b! "a") = some 1 := by
  refine ⟨?_, ⟨1, rfl, rfl⟩, by decide +kernel, by decide +kernel⟩
  intro nss h ns p hp
  have key : ∀ nss ∈ exHandlers, ∀ e ∈ nss, ∀ p, e.2 = some p → p < exHeap.length := by
    decide +kernel
  have mem : ∀ (m : NsMap) (v : Option Nat), mapGet m ns = some v → (ns, v) ∈ m := by
    intro m v
    induction m with
    | nil => simp [mapGet]
    | cons q m ih =>
      unfold mapGet
      split
      · rename_i e; intro h; cases h; simp [← e]
      · intro h; exact List.mem_cons_of_mem _ (ih h)
  exact key nss h _ (mem nss _ hp) p rfl

/-! ## C12 -/

/-- the names of system events without the underscore -/
def systemNames : List Bytes :=
  [b! "OnNamespaceConnect", b! "OnNamespaceConnected", b! "OnNamespaceDisconnect",
    b! "OnRoomJoin", b! "OnRoomJoined", b! "OnRoomLeave", b! "OnRoomLeft"]

theorem isSystem_iff (m : Bytes) : isSystemEvent (95 :: m) = true ↔ m ∈ systemNames := by
  unfold isSystemEvent systemNames OnNamespaceConnect OnNamespaceConnected OnNamespaceDisconnect
    OnRoomJoin OnRoomJoined OnRoomLeave OnRoomLeft
  simp only [Bool.or_eq_true, decide_eq_true_eq, List.cons.injEq, true_and, List.mem_cons,
    List.not_mem_nil, or_false]
  simp only [or_assoc]

theorem isSystem_head (m : Bytes) (h : m.head? ≠ some 95) : isSystemEvent m = false := by
  cases hs : isSystemEvent m with
  | false => rfl
  | true =>
    exfalso
    apply h
    unfold isSystemEvent OnNamespaceConnect OnNamespaceConnected OnNamespaceDisconnect
      OnRoomJoin OnRoomJoined OnRoomLeave OnRoomLeft at hs
    simp only [Bool.or_eq_true, decide_eq_true_eq] at hs
    rcases hs with (((((h | h) | h) | h) | h) | h) | h <;> rw [h] <;> rfl

/-- C12: a method with the name of a system event is registered as that, whatever the
matcher. -/
theorem c12_system (matcher : Option Matcher) (m : Bytes) (h : m ∈ systemNames) :
    eventOfMethod matcher m = some (b! "_" ++ m) := by
  have := (isSystem_iff m).mpr h
  unfold eventOfMethod
  simp [this]

/-- C12: any other method of an exported name is registered under the name that the matcher
gives, not at all when the matcher rejects it, and under its own name without a matcher. -/
theorem c12_matched (f : Matcher) (m : Bytes) (h : m ∉ systemNames) (hx : m.head? ≠ some 95) :
    eventOfMethod (some f) m = f m ∧ eventOfMethod none m = some m := by
  have h1 : isSystemEvent (95 :: m) = false := by
    cases hs : isSystemEvent (95 :: m) with
    | false => rfl
    | true => exact absurd ((isSystem_iff m).mp hs) h
  have h2 := isSystem_head m hx
  unfold eventOfMethod
  simp [h1, h2]

/-- C12: the prefix matcher accepts exactly the names with the prefix, unchanged. -/
theorem c12_prefix (p m e : Bytes) :
    eventPrefixMatcher p m = some e ↔ e = m ∧ ∃ rest, m = p ++ rest := by
  unfold eventPrefixMatcher
  by_cases h : p.isPrefixOf m = true
  · rw [if_pos h]
    rw [List.isPrefixOf_iff_prefix] at h
    obtain ⟨r, hr⟩ := h
    simp only [Option.some.injEq]
    exact ⟨fun e => ⟨e.symm, r, hr.symm⟩, fun e => e.1.symm⟩
  · rw [if_neg h]
    simp only [reduceCtorEq, false_iff, not_and, not_exists]
    intro _ r hr
    exact h (List.isPrefixOf_iff_prefix.mpr ⟨r, hr.symm⟩)

/-- C12: the trimming matcher accepts exactly the names with the prefix, without it. -/
theorem c12_trim (p m e : Bytes) : eventTrimPrefixMatcher p m = some e ↔ m = p ++ e := by
  unfold eventTrimPrefixMatcher
  by_cases h : p.isPrefixOf m = true
  · rw [if_pos h]
    rw [List.isPrefixOf_iff_prefix] at h
    obtain ⟨r, rfl⟩ := h
    simp
  · rw [if_neg h]
    simp only [reduceCtorEq, false_iff]
    intro hr
    exact h (List.isPrefixOf_iff_prefix.mpr ⟨e, hr.symm⟩)

/-- the name of an exported method does not start with an underscore -/
abbrev Exported (m : Bytes) : Prop := m.head? ≠ some 95

/-- the name that a matcher gives, the own name without one -/
def given (matcher : Option Matcher) (m : Bytes) : Option Bytes :=
  match matcher with
  | some f => f m
  | none => some m

theorem eventOfMethod_cases (matcher : Option Matcher) (m ev : Bytes) (hx : Exported m)
    (h : eventOfMethod matcher m = some ev) :
    (m ∈ systemNames ∧ ev = b! "_" ++ m) ∨
    (m ∉ systemNames ∧ given matcher m = some ev) := by
  by_cases hm : m ∈ systemNames
  · rw [c12_system matcher m hm] at h
    exact .inl ⟨hm, by simpa using h.symm⟩
  · refine .inr ⟨hm, ?_⟩
    cases matcher with
    | none => rw [(c12_matched (fun _ => none) m hm hx).2] at h; exact h
    | some f => rw [(c12_matched f m hm hx).1] at h; exact h

/-- C12: without a matcher and with the prefix matcher, different methods are different
events. -/
theorem c12_distinct (p : Bytes) (matcher : Option Matcher)
    (hmatch : matcher = none ∨ matcher = some (eventPrefixMatcher p)) (m1 m2 ev : Bytes)
    (h1 : Exported m1) (h2 : Exported m2) (e1 : eventOfMethod matcher m1 = some ev)
    (e2 : eventOfMethod matcher m2 = some ev) : m1 = m2 := by
  have own : ∀ m, given matcher m = some ev → ev = m := by
    intro m h
    rcases hmatch with rfl | rfl
    · exact (Option.some.inj h).symm
    · exact ((c12_prefix p m ev).mp h).1
  rcases eventOfMethod_cases _ _ _ h1 e1 with ⟨a1, a2⟩ | ⟨a1, a2⟩ <;>
    rcases eventOfMethod_cases _ _ _ h2 e2 with ⟨b1, b2⟩ | ⟨b1, b2⟩
  · rw [a2] at b2; simpa using b2
  · exfalso; apply h2; rw [← own m2 b2, a2]; rfl
  · exfalso; apply h1; rw [← own m1 a2, b2]; rfl
  · rw [← own m1 a2, own m2 b2]

/-- C12, partial: with the trimming matcher two methods are the same event only if one is
named like a system event and the other is the prefix, an underscore and that name. -/
theorem c12_distinct_trim_partial (p m1 m2 ev : Bytes) (h1 : Exported m1) (h2 : Exported m2)
    (e1 : eventOfMethod (some (eventTrimPrefixMatcher p)) m1 = some ev)
    (e2 : eventOfMethod (some (eventTrimPrefixMatcher p)) m2 = some ev) :
    m1 = m2 ∨ (m1 ∈ systemNames ∧ m2 = p ++ b! "_" ++ m1) ∨
      (m2 ∈ systemNames ∧ m1 = p ++ b! "_" ++ m2) := by
  rcases eventOfMethod_cases _ _ _ h1 e1 with ⟨a1, a2⟩ | ⟨a1, a2⟩ <;>
    rcases eventOfMethod_cases _ _ _ h2 e2 with ⟨b1, b2⟩ | ⟨b1, b2⟩
  · rw [a2] at b2; left; simpa using b2
  · right; left
    rw [(c12_trim _ _ _).mp b2, a2]
    exact ⟨a1, by simp⟩
  · right; right
    rw [(c12_trim _ _ _).mp a2, b2]
    exact ⟨b1, by simp⟩
  · left; rw [(c12_trim _ _ _).mp a2, (c12_trim _ _ _).mp b2]

/-- C12 fails with the trimming matcher: the methods OnRoomJoin and On_OnRoomJoin, prefix
"On", are the same event, so one of them is lost. -/
theorem c12_refuted : ∃ (p m1 m2 ev : Bytes), Exported m1 ∧ Exported m2 ∧ m1 ≠ m2 ∧
    eventOfMethod (some (eventTrimPrefixMatcher p)) m1 = some ev ∧
    eventOfMethod (some (eventTrimPrefixMatcher p)) m2 = some ev :=
  ⟨b! "On", b! "OnRoomJoin", b! "On_OnRoomJoin", b! "_OnRoomJoin", by decide +kernel,
    by decide +kernel, by decide +kernel, by decide +kernel, by decide +kernel⟩

/-- C12: without a matcher no method is registered for any event or for native messages:
they are not system events here. -/
theorem c12_any (m : Bytes) (hx : Exported m) :
    eventOfMethod none m ≠ some (b! "_OnAnyEvent") ∧
    eventOfMethod none m ≠ some (b! "_OnNativeMessage") := by
  have key : ∀ ev : Bytes, ev.head? = some 95 → ev ∉ systemNames.map (b! "_" ++ ·) →
      eventOfMethod none m ≠ some ev := by
    intro ev he hn h
    rcases eventOfMethod_cases _ _ _ hx h with ⟨a1, a2⟩ | ⟨a1, a2⟩
    · exact hn (a2 ▸ List.mem_map_of_mem a1)
    · exact hx (Option.some.inj a2 ▸ he)
  exact ⟨key _ rfl (by decide +kernel), key _ rfl (by decide +kernel)⟩

/-- C12, the whole struct: the callback of an event is the last method, in order, that has
the type of a callback and is registered under that event; OnNamespaceConnect of a struct
with an NSConn field makes the struct value first. -/
theorem c12_struct (matcher : Option Matcher) (dynamic : Bool) (ms : List Method) (ev m : Bytes)
    (hd : dynamic = false ∨ ev ≠ b! "_OnNamespaceConnect") :
    mapGet (makeEventsFromStruct matcher dynamic ms) ev = some (.call m) ↔
      ∃ before after, ms = before ++ ⟨m, true⟩ :: after ∧ eventOfMethod matcher m = some ev ∧
        ∀ x ∈ after, x.fits = true → eventOfMethod matcher x.name ≠ some ev := by
  have e1 : mapGet (makeEventsFromStruct matcher dynamic ms) ev =
      mapGet (eventsOfMethods matcher ms) ev := by
    unfold makeEventsFromStruct
    dsimp only
    split
    · rename_i h
      rw [mapGet_mapSet, if_neg]
      rcases hd with hd | hd
      · rw [hd] at h; cases h
      · exact hd
    · rfl
  rw [e1, eventsOfMethods_get]
  constructor
  · rintro ⟨a, f, b, h1, rfl, h3⟩
    exact ⟨a, b, h1, h3⟩
  · rintro ⟨a, b, h1, h3⟩
    exact ⟨a, true, b, h1, rfl, h3⟩

/-- C12: a struct with an NSConn field always handles OnNamespaceConnect, by making the
struct value and then calling its method of that event, if it has one. -/
theorem c12_dynamic (matcher : Option Matcher) (ms : List Method) :
    ∃ om, mapGet (makeEventsFromStruct matcher true ms) (b! "_OnNamespaceConnect") =
        some (.inject om) ∧
      ∀ m, om = some m ↔
        mapGet (makeEventsFromStruct matcher false ms) (b! "_OnNamespaceConnect") = some (.call m) := by
  refine ⟨match mapGet (eventsOfMethods matcher ms) OnNamespaceConnect with
        | some cb => cb.method
        | none => none, ?_, ?_⟩
  · unfold makeEventsFromStruct
    dsimp only
    rw [if_pos rfl, mapGet_mapSet]
    exact if_pos rfl
  · intro m
    unfold makeEventsFromStruct
    simp only [Bool.false_eq_true, if_false]
    show _ ↔ mapGet (eventsOfMethods matcher ms) OnNamespaceConnect = some (.call m)
    cases hg : mapGet (eventsOfMethods matcher ms) OnNamespaceConnect with
    | none => simp
    | some cb =>
      obtain ⟨m', rfl⟩ := eventsOfMethods_call _ _ _ _ hg
      simp [StructCb.method]

example : mapGet (makeEventsFromStruct (some (eventTrimPrefixMatcher (b! "On"))) true
      [⟨b! "OnChat", true⟩, ⟨b! "OnOther", false⟩, ⟨b! "OnRoomJoin", true⟩]) (b! "Chat")
      = some (.call (b! "OnChat")) ∧
    b! "OnRoomJoin" ∈ systemNames ∧ b! "OnChat" ∉ systemNames ∧ Exported (b! "OnChat") := by
  refine ⟨by decide +kernel, by decide +kernel, by decide +kernel, by decide +kernel⟩

/-! ## C56 -/

/-- C56, partial: a server or client made with a WithTimeout or Struct handler uses its
timeouts. -/
theorem c56_timeouts_partial (r w : Int) (m : NsMap) (e : Option Nat) (ns : Bytes) (p : Nat) :
    getTimeouts (.withTimeout r w m e) = (r, w) ∧ getTimeouts (.struct r w ns p) = (r, w) :=
  ⟨rfl, rfl⟩

/-- C56 fails: handlers that are joined have no timeouts, whatever theirs are. -/
theorem c56_refuted (rg : Ranges) (heap : Heap α) (hs : List Handlers) :
    getTimeouts (joinHandlers rg heap hs).2 = (0, 0) := rfl

end Neffos
