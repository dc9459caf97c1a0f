import Verif.Props.Handlers
/-!
# C111: exactly which methods of a struct controller are ever called, and the methods that hide each other
-/
set_option autoImplicit false
namespace Neffos

/-- some event calls the method -/
def IsCalled (matcher : Option Matcher) (dynamic : Bool) (ms : List Method) (m : Bytes) : Prop :=
  ∃ ev cb, mapGet (makeEventsFromStruct matcher dynamic ms) ev = some cb ∧ cb.method = some m

/-- the method `x` comes behind `m` in the order of the methods, both with the type of a callback -/
def MethodAfter (ms : List Method) (m x : Bytes) : Prop :=
  ∃ a b c, ms = a ++ ⟨m, true⟩ :: b ++ ⟨x, true⟩ :: c

namespace MethodsExact

theorem called_static {matcher : Option Matcher} {ms : List Method} {m : Bytes} :
    IsCalled matcher false ms m ↔ ∃ ev before after, ms = before ++ ⟨m, true⟩ :: after ∧ eventOfMethod matcher m = some ev ∧
        ∀ x ∈ after, x.fits = true → eventOfMethod matcher x.name ≠ some ev := by
  constructor
  · rintro ⟨ev, cb, h1, h2⟩
    have : makeEventsFromStruct matcher false ms = eventsOfMethods matcher ms := rfl
    obtain ⟨m', rfl⟩ := eventsOfMethods_call _ _ _ _ (this ▸ h1)
    cases h2
    exact ⟨ev, (c12_struct matcher false ms ev m (.inl rfl)).1 h1⟩
  · rintro ⟨ev, h⟩
    exact ⟨ev, .call m, (c12_struct matcher false ms ev m (.inl rfl)).2 h, rfl⟩

theorem called_dynamic {matcher : Option Matcher} {ms : List Method} {m : Bytes} :
    IsCalled matcher true ms m ↔ IsCalled matcher false ms m := by
  obtain ⟨om, h1, h2⟩ := c12_dynamic matcher ms
  have e : ∀ ev, ev ≠ b! "_OnNamespaceConnect" → mapGet (makeEventsFromStruct matcher true ms) ev =
      mapGet (makeEventsFromStruct matcher false ms) ev := by
    intro ev hev
    unfold makeEventsFromStruct
    dsimp only
    rw [if_pos rfl, if_neg (by simp), mapGet_mapSet]
    exact if_neg hev
  constructor
  · rintro ⟨ev, cb, h3, h4⟩
    by_cases hev : ev = b! "_OnNamespaceConnect"
    · subst hev
      rw [h1] at h3
      cases h3
      exact ⟨_, _, (h2 m).1 h4, rfl⟩
    · exact ⟨ev, cb, e ev hev ▸ h3, h4⟩
  · rintro ⟨ev, cb, h3, h4⟩
    by_cases hev : ev = b! "_OnNamespaceConnect"
    · subst hev
      obtain ⟨m', rfl⟩ := eventsOfMethods_call _ _ _ _ (show mapGet (eventsOfMethods matcher ms) _ = _ from h3)
      cases h4
      exact ⟨_, _, h1, (h2 m).2 h3⟩
    · exact ⟨ev, cb, (e ev hev).trans h3, h4⟩

theorem sys_no_underscore : ∀ m ∈ systemNames, (95 : UInt8) ∉ m := by decide +kernel

/-- the name of a system event is not made from another one -/
theorem not_both {p m x : Bytes} (hx : x ∈ systemNames) : x ≠ p ++ b! "_" ++ m := by
  rintro rfl
  exact sys_no_underscore _ hx (by simp)

end MethodsExact

open MethodsExact

/-- C111: a method is called by some event exactly if it has the type of a callback, is registered under an event and no
later method is registered under the same one. An NSConn field makes no difference. -/
theorem c111_called (matcher : Option Matcher) (dynamic : Bool) (ms : List Method) (m : Bytes) :
    IsCalled matcher dynamic ms m ↔ ∃ ev before after, ms = before ++ ⟨m, true⟩ :: after ∧ eventOfMethod matcher m = some ev ∧
        ∀ x ∈ after, x.fits = true → eventOfMethod matcher x.name ≠ some ev := by
  cases dynamic with
  | false => exact called_static
  | true => exact called_dynamic.trans called_static

/-- C111: without a matcher every method that fits is called. -/
theorem c111_none (dynamic : Bool) {ms : List Method} (hnd : (ms.map (·.name)).Nodup) (hx : ∀ x ∈ ms, Exported x.name)
    (m : Bytes) : IsCalled none dynamic ms m ↔ ⟨m, true⟩ ∈ ms := by
  rw [c111_called]
  constructor
  · rintro ⟨ev, a, b, rfl, _⟩
    simp
  · intro h
    obtain ⟨a, b, rfl⟩ := List.append_of_mem h
    obtain ⟨ev, hev⟩ : ∃ ev, eventOfMethod none m = some ev := by
      by_cases hs : m ∈ systemNames
      · exact ⟨_, c12_system none m hs⟩
      · exact ⟨_, (c12_matched (fun _ => none) m hs (hx ⟨m, true⟩ (by simp))).2⟩
    refine ⟨ev, a, b, rfl, hev, fun x hb _ he => ?_⟩
    have := c12_distinct [] none (.inl rfl) m x.name ev (hx ⟨m, true⟩ (by simp)) (hx x (by simp [hb])) hev he
    rw [List.map_append, List.map_cons, List.nodup_append] at hnd
    exact (List.nodup_cons.mp hnd.2.1).1 (List.mem_map.mpr ⟨x, hb, this.symm⟩)

/-- C111: with EventPrefixMatcher, every method that fits and has the prefix or the name of a system event. -/
theorem c111_prefix (p : Bytes) (dynamic : Bool) {ms : List Method} (hnd : (ms.map (·.name)).Nodup)
    (hx : ∀ x ∈ ms, Exported x.name) (m : Bytes) :
    IsCalled (some (eventPrefixMatcher p)) dynamic ms m ↔ ⟨m, true⟩ ∈ ms ∧ (m ∈ systemNames ∨ ∃ rest, m = p ++ rest) := by
  rw [c111_called]
  constructor
  · rintro ⟨ev, a, b, rfl, he, _⟩
    refine ⟨by simp, ?_⟩
    rcases eventOfMethod_cases _ _ _ (hx ⟨m, true⟩ (by simp)) he with ⟨h, _⟩ | ⟨_, h⟩
    · exact .inl h
    · exact .inr ((c12_prefix p m ev).1 h).2
  · rintro ⟨h, h'⟩
    obtain ⟨a, b, rfl⟩ := List.append_of_mem h
    obtain ⟨ev, hev⟩ : ∃ ev, eventOfMethod (some (eventPrefixMatcher p)) m = some ev := by
      by_cases hs : m ∈ systemNames
      · exact ⟨_, c12_system _ m hs⟩
      · refine ⟨m, ?_⟩
        rw [(c12_matched _ m hs (hx ⟨m, true⟩ (by simp))).1]
        exact (c12_prefix p m m).2 ⟨rfl, h'.resolve_left hs⟩
    refine ⟨ev, a, b, rfl, hev, fun x hb _ he => ?_⟩
    have := c12_distinct p _ (.inr rfl) m x.name ev (hx ⟨m, true⟩ (by simp)) (hx x (by simp [hb])) hev he
    rw [List.map_append, List.map_cons, List.nodup_append] at hnd
    exact (List.nodup_cons.mp hnd.2.1).1 (List.mem_map.mpr ⟨x, hb, this.symm⟩)

/-- C111: with EventTrimPrefixMatcher, every such method, except that of a system event `S` and the method prefix + "_" + `S`
only the later one is called. -/
theorem c111_trim (p : Bytes) (dynamic : Bool) {ms : List Method} (hnd : (ms.map (·.name)).Nodup)
    (hx : ∀ x ∈ ms, Exported x.name) (m : Bytes) :
    IsCalled (some (eventTrimPrefixMatcher p)) dynamic ms m ↔
      ⟨m, true⟩ ∈ ms ∧ (m ∈ systemNames ∨ ∃ rest, m = p ++ rest) ∧
        ¬ ∃ x, MethodAfter ms m x ∧
          ((m ∈ systemNames ∧ x = p ++ b! "_" ++ m) ∨ (x ∈ systemNames ∧ m = p ++ b! "_" ++ x)) := by
  have evSys : ∀ s ∈ systemNames, eventOfMethod (some (eventTrimPrefixMatcher p)) s = some (b! "_" ++ s) :=
    fun s h => c12_system _ s h
  have evMade : ∀ s, Exported (p ++ b! "_" ++ s) →
      eventOfMethod (some (eventTrimPrefixMatcher p)) (p ++ b! "_" ++ s) = some (b! "_" ++ s) := by
    intro s hx
    rw [(c12_matched _ _ (fun h => not_both h rfl) hx).1]
    exact (c12_trim p _ _).2 (by simp)
  rw [c111_called]
  constructor
  · rintro ⟨ev, a, b, rfl, he, ho⟩
    have hxm : Exported m := hx ⟨m, true⟩ (by simp)
    refine ⟨by simp, ?_, ?_⟩
    · rcases eventOfMethod_cases _ _ _ hxm he with ⟨h, _⟩ | ⟨_, h⟩
      · exact .inl h
      · exact .inr ⟨ev, (c12_trim p m ev).1 h⟩
    · rintro ⟨x, ⟨a', b', c', h1⟩, h2⟩
      -- the place of `m` is unique
      have hin : (⟨x, true⟩ : Method) ∈ b := by
        have hm : ∀ {l l' r r' : List Method}, l ++ ⟨m, true⟩ :: r = l' ++ ⟨m, true⟩ :: r' →
            ((l ++ ⟨m, true⟩ :: r).map (·.name)).Nodup → r = r' := by
          intro l
          induction l with
          | nil =>
            intro l' r r' h hn
            cases l' with
            | nil => simpa using h
            | cons y l' =>
              simp only [List.nil_append, List.cons_append, List.cons.injEq] at h
              obtain ⟨rfl, rfl⟩ := h
              simp at hn
          | cons y l ih =>
            intro l' r r' h hn
            cases l' with
            | nil =>
              simp only [List.nil_append, List.cons_append, List.cons.injEq] at h
              obtain ⟨rfl, rfl⟩ := h
              simp at hn
            | cons z l' =>
              simp only [List.cons_append, List.cons.injEq] at h
              obtain ⟨rfl, h⟩ := h
              exact ih h (by simp only [List.cons_append, List.map_cons, List.nodup_cons] at hn; exact hn.2)
        have h1' : a ++ ⟨m, true⟩ :: b = a' ++ ⟨m, true⟩ :: (b' ++ ⟨x, true⟩ :: c') := by rw [h1]; simp
        rw [hm h1' hnd]
        simp
      have hxx : Exported x := hx ⟨x, true⟩ (by simp [hin])
      refine ho _ hin rfl ?_
      rcases h2 with ⟨h3, rfl⟩ | ⟨h3, rfl⟩
      · rw [evSys m h3] at he
        rw [← he]
        exact evMade m hxx
      · rw [evMade x hxm] at he
        rw [← he]
        exact evSys x h3
  · rintro ⟨h, h', hno⟩
    obtain ⟨a, b, rfl⟩ := List.append_of_mem h
    have hxm : Exported m := hx ⟨m, true⟩ (by simp)
    obtain ⟨ev, hev⟩ : ∃ ev, eventOfMethod (some (eventTrimPrefixMatcher p)) m = some ev := by
      by_cases hs : m ∈ systemNames
      · exact ⟨_, evSys m hs⟩
      · obtain ⟨rest, hr⟩ := h'.resolve_left hs
        refine ⟨rest, ?_⟩
        rw [(c12_matched _ m hs hxm).1]
        exact (c12_trim p m rest).2 hr
    refine ⟨ev, a, b, rfl, hev, fun x hb hf he => ?_⟩
    have hxx : Exported x.name := hx x (by simp [hb])
    obtain ⟨c, d, rfl⟩ := List.append_of_mem hb
    obtain ⟨n, f⟩ := x
    simp only at hf hxx he
    subst hf
    rcases c12_distinct_trim_partial p m n ev hxm hxx hev he with h1 | h1 | h1
    · subst h1
      simp [List.nodup_append] at hnd
    · exact hno ⟨n, ⟨a, c, d, by simp⟩, .inl h1⟩
    · exact hno ⟨n, ⟨a, c, d, by simp⟩, .inr h1⟩

/-- OnRoomJoin and On_OnRoomJoin with the prefix "On", in the order in which reflect lists them: OnRoomJoin, 'R' being
before '_', is never called. -/
example :
    let ms : List Method := [⟨b! "OnChat", true⟩, ⟨b! "OnRoomJoin", true⟩, ⟨b! "On_OnRoomJoin", true⟩]
    (ms.map (·.name)).Nodup ∧ (∀ x ∈ ms, Exported x.name) ∧
    ¬ IsCalled (some (eventTrimPrefixMatcher (b! "On"))) false ms (b! "OnRoomJoin") ∧
    IsCalled (some (eventTrimPrefixMatcher (b! "On"))) false ms (b! "On_OnRoomJoin") ∧
    IsCalled (some (eventTrimPrefixMatcher (b! "On"))) false ms (b! "OnChat") := by
  refine ⟨by decide +kernel, by decide +kernel, fun h => ?_, ⟨b! "_OnRoomJoin", .call (b! "On_OnRoomJoin"), by decide +kernel, rfl⟩,
    ⟨b! "Chat", .call (b! "OnChat"), by decide +kernel, rfl⟩⟩
  rw [c111_trim _ _ (by decide +kernel) (by decide +kernel)] at h
  exact h.2.2 ⟨b! "On_OnRoomJoin", ⟨[⟨b! "OnChat", true⟩], [], [], rfl⟩, .inl ⟨by decide +kernel, by decide +kernel⟩⟩

end Neffos
