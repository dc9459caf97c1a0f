import Verif.Spec.Setup
/-!
# C103, C104, C105: setting up the exchanges and the debug printer
-/
set_option autoImplicit false
namespace Neffos
open Spec

namespace Setup

theorem isSpace_iff (c : UInt8) : isSpaceByte c = true ↔ c ∈ white := by
  simp [isSpaceByte, white, or_assoc]

theorem splitAll_ne (sep : UInt8) (s : Bytes) : splitAll sep s ≠ [] := by
  induction s with
  | nil => simp [splitAll]
  | cons c t ih =>
    rw [splitAll]; split
    · simp
    · split <;> simp

theorem intercalate_cons_cons (sep a b : Bytes) (l : List Bytes) :
    List.intercalate sep (a :: b :: l) = a ++ sep ++ List.intercalate sep (b :: l) := by
  simp [List.intercalate, List.intersperse]

theorem intercalate_one (sep a : Bytes) : List.intercalate sep [a] = a := by
  simp [List.intercalate, List.intersperse]

theorem split_spec (sep : UInt8) (s : Bytes) :
    s = List.intercalate [sep] (splitAll sep s) ∧ ∀ p ∈ splitAll sep s, sep ∉ p := by
  induction s with
  | nil => simp [splitAll, List.intercalate]
  | cons c t ih =>
    rw [splitAll]
    by_cases h : c = sep
    · simp only [h, ↓reduceIte]
      cases hs : splitAll sep t with
      | nil => exact absurd hs (splitAll_ne sep t)
      | cons f fs =>
        rw [hs] at ih
        refine ⟨?_, ?_⟩
        · rw [intercalate_cons_cons, ← ih.1]; simp
        · simpa using ih.2
    · simp only [h, ↓reduceIte]
      cases hs : splitAll sep t with
      | nil => exact absurd hs (splitAll_ne sep t)
      | cons f fs =>
        rw [hs] at ih
        have e := ih.1
        refine ⟨?_, ?_⟩
        · cases fs with
          | nil => rw [intercalate_one] at *; simp [e]
          | cons g gs =>
            rw [intercalate_cons_cons] at *
            simp only [List.cons_append]; rw [e]
        · intro p hp
          rcases List.mem_cons.1 hp with rfl | hp
          · have := ih.2 f (by simp)
            simp only [List.mem_cons, not_or]; exact ⟨fun x => h x.symm, this⟩
          · exact ih.2 p (by simp [hp])

/-- a text is the concatenation of pieces without a separator in one way only -/
theorem split_unique (sep : UInt8) (raw : List Bytes) (hne : raw ≠ []) (h : ∀ p ∈ raw, sep ∉ p) :
    splitAll sep (List.intercalate [sep] raw) = raw := by
  induction raw with
  | nil => exact absurd rfl hne
  | cons a l ih =>
    cases l with
    | nil =>
      rw [intercalate_one]
      have ha : sep ∉ a := h a (by simp)
      clear ih h hne
      induction a with
      | nil => rfl
      | cons c t iht =>
        simp only [List.mem_cons, not_or] at ha
        rw [splitAll, if_neg (fun x => ha.1 x.symm), iht ha.2]
    | cons b l =>
      rw [intercalate_cons_cons]
      have ih' := ih (by simp) (fun p hp => h p (by simp at hp ⊢; right; exact hp))
      have ha : sep ∉ a := h a (by simp)
      clear ih h hne
      induction a with
      | nil => simp [splitAll, ih']
      | cons c t iht =>
        simp only [List.mem_cons, not_or] at ha
        have := iht ha.2
        rw [List.cons_append, List.cons_append, splitAll, if_neg (fun x => ha.1 x.symm), this]

theorem dropWhile_split (p : UInt8 → Bool) (s : Bytes) :
    ∃ l, s = l ++ s.dropWhile p ∧ (∀ c ∈ l, p c = true) ∧ ∀ c, (s.dropWhile p).head? = some c → p c = false := by
  induction s with
  | nil => exact ⟨[], by simp⟩
  | cons c t ih =>
    obtain ⟨l, h1, h2, h3⟩ := ih
    by_cases hc : p c = true
    · refine ⟨c :: l, ?_, ?_, ?_⟩
      · rw [List.dropWhile_cons_of_pos hc]; simp [← h1]
      · intro x hx
        rcases List.mem_cons.1 hx with rfl | hx
        · exact hc
        · exact h2 x hx
      · rw [List.dropWhile_cons_of_pos hc]; exact h3
    · refine ⟨[], ?_, by simp, ?_⟩
      · rw [List.dropWhile_cons_of_neg hc]; rfl
      · rw [List.dropWhile_cons_of_neg hc]
        intro x hx
        simp only [List.head?_cons, Option.some.injEq] at hx
        subst hx; simpa using hc

theorem trim_spec (s : Bytes) : Trimmed s (trimSpace s) := by
  obtain ⟨l, h1, h2, h3⟩ := dropWhile_split isSpaceByte s
  obtain ⟨r, k1, k2, k3⟩ := dropWhile_split isSpaceByte (s.dropWhile isSpaceByte).reverse
  have e : s.dropWhile isSpaceByte = trimSpace s ++ r.reverse := by
    have := congrArg List.reverse k1
    simpa [trimSpace] using this
  refine ⟨l, r.reverse, ?_, fun c hc => (isSpace_iff c).1 (h2 c hc), ?_, ?_, ?_⟩
  · rw [List.append_assoc, ← e]; exact h1
  · intro c hc; exact (isSpace_iff c).1 (k2 c (by simpa using hc))
  · intro c hc hw
    have hh : (s.dropWhile isSpaceByte).head? = some c := by
      rw [e]; cases ht : trimSpace s with
      | nil => rw [ht] at hc; simp at hc
      | cons x xs => rw [ht] at hc; simpa using hc
    have := h3 c hh
    rw [(isSpace_iff c).2 hw] at this; simp at this
  · intro c hc hw
    have := k3 c (by simpa [trimSpace, List.getLast?_reverse] using hc)
    rw [(isSpace_iff c).2 hw] at this; simp at this

theorem dropWhile_append_all (p : UInt8 → Bool) (l q : Bytes) (h : ∀ c ∈ l, p c = true)
    (hq : ∀ c, q.head? = some c → p c = false) : (l ++ q).dropWhile p = q := by
  induction l with
  | nil =>
    cases q with
    | nil => rfl
    | cons c t =>
      have := hq c rfl
      simp [this]
  | cons c t ih =>
    rw [List.cons_append, List.dropWhile_cons_of_pos (h c (by simp))]
    exact ih fun x hx => h x (by simp [hx])

theorem trim_unique (p q : Bytes) (h : Trimmed p q) : trimSpace p = q := by
  obtain ⟨l, r, rfl, hl, hr, h1, h2⟩ := h
  have nw : ∀ c, c ∉ white → isSpaceByte c = false := by
    intro c hc
    cases hs : isSpaceByte c with
    | false => rfl
    | true => exact absurd ((isSpace_iff c).1 hs) hc
  cases q with
  | nil =>
    have all : ∀ c ∈ l ++ r, isSpaceByte c = true := by
      intro c hc
      rcases List.mem_append.1 hc with hc | hc
      · exact (isSpace_iff c).2 (hl c hc)
      · exact (isSpace_iff c).2 (hr c hc)
    have := dropWhile_append_all isSpaceByte (l ++ r) [] all (by simp)
    simp only [List.append_nil] at this ⊢
    simp [trimSpace, this]
  | cons a q =>
    have e1 : (l ++ (a :: q) ++ r).dropWhile isSpaceByte = (a :: q) ++ r := by
      rw [List.append_assoc]
      refine dropWhile_append_all _ _ _ (fun c hc => (isSpace_iff c).2 (hl c hc)) ?_
      intro c hc
      exact nw c (h1 c (by simpa using hc))
    have e2 : ((a :: q) ++ r).reverse.dropWhile isSpaceByte = (a :: q).reverse := by
      rw [List.reverse_append]
      refine dropWhile_append_all _ _ _ (fun c hc => (isSpace_iff c).2 (hr c (by simpa using hc))) ?_
      intro c hc
      exact nw c (h2 c (by rw [List.head?_reverse] at hc; exact hc))
    rw [trimSpace, e1, e2, List.reverse_reverse]

theorem allTrimmed_iff (raw as : List Bytes) : AllTrimmed raw as ↔ as = raw.map trimSpace := by
  constructor
  · intro h
    induction h with
    | nil => rfl
    | cons h _ ih => simp [trim_unique _ _ h, ih]
  · rintro rfl
    induction raw with
    | nil => exact .nil
    | cons a l ih => exact .cons (trim_spec a) ih

theorem addresses_iff (url : Bytes) (as : List Bytes) :
    Addresses url as ↔ as = (splitAll 44 url).map trimSpace := by
  constructor
  · rintro ⟨raw, hne, rfl, hc, h⟩
    rw [split_unique 44 raw hne hc]; exact (allTrimmed_iff _ _).1 h
  · intro h
    exact ⟨_, splitAll_ne 44 url, (split_spec 44 url).1, (split_spec 44 url).2, (allTrimmed_iff _ _).2 h⟩

theorem applied_iff (o : NatsOpts) (options) (o' : NatsOpts) :
    applyOptions o options = .ok o' ↔ Applied o options o' := by
  constructor
  · intro h
    induction options generalizing o with
    | nil => simp only [applyOptions, Except.ok.injEq] at h; subst h; exact .done _
    | cons x rest ih =>
      cases x with
      | none => exact .skip _ _ _ (ih o h)
      | some f =>
        rw [applyOptions] at h
        split at h
        · cases h
        · exact .next _ _ _ _ _ ‹_› (ih _ h)
  · intro h
    induction h with
    | done => rfl
    | skip _ _ _ _ ih => exact ih
    | next o o' o'' f rest hf _ ih => rw [applyOptions, hf]; exact ih

theorem fails_iff (o : NatsOpts) (options) (e : GoErr) :
    applyOptions o options = .error e ↔ FailsWith o options e := by
  constructor
  · intro h
    induction options generalizing o with
    | nil => cases h
    | cons x rest ih =>
      cases x with
      | none =>
        obtain ⟨b, f, r, o1, o2, h1, h2, h3⟩ := ih o h
        exact ⟨none :: b, f, r, o1, o2, by simp [h1], .skip _ _ _ h2, h3⟩
      | some g =>
        rw [applyOptions] at h
        split at h
        · next o2 e' hg =>
          cases h
          exact ⟨[], g, rest, o, o2, rfl, .done _, hg⟩
        · next hg =>
          obtain ⟨b, f, r, o1, o2, h1, h2, h3⟩ := ih _ h
          exact ⟨some g :: b, f, r, o1, o2, by simp [h1], .next _ _ _ _ _ hg h2, h3⟩
  · rintro ⟨b, f, r, o1, o2, rfl, h2, h3⟩
    induction h2 with
    | done => simp [applyOptions, h3]
    | skip _ _ _ _ ih => exact ih h3
    | next o o' o'' g rest hg _ ih => rw [List.cons_append, applyOptions, hg]; exact ih h3

def added (o : NatsOpts) : NatsOpts := { o with servers := o.servers ++ (splitAll 44 o.url).map trimSpace }

theorem natsNew_eq (dflt : NatsOpts) (connect url options) :
    natsNew dflt connect url options =
      match applyOptions (natsStart dflt url) options with
      | .error e => { tried := none, result := .error e }
      | .ok o =>
        match connect (added o) with
        | some e => { tried := some (added o), result := .error e }
        | none => { tried := some (added o), result := .ok (added o) } := rfl

end Setup
open Setup

/-- C103. `Connect` is called with the options that the caller's left, and with the addresses that the url of these lists
appended to their servers, and with nothing else; it is not called if and only if an option failed. -/
theorem c103_tried (dflt : NatsOpts) (connect : NatsOpts → Option GoErr) (url : Bytes)
    (options : List (Option NatsOption)) :
    (∀ x, (natsNew dflt connect url options).tried = some x ↔
      ∃ o as, Applied (natsStart dflt url) options o ∧ Addresses o.url as ∧ x = { o with servers := o.servers ++ as }) ∧
    ((natsNew dflt connect url options).tried = none ↔ ∃ e, FailsWith (natsStart dflt url) options e) := by
  rw [natsNew_eq]
  cases h : applyOptions (natsStart dflt url) options with
  | error e =>
    refine ⟨fun x => ⟨fun hx => by simp at hx, ?_⟩, ⟨fun _ => ⟨e, (fails_iff _ _ _).1 h⟩, fun _ => rfl⟩⟩
    rintro ⟨o, as, ho, -, -⟩
    rw [(applied_iff _ _ _).2 ho] at h; cases h
  | ok o =>
    have key : ∀ x, (match connect (added o) with
        | some e => ({ tried := some (added o), result := .error e } : NatsMade)
        | none => { tried := some (added o), result := .ok (added o) }).tried = some x ↔ x = added o := by
      intro x; split <;> simp [eq_comm]
    refine ⟨fun x => ?_, ⟨fun hx => ?_, ?_⟩⟩
    · simp only [key]
      constructor
      · intro hx; exact ⟨o, _, (applied_iff _ _ _).1 h, (addresses_iff _ _).2 rfl, hx⟩
      · rintro ⟨o', as, ho, has, rfl⟩
        rw [(applied_iff _ _ _).2 ho] at h
        cases h
        rw [(addresses_iff _ _).1 has]; rfl
    · exfalso
      simp only at hx
      split at hx <;> simp at hx
    · rintro ⟨e, he⟩
      rw [(fails_iff _ _ _).2 he] at h; cases h

/-- C103. The exchange keeps exactly the options that `Connect` succeeded with; the error is that of the first option
that failed, or else that of `Connect`. -/
theorem c103_result (dflt : NatsOpts) (connect : NatsOpts → Option GoErr) (url : Bytes)
    (options : List (Option NatsOption)) :
    (∀ x, (natsNew dflt connect url options).result = .ok x ↔
      (natsNew dflt connect url options).tried = some x ∧ connect x = none) ∧
    (∀ e, (natsNew dflt connect url options).result = .error e ↔
      FailsWith (natsStart dflt url) options e ∨
        ∃ x, (natsNew dflt connect url options).tried = some x ∧ connect x = some e) := by
  rw [natsNew_eq]
  cases h : applyOptions (natsStart dflt url) options with
  | error e =>
    refine ⟨fun x => by simp, fun e' => ?_⟩
    simp only [Except.error.injEq, reduceCtorEq, false_and, exists_false, or_false]
    rw [← fails_iff, h]; simp
  | ok o =>
    have nf : ∀ e, ¬ FailsWith (natsStart dflt url) options e := by
      intro e he
      rw [(fails_iff _ _ _).2 he] at h; cases h
    simp only [nf, false_or]
    cases hc : connect (added o) with
    | none =>
      refine ⟨fun x => ?_, fun e => ?_⟩
      · simp only [Except.ok.injEq, Option.some.injEq]
        exact ⟨fun hx => ⟨hx, hx ▸ hc⟩, fun hx => hx.1⟩
      · simp only [reduceCtorEq, Option.some.injEq, false_iff]
        rintro ⟨x, rfl, hx⟩; rw [hc] at hx; cases hx
    | some e' =>
      refine ⟨fun x => ?_, fun e => ?_⟩
      · simp only [reduceCtorEq, Option.some.injEq, false_iff]
        rintro ⟨rfl, hx⟩; rw [hc] at hx; cases hx
      · simp only [Except.error.injEq, Option.some.injEq]
        constructor
        · rintro rfl; exact ⟨_, rfl, hc⟩
        · rintro ⟨x, rfl, hx⟩; rw [hc] at hx; exact Option.some.inj hx

/-- C103. The list of servers is never empty, and what is added to it has neither a comma nor white space around it. -/
theorem c103_servers (dflt : NatsOpts) (connect : NatsOpts → Option GoErr) (url : Bytes)
    (options : List (Option NatsOption)) (x : NatsOpts) (h : (natsNew dflt connect url options).tried = some x) :
    ∃ o as, Applied (natsStart dflt url) options o ∧ x.servers = o.servers ++ as ∧ as ≠ [] ∧
      ∀ a ∈ as, (44 : UInt8) ∉ a ∧ Trimmed a a := by
  obtain ⟨o, as, ho, has, rfl⟩ := ((c103_tried dflt connect url options).1 x).1 h
  refine ⟨o, as, ho, rfl, ?_, ?_⟩
  · rw [(addresses_iff _ _).1 has]; simp [splitAll_ne]
  · intro a ha
    rw [(addresses_iff _ _).1 has] at ha
    obtain ⟨p, hp, rfl⟩ := List.mem_map.1 ha
    obtain ⟨l, r, h1, h2, h3, h4, h5⟩ := trim_spec p
    refine ⟨fun hm => ?_, ⟨[], [], by simp, by simp, by simp, h4, h5⟩⟩
    exact (split_spec 44 o.url).2 p hp (by rw [h1]; simp [hm])

/-- C103. `With` replaces everything before it: the url given to the constructor and `NoEcho` are lost, and if the new
options have no url an empty address is added to their servers. -/
theorem c103_with (dflt : NatsOpts) (connect : NatsOpts → Option GoErr) (url : Bytes) (o : NatsOpts)
    (before : List (Option NatsOption)) (h : ∀ e, ¬ FailsWith (natsStart dflt url) before e) :
    ∃ as, Addresses o.url as ∧
      (natsNew dflt connect url (before ++ [some (withOptions o)])).tried = some { o with servers := o.servers ++ as } ∧
      (o.url = [] → as = [[]]) := by
  have ⟨o1, h1⟩ : ∃ o1, Applied (natsStart dflt url) before o1 := by
    cases hb : applyOptions (natsStart dflt url) before with
    | error e => exact absurd ((fails_iff _ _ _).1 hb) (h e)
    | ok o1 => exact ⟨o1, (applied_iff _ _ _).1 hb⟩
  have h2 : Applied (natsStart dflt url) (before ++ [some (withOptions o)]) o := by
    clear h
    generalize natsStart dflt url = st at h1
    induction h1 with
    | done o1 => exact .next _ o _ _ _ rfl (.done _)
    | skip _ _ _ _ ih => exact .skip _ _ _ ih
    | next a b c f rest hf _ ih => exact .next _ _ _ _ _ hf ih
  refine ⟨(splitAll 44 o.url).map trimSpace, (addresses_iff _ _).2 rfl, ?_, ?_⟩
  · exact ((c103_tried dflt connect url _).1 _).2 ⟨o, _, h2, (addresses_iff _ _).2 rfl, rfl⟩
  · intro hu; rw [hu]; rfl

/-- two addresses with blanks, and a server of the caller's -/
example : (natsNew { url := [], servers := [], noEcho := false, others := 7 } (fun _ => none)
    (b! "nats://a:1 , nats://b:2") [none, some fun o => ({ o with servers := [b! "nats://c:3"] }, none)]).tried =
    some { url := b! "nats://a:1 , nats://b:2", servers := [b! "nats://c:3", b! "nats://a:1", b! "nats://b:2"],
           noEcho := true, others := 7 } := by decide +kernel

/-- an option that fails after one that does not, and before one that would -/
example : FailsWith (natsStart { url := [], servers := [], noEcho := false, others := 7 } [])
    [some (withOptions ⟨[], [], false, 1⟩), some fun o => (o, some errBadRoom), some fun o => (o, some errWrite)]
    errBadRoom :=
  ⟨[some (withOptions ⟨[], [], false, 1⟩)], _, _, _, _, rfl, .next _ _ _ _ _ rfl (.done _), rfl⟩

/-! ## C104 -/

/-- C104. `connFunc` panics exactly when a cluster reports no node; otherwise it dials once, over the network of the
caller or else tcp, with the options the documentation promises, to a node of the topology if clusters are given, else
to the address of the caller, else to 127.0.0.1:6379. -/
theorem c104_dial (c : RedisCfg) (topo : List Bytes) (pick : Nat → Nat) (hp : ∀ n, 0 < n → pick n < n) :
    (redisConn c topo pick = none ↔ c.clusters ≠ [] ∧ topo = []) ∧
    ∀ call, redisConn c topo pick = some call →
      ∃ a, call = .dial (redisNetwork c) a (redisOptions c.password c.dialTimeout) ∧
        (c.clusters ≠ [] → a ∈ topo) ∧
        (c.clusters = [] → c.addr ≠ [] → a = c.addr) ∧
        (c.clusters = [] → c.addr = [] → a = b! "127.0.0.1:6379") := by
  have hopt : redisDialOpts (redisDefaults c) = redisOptions c.password c.dialTimeout := by
    simp only [redisDialOpts, redisDefaults, redisOptions]
    by_cases h1 : c.password = [] <;> by_cases h2 : c.dialTimeout = 0 <;> by_cases h3 : c.dialTimeout < 0 <;>
      simp [h1, h2, h3] <;> omega
  have hcl : (redisDefaults c).clusters = c.clusters := rfl
  have hnet : (redisDefaults c).network = redisNetwork c := rfl
  have haddr : (redisDefaults c).addr = if c.addr = [] ∧ c.clusters.length = 0 then b! "127.0.0.1:6379" else c.addr := rfl
  unfold redisConn
  simp only [hopt, hcl, hnet]
  cases hc : c.clusters with
  | nil =>
    refine ⟨by simp, ?_⟩
    intro call h
    simp only [List.length_nil, Nat.lt_irrefl, ↓reduceIte, Option.some.injEq, gt_iff_lt] at h
    refine ⟨_, h.symm, by simp, ?_, ?_⟩
    · intro _ ha; rw [haddr]; simp [ha]
    · intro _ ha; rw [haddr]; simp [ha, hc]
  | cons x xs =>
    simp only [List.length_cons, gt_iff_lt, Nat.zero_lt_succ, ↓reduceIte]
    cases topo with
    | nil => simp
    | cons t ts =>
      have hlt := hp (t :: ts).length (by simp)
      have e : (t :: ts)[pick (t :: ts).length]? = some ((t :: ts)[pick (t :: ts).length]) :=
        List.getElem?_eq_getElem hlt
      rw [if_neg (by simp)]
      rw [e]
      refine ⟨by simp, ?_⟩
      intro call h
      simp only [Option.map_some, Option.some.injEq] at h
      exact ⟨_, h.symm, fun _ => List.getElem_mem hlt, by simp, by simp⟩

/-- C104. Every node of the topology can be dialled. -/
theorem c104_node (c : RedisCfg) (topo : List Bytes) (a : Bytes) (hc : c.clusters ≠ []) (ha : a ∈ topo) :
    ∃ pick : Nat → Nat, (∀ n, 0 < n → pick n < n) ∧ ∃ n os, redisConn c topo pick = some (.dial n a os) := by
  obtain ⟨i, hi, he⟩ := List.mem_iff_getElem.1 ha
  refine ⟨fun n => if i < n then i else 0, ?_, ?_⟩
  · intro n hn
    show (if i < n then i else 0) < n
    split <;> omega
  · have : (redisDefaults c).clusters.length > 0 := by
      show c.clusters.length > 0
      exact List.length_pos_iff.2 hc
    refine ⟨(redisDefaults c).network, redisDialOpts (redisDefaults c), ?_⟩
    unfold redisConn
    have hn : topo.length ≠ 0 := by omega
    simp only [this, ↓reduceIte, hn, hi]
    rw [List.getElem?_eq_getElem hi, he]; rfl

/-- C104. The constructor asks for the topology if and only if clusters are given, before it makes the pool, with the
addresses alone; it makes the pool, of ten connections if no number is given, unless the topology could not be had; its
error is that of the one that failed. -/
theorem c104_new (c : RedisCfg) (cluster : List Bytes → Option GoErr) (pool : Int → Option GoErr) :
    let size := if c.maxActive = 0 then 10 else c.maxActive
    (c.clusters = [] → redisNew c cluster pool = ([.newPool size], pool size)) ∧
    (∀ e, c.clusters ≠ [] → cluster c.clusters = some e →
      redisNew c cluster pool = ([.newCluster c.clusters], some e)) ∧
    (c.clusters ≠ [] → cluster c.clusters = none →
      redisNew c cluster pool = ([.newCluster c.clusters, .newPool size], pool size)) := by
  intro size
  have hcl : (redisDefaults c).clusters = c.clusters := rfl
  have hs : (redisDefaults c).maxActive = size := rfl
  unfold redisNew
  simp only [hcl, hs]
  refine ⟨fun h => by simp [h], fun e h he => ?_, fun h he => ?_⟩
  · simp [List.length_pos_iff.2 h, he]
  · simp [List.length_pos_iff.2 h, he]

/-- C104. No password reaches the servers that are asked for the topology: what the constructor itself does is the same
whatever the password, the network, the address and the timeout. -/
theorem c104_password (c : RedisCfg) (cluster : List Bytes → Option GoErr) (pool : Int → Option GoErr)
    (p n a : Bytes) (t : Int) :
    redisNew { c with password := p, network := n, addr := a, dialTimeout := t } cluster pool =
      redisNew c cluster pool := rfl

example : redisConn ⟨[], [], [], b! "secret", -1, 0⟩ [] (fun _ => 0) =
    some (.dial (b! "tcp") (b! "127.0.0.1:6379") [.auth (b! "secret"), .timeout 30000000000]) := by decide +kernel

example : redisConn ⟨[], b! "ignored:1", [b! "a:1"], [], 0, 0⟩ [b! "a:1", b! "b:2"] (fun n => n - 1) =
    some (.dial (b! "tcp") (b! "b:2") []) := by decide +kernel

example : redisConn ⟨[], [], [b! "a:1"], [], 0, 0⟩ [] (fun n => n - 1) = none := by decide +kernel

/-! ## C105 -/

namespace Setup

theorem method_iff (p : Printer) (m : PrintMethod) : printMethod p = some m ↔ PrintsBy p m := by
  cases p with
  | boolean b => simp [printMethod, PrintsBy]
  | value i d l f => cases d <;> cases l <;> cases f <;> cases m <;> simp [printMethod, PrintsBy]

theorem method_none (p : Printer) : printMethod p = none ↔ ¬ CanPrint p := by
  cases p with
  | boolean b => simp [printMethod, CanPrint]
  | value i d l f => cases d <;> cases l <;> cases f <;> simp [printMethod, CanPrint]

theorem call_some (p : Printer) (c : DebugCall) : (debugCall (some p) c).1 = some p := by
  cases c <;> rfl

theorem calls_some (p : Printer) (cs : List DebugCall) : (debugCalls (some p) cs).1 = some p := by
  induction cs with
  | nil => rfl
  | cons c cs ih =>
    have := call_some p c
    rw [debugCalls]
    simp only [this, ih]

theorem enable_none (p : Option Printer) : (enableDebug none p).1 = some (chosen p) := by
  cases p with
  | none => rfl
  | some p => cases p <;> rfl

theorem calls_append (dp : Option Printer) (a b : List DebugCall) :
    debugCalls dp (a ++ b) =
      ((debugCalls (debugCalls dp a).1 b).1, (debugCalls dp a).2 ++ (debugCalls (debugCalls dp a).1 b).2) := by
  induction a generalizing dp with
  | nil => rfl
  | cons c a ih => simp only [List.cons_append, debugCalls, ih]

theorem calls_none (cs : List DebugCall) (h : enables cs = []) :
    (debugCalls none cs).1 = none ∧ ∀ o ∈ (debugCalls none cs).2, o = [] := by
  induction cs with
  | nil => simp [debugCalls]
  | cons c cs ih =>
    cases c with
    | enable p => simp [enables] at h
    | debugf fmt args =>
      have := ih h
      simp only [debugCalls, debugCall, debugf, this.1, true_and]
      intro o ho
      rcases List.mem_cons.1 ho with rfl | ho
      · rfl
      · exact this.2 o ho
    | each coll v =>
      have := ih h
      simp only [debugCalls, debugCall, debugEach, this.1, true_and]
      intro o ho
      rcases List.mem_cons.1 ho with rfl | ho
      · rfl
      · exact this.2 o ho

end Setup

/-- C105. Debug mode is set by the first `EnableDebug` and by nothing else, with the printer given to it, or with a
logger of its own if that was nil or a bool; nothing changes it afterwards. -/
theorem c105_printer (cs : List DebugCall) :
    (debugCalls none cs).1 = (enables cs).head?.map chosen := by
  induction cs with
  | nil => rfl
  | cons c cs ih =>
    cases c with
    | enable p =>
      have : (debugCall none (.enable p)).1 = some (chosen p) := enable_none p
      rw [debugCalls]; simp only [this, calls_some, enables, List.head?_cons, Option.map_some]
    | debugf fmt args => exact ih
    | each coll v => exact ih

/-- C105. Before the first `EnableDebug` no call does anything: nothing is printed, no function of a caller is called, no
visitor is called, nothing panics. -/
theorem c105_off (cs rest : List DebugCall) (h : enables cs = []) :
    ∀ i < cs.length, ((debugCalls none (cs ++ rest)).2)[i]? = some [] := by
  intro i hi
  rw [calls_append]
  have hlen : ∀ (dp : Option Printer) (l : List DebugCall), (debugCalls dp l).2.length = l.length := by
    intro dp l
    induction l generalizing dp with
    | nil => rfl
    | cons c l ih => simp [debugCalls, ih]
  have hi' : i < (debugCalls none cs).2.length := by rw [hlen]; exact hi
  rw [List.getElem?_append_left hi', List.getElem?_eq_getElem hi']
  rw [(calls_none cs h).2 _ (List.getElem_mem hi')]

/-- C105. In debug mode a `Debugf` calls the function of the caller once, if its one argument is such a function, and
never otherwise, and then prints exactly one line, with the best of the three methods the printer has; if it has none it
panics and prints nothing. -/
theorem c105_line (p : Printer) (fmt : Bytes) (args : DebugArgs) :
    ∃ pre, (∀ f, args = .lazily f → pre = [.evaluated f]) ∧ (∀ l, args = .plain l → pre = []) ∧
      (∀ m, PrintsBy p m → debugf (some p) fmt args = pre ++ [.printed p m fmt args]) ∧
      (¬ CanPrint p → debugf (some p) fmt args = pre ++ [.panicked]) := by
  cases args with
  | lazily f =>
    refine ⟨[.evaluated f], ?_, ?_, ?_, ?_⟩
    · intro g hg; cases hg; rfl
    · intro l hl; cases hl
    · intro m hm; simp [debugf, (method_iff p m).2 hm]
    · intro hp; simp [debugf, (method_none p).2 hp]
  | plain l =>
    refine ⟨[], ?_, ?_, ?_, ?_⟩
    · intro g hg; cases hg
    · intro l hl; rfl
    · intro m hm; simp [debugf, (method_iff p m).2 hm]
    · intro hp; simp [debugf, (method_none p).2 hp]

/-- C105. A printer uses one method at most, and one at all exactly when it has one. -/
theorem c105_method (p : Printer) :
    (∀ m m', PrintsBy p m → PrintsBy p m' → m = m') ∧ ((∃ m, PrintsBy p m) ↔ CanPrint p) := by
  refine ⟨fun m m' h h' => ?_, ?_⟩
  · rw [← method_iff] at h h'; rw [h] at h'; exact Option.some.inj h'
  · constructor
    · rintro ⟨m, hm⟩
      refine Classical.byContradiction fun hc => ?_
      have := (method_iff p m).2 hm
      rw [(method_none p).2 hc] at this; cases this
    · intro hc
      cases h : printMethod p with
      | none => exact absurd hc ((method_none p).1 h)
      | some m => exact ⟨m, (method_iff p m).1 h⟩

/-- C105. A call of `EnableDebug` or of `Debugf` after some calls panics if and only if an earlier `EnableDebug`
was given a printer with none of the three methods, and it was the first: the wrong printer is noticed by the second
call, not by the one that was given it. -/
theorem c105_panic (cs : List DebugCall) (c : DebugCall) (hc : ∀ coll v, c ≠ .each coll v) :
    .panicked ∈ (debugCall (debugCalls none cs).1 c).2 ↔
      ∃ p, (enables cs).head? = some p ∧ ¬ CanPrint (chosen p) := by
  rw [c105_printer]
  have hd : ∀ p fmt args, DebugObs.panicked ∈ debugf (some p) fmt args ↔ ¬ CanPrint p := by
    intro p fmt args
    rw [← method_none]
    cases args <;> simp only [debugf] <;> cases printMethod p <;> simp
  cases h : (enables cs).head? with
  | none =>
    cases c with
    | enable p =>
      cases p with
      | none => simp [debugCall, enableDebug]
      | some p => cases p <;> simp [debugCall, enableDebug]
    | debugf fmt args => simp [debugCall, debugf]
    | each coll v => exact absurd rfl (hc coll v)
  | some p =>
    cases c with
    | enable q => simp only [Option.map_some, debugCall, enableDebug, hd]; simp
    | debugf fmt args => simp only [Option.map_some, debugCall, hd]; simp
    | each coll v => exact absurd rfl (hc coll v)

/-- C105. In debug mode `DebugEach` calls a visitor of one or two inputs once for every entry of a map, in the order of
the range; any other function panics at the first entry; nothing else happens, and nothing at all for what is not a map
or with what is not a function. -/
theorem c105_each (p : Printer) (coll : Collection) (v : Visitor) :
    (∀ es n, coll = .map es → v = .func n → (n = 1 ∨ n = 2) → debugEach (some p) coll v = es.map .visited) ∧
    (∀ e es n, coll = .map (e :: es) → v = .func n → ¬ (n = 1 ∨ n = 2) →
      debugEach (some p) coll v = [.panicked]) ∧
    ((coll = .other ∨ coll = .map [] ∨ v = .other ∨ v = .nil) → debugEach (some p) coll v = []) := by
  refine ⟨?_, ?_, ?_⟩
  · rintro es n rfl rfl hn
    simp only [debugEach]
    induction es with
    | nil => rfl
    | cons e es ih => simp [visitAll, hn, ih]
  · rintro e es n rfl rfl hn
    simp [debugEach, visitAll, hn]
  · rintro (rfl | rfl | rfl | rfl)
    · cases v <;> rfl
    · cases v <;> rfl
    · cases coll <;> rfl
    · cases coll <;> rfl

/-- a value without any of the methods is accepted, and the next call panics -/
example : debugCalls none [.debugf (b! "x") (.lazily 1), .enable (some (.value 5 false false false)),
    .debugf (b! "x") (.lazily 1), .enable none] =
    (some (.value 5 false false false), [[], [], [.evaluated 1, .panicked], [.panicked]]) := by decide +kernel

/-- `EnableDebug(true)` -/
example : debugCalls none [.enable (some (.boolean true)), .debugf (b! "x") (.plain [3])] =
    (some ownLogger, [[.announced], [.printed ownLogger .printf (b! "x") (.plain [3])]]) := by decide +kernel

end Neffos
