import Verif.Model.PubSub
import Verif.Proofs.ConnRun
import Verif.Proofs.ConnNotes
set_option autoImplicit false
/-!
# C50, C51: the redis and nats exchanges
-/
namespace Neffos

/-! ## Histories -/

/-- spec: an action that satisfies `P`, given what came before it, not followed by one that
satisfies `Q` -/
def Since (acts : List PsAct) (P : List PsAct → PsAct → Prop) (Q : PsAct → Prop) : Prop :=
  ∃ p x q, acts = p ++ x :: q ∧ P p x ∧ ∀ y ∈ q, ¬ Q y

/-- spec: the exchange knows the connection -/
def Live (acts : List PsAct) (c : Nat) : Prop :=
  Since acts (fun _ x => ∃ id, x = .add c id) (fun y => y = .del c)

/-- spec: the connection was subscribed to the namespace while known to the exchange and neither
was unsubscribed nor removed since -/
def Subscribed (acts : List PsAct) (c : Nat) (ns : Bytes) : Prop :=
  Since acts (fun p x => x = .subscribe c ns ∧ Live p c)
    (fun y => y = .unsubscribe c ns ∨ y = .del c ∨ ∃ id, y = .add c id)

/-- spec: the connection was added under this ID, was not removed since, and was not unsubscribed
from a namespace of the same name -/
def OwnId (acts : List PsAct) (c : Nat) (x : Bytes) : Prop :=
  Since acts (fun _ y => y = .add c x)
    (fun y => y = .unsubscribe c x ∨ y = .del c ∨ ∃ id, y = .add c id)

theorem since_snoc (acts : List PsAct) (a : PsAct) (P : List PsAct → PsAct → Prop) (Q : PsAct → Prop) :
    Since (acts ++ [a]) P Q ↔ P acts a ∨ (Since acts P Q ∧ ¬ Q a) := by
  constructor
  · rintro ⟨p, x, q, h, hp, hq⟩
    rcases List.eq_nil_or_concat q with rfl | ⟨q', y, rfl⟩
    · have := List.append_inj' (s₁ := acts) (t₁ := [a]) h rfl
      obtain ⟨rfl, h2⟩ := this
      injection h2 with h2 _; subst h2
      exact Or.inl hp
    · rw [List.concat_eq_append, ← List.cons_append, ← List.append_assoc] at h
      have := List.append_inj' (s₁ := acts) (t₁ := [a]) h rfl
      obtain ⟨rfl, h2⟩ := this
      injection h2 with h2 _; subst h2
      refine Or.inr ⟨⟨p, x, q', rfl, hp, fun y hy => hq y (by simp [hy])⟩, hq _ (by simp)⟩
  · rintro (h | ⟨⟨p, x, q, rfl, hp, hq⟩, ha⟩)
    · exact ⟨acts, a, [], rfl, h, by simp⟩
    · refine ⟨p, x, q ++ [a], by simp, hp, ?_⟩
      intro y hy
      rcases List.mem_append.1 hy with hy | hy
      · exact hq y hy
      · rw [List.mem_singleton.1 hy]; exact ha

theorem since_nil (P : List PsAct → PsAct → Prop) (Q : PsAct → Prop) : ¬ Since [] P Q := by
  rintro ⟨p, x, q, h, _⟩
  cases p <;> cases h

theorem snoc_ind {motive : List PsAct → Prop} (nil : motive [])
    (snoc : ∀ l a, motive l → motive (l ++ [a])) (l : List PsAct) : motive l := by
  have : ∀ n, ∀ l : List PsAct, l.length = n → motive l := by
    intro n
    induction n with
    | zero => intro l h; rw [List.length_eq_zero_iff.1 h]; exact nil
    | succ n ih =>
      intro l h
      rcases List.eq_nil_or_concat l with rfl | ⟨q, y, rfl⟩
      · exact nil
      · rw [List.concat_eq_append] at h ⊢; exact snoc q y (ih q (by simpa using h))
  exact this _ l rfl

/-! ## The matching rules on plain names -/

/-- spec: no byte that is special in a redis pattern -/
def PlainGlob (s : Bytes) : Prop := ∀ c ∈ s, c ≠ 42 ∧ c ≠ 63 ∧ c ≠ 91 ∧ c ≠ 92

theorem parseGlob_plain (p : Bytes) (h : PlainGlob p) : ∀ n, p.length ≤ n → parseGlob n p = p.map .lit := by
  induction p with
  | nil => intro n _; cases n <;> rfl
  | cons c t ih =>
    intro n hn
    cases n with
    | zero => simp at hn
    | succ n =>
      obtain ⟨h1, h2, h3, h4⟩ := h c (by simp)
      have := ih (fun d hd => h d (by simp [hd])) n (by simpa using hn)
      rw [parseGlob]
      · simp [this]
      all_goals (intros; simp_all)

theorem matchGlob_lit (p s : Bytes) : matchGlob (p.map .lit) s = decide (p = s) := by
  induction p generalizing s with
  | nil => cases s <;> simp [matchGlob]
  | cons c t ih =>
    cases s with
    | nil => simp [matchGlob]
    | cons d s =>
      simp only [List.map_cons, matchGlob, ih, List.cons.injEq, Bool.decide_and, eq_comm]

theorem globMatches_plain {p : Bytes} (h : PlainGlob p) (s : Bytes) :
    globMatches p s = decide (p = s) := by
  rw [globMatches, parseGlob_plain p h _ (Nat.le_refl _), matchGlob_lit]

/-! ## redis -/

theorem redisNs_inj (pre x y : Bytes) : redisNs pre x = redisNs pre y ↔ x = y := by
  simp [redisNs]

theorem redisChannel_self (pre id : Bytes) : (redisChannel pre [] [] id).getD [] = redisNs pre id := by
  unfold redisChannel redisNs
  by_cases h : id = [] <;> simp [h]

def redisRun (pre : Bytes) (acts : List PsAct) : Redis := acts.foldl (redisStep pre) (fun _ => none)

/-- what the patterns of a connection are after a history -/
structure RedisInv (pre : Bytes) (acts : List PsAct) (r : Redis) (c : Nat) : Prop where
  live : (r c = none) ↔ ¬ Live acts c
  form : ∀ ps, r c = some ps → ∀ p ∈ ps, ∃ x, p = redisNs pre x
  nodup : ∀ ps, r c = some ps → ps.Nodup
  mem : ∀ ps, r c = some ps → ∀ x, redisNs pre x ∈ ps ↔ Subscribed acts c x ∨ OwnId acts c x

theorem mem_addR (x p : Bytes) (ps : List Bytes) : x ∈ addRoom p ps ↔ x = p ∨ x ∈ ps := by
  unfold addRoom
  split
  · constructor
    · exact Or.inr
    · rintro (rfl | h) <;> assumption
  · simp

theorem nodup_addR (p : Bytes) (ps : List Bytes) (h : ps.Nodup) : (addRoom p ps).Nodup := by
  unfold addRoom
  split
  · exact h
  · exact List.nodup_cons.2 ⟨by assumption, h⟩

theorem redis_inv (pre : Bytes) (acts : List PsAct) (c : Nat) :
    RedisInv pre acts (redisRun pre acts) c := by
  induction acts using snoc_ind with
  | nil =>
    refine ⟨⟨fun _ => since_nil _ _, fun _ => rfl⟩, ?_, ?_, ?_⟩ <;> intro ps h <;> cases h
  | snoc acts a ih =>
    have hrun : redisRun pre (acts ++ [a]) = redisStep pre (redisRun pre acts) a := by
      simp [redisRun]
    rw [hrun]
    generalize redisRun pre acts = r at ih
    obtain ⟨hl, hf, hn, hm⟩ := ih
    cases a with
    | add c' id =>
      by_cases hc : c = c'
      · subst hc
        refine ⟨?_, ?_, ?_, ?_⟩
        · simp [redisStep, Redis.set, Live, since_snoc]
        · intro ps h p hp
          simp only [redisStep, Redis.set, if_true, Option.some.injEq, redisChannel_self] at h
          subst h
          exact ⟨id, List.mem_singleton.1 hp⟩
        · intro ps h
          simp only [redisStep, Redis.set, if_true, Option.some.injEq] at h
          subst h; simp
        · intro ps h x
          simp only [redisStep, Redis.set, if_true, Option.some.injEq, redisChannel_self] at h
          subst h
          simp [redisNs_inj, Subscribed, OwnId, since_snoc, eq_comm]
      · have e : (redisStep pre r (.add c' id)) c = r c := by simp [redisStep, Redis.set, hc]
        have hc' : ¬ c' = c := fun h => hc h.symm
        refine ⟨?_, ?_, ?_, ?_⟩ <;> rw [e]
        · rw [hl]; simp [Live, since_snoc, hc']
        · exact hf
        · exact hn
        · intro ps h x; rw [hm ps h x]; simp [Subscribed, OwnId, since_snoc, hc']
    | del c' =>
      by_cases hc : c = c'
      · subst hc
        have e : (redisStep pre r (.del c)) c = none := by simp [redisStep, Redis.set]
        refine ⟨?_, ?_, ?_, ?_⟩ <;> rw [e]
        · simp [Live, since_snoc]
        all_goals (intro ps h; cases h)
      · have e : (redisStep pre r (.del c')) c = r c := by simp [redisStep, Redis.set, hc]
        have hc' : ¬ c' = c := fun h => hc h.symm
        refine ⟨?_, ?_, ?_, ?_⟩ <;> rw [e]
        · rw [hl]; simp [Live, since_snoc, hc']
        · exact hf
        · exact hn
        · intro ps h x; rw [hm ps h x]; simp [Subscribed, OwnId, since_snoc, hc']
    | subscribe c' ns =>
      by_cases hc : c = c'
      · subst hc
        cases hrc : r c with
        | none =>
          have e : (redisStep pre r (.subscribe c ns)) c = none := by simp [redisStep, hrc]
          have := hl.1 hrc
          refine ⟨?_, ?_, ?_, ?_⟩ <;> rw [e]
          · simp [Live, since_snoc]; exact this
          all_goals (intro ps h; cases h)
        | some ps0 =>
          have e : (redisStep pre r (.subscribe c ns)) c = some (addRoom (redisNs pre ns) ps0) := by
            simp [redisStep, hrc, Redis.set]
          have hlive : Live acts c := Classical.byContradiction fun h => by
            have := hl.2 h; rw [hrc] at this; cases this
          refine ⟨?_, ?_, ?_, ?_⟩ <;> rw [e]
          · simp [Live, since_snoc]; exact hlive
          · intro ps h p hp
            cases h
            rcases (mem_addR _ _ _).1 hp with rfl | hp
            · exact ⟨ns, rfl⟩
            · exact hf _ hrc _ hp
          · intro ps h; cases h; exact nodup_addR _ _ (hn _ hrc)
          · intro ps h x
            cases h
            rw [mem_addR, redisNs_inj, hm _ hrc x]
            simp only [Subscribed, OwnId, since_snoc, hlive, PsAct.subscribe.injEq, true_and, and_true,
              reduceCtorEq, false_or, exists_const, or_false, not_false_eq_true]
            constructor
            · rintro (h | h | h)
              · exact Or.inl (Or.inl h.symm)
              · exact Or.inl (Or.inr h)
              · exact Or.inr h
            · rintro ((h | h) | h)
              · exact Or.inl h.symm
              · exact Or.inr (Or.inl h)
              · exact Or.inr (Or.inr h)
      · have hc' : ¬ c' = c := fun h => hc h.symm
        have e : (redisStep pre r (.subscribe c' ns)) c = r c := by
          cases hr' : r c' <;> simp [redisStep, hr', Redis.set, hc]
        refine ⟨?_, ?_, ?_, ?_⟩ <;> rw [e]
        · rw [hl]; simp [Live, since_snoc]
        · exact hf
        · exact hn
        · intro ps h x; rw [hm ps h x]; simp [Subscribed, OwnId, since_snoc, hc']
    | unsubscribe c' ns =>
      by_cases hc : c = c'
      · subst hc
        cases hrc : r c with
        | none =>
          have e : (redisStep pre r (.unsubscribe c ns)) c = none := by simp [redisStep, hrc]
          have := hl.1 hrc
          refine ⟨?_, ?_, ?_, ?_⟩ <;> rw [e]
          · simp [Live, since_snoc]; exact this
          all_goals (intro ps h; cases h)
        | some ps0 =>
          have e : (redisStep pre r (.unsubscribe c ns)) c = some (delRoom (redisNs pre ns) ps0) := by
            simp [redisStep, hrc, Redis.set]
          have hlive : Live acts c := Classical.byContradiction fun h => by
            have := hl.2 h; rw [hrc] at this; cases this
          refine ⟨?_, ?_, ?_, ?_⟩ <;> rw [e]
          · simp [Live, since_snoc]; exact hlive
          · intro ps h p hp
            cases h
            exact hf _ hrc _ (List.mem_filter.1 hp).1
          · intro ps h; cases h; exact (hn _ hrc).filter _
          · intro ps h x
            cases h
            unfold delRoom
            rw [List.mem_filter, hm _ hrc x]
            simp only [decide_eq_true_eq, ne_eq, redisNs_inj]
            simp only [Subscribed, OwnId, since_snoc, PsAct.unsubscribe.injEq, true_and,
              reduceCtorEq, false_or, exists_const, or_false, false_and]
            rw [eq_comm (a := ns)]
            constructor
            · rintro ⟨h | h, hx⟩
              · exact Or.inl ⟨h, hx⟩
              · exact Or.inr ⟨h, hx⟩
            · rintro (⟨h, hx⟩ | ⟨h, hx⟩)
              · exact ⟨Or.inl h, hx⟩
              · exact ⟨Or.inr h, hx⟩
      · have hc' : ¬ c' = c := fun h => hc h.symm
        have e : (redisStep pre r (.unsubscribe c' ns)) c = r c := by
          cases hr' : r c' <;> simp [redisStep, hr', Redis.set, hc]
        refine ⟨?_, ?_, ?_, ?_⟩ <;> rw [e]
        · rw [hl]; simp [Live, since_snoc]
        · exact hf
        · exact hn
        · intro ps h x; rw [hm ps h x]; simp [Subscribed, OwnId, since_snoc, hc']

/-- spec: the names that occur in a history -/
def Named (acts : List PsAct) (x : Bytes) : Prop :=
  ∃ c, PsAct.add c x ∈ acts ∨ PsAct.subscribe c x ∈ acts

theorem Since.mem {acts : List PsAct} {P : List PsAct → PsAct → Prop} {Q : PsAct → Prop}
    (h : Since acts P Q) : ∃ p x, x ∈ acts ∧ P p x := by
  obtain ⟨p, x, q, rfl, hp, _⟩ := h
  exact ⟨p, x, by simp, hp⟩

theorem Subscribed.live {acts : List PsAct} {c : Nat} {ns : Bytes} (h : Subscribed acts c ns) :
    Live acts c := by
  induction acts using snoc_ind with
  | nil => exact absurd h (since_nil _ _)
  | snoc acts a ih =>
    rcases (since_snoc _ _ _ _).1 h with ⟨rfl, h'⟩ | ⟨h, hq⟩
    · exact (since_snoc _ _ _ _).2 (Or.inr ⟨h', by simp⟩)
    · exact (since_snoc _ _ _ _).2 (Or.inr ⟨ih h, fun e => hq (Or.inr (Or.inl e))⟩)

theorem OwnId.live {acts : List PsAct} {c : Nat} {x : Bytes} (h : OwnId acts c x) :
    Live acts c := by
  induction acts using snoc_ind with
  | nil => exact absurd h (since_nil _ _)
  | snoc acts a ih =>
    rcases (since_snoc _ _ _ _).1 h with rfl | ⟨h, hq⟩
    · exact (since_snoc _ _ _ _).2 (Or.inl ⟨_, rfl⟩)
    · exact (since_snoc _ _ _ _).2 (Or.inr ⟨ih h, fun e => hq (Or.inr (Or.inl e))⟩)

theorem filter_eq_length {ps : List Bytes} (h : ps.Nodup) (x : Bytes) :
    (ps.filter (fun p => decide (p = x))).length = if x ∈ ps then 1 else 0 := by
  induction ps with
  | nil => simp
  | cons p ps ih =>
    have h1 := (List.nodup_cons.1 h).1
    have ih := ih (List.nodup_cons.1 h).2
    by_cases e : p = x
    · subst e
      have : (ps.filter (fun q => decide (q = p))).length = 0 := by rw [ih]; simp [h1]
      simp [this]
    · have e' : ¬ x = p := fun h => e h.symm
      simp only [List.filter_cons, e, decide_false, Bool.false_eq_true, if_false, ih, List.mem_cons, e', false_or]

open Classical in
/-- redis: a message on a channel of the form used by `getChannel` is offered to a connection once
if it is subscribed to the namespace of that name or was added under that name, and not at all
otherwise -/
theorem redis_offers {pre : Bytes} (hpre : PlainGlob pre) (acts : List PsAct)
    (hn : ∀ x, Named acts x → PlainGlob x) (c : Nat) (x : Bytes) :
    redisOffers (redisRun pre acts) (redisNs pre x) c =
      if Subscribed acts c x ∨ OwnId acts c x then 1 else 0 := by
  obtain ⟨hl, hf, hnd, hm⟩ := redis_inv pre acts c
  unfold redisOffers
  cases h : redisRun pre acts c with
  | none =>
    have := hl.1 h
    rw [if_neg]
    rintro (h | h)
    · exact this h.live
    · exact this h.live
  | some ps =>
    have key : ps.filter (fun p => globMatches p (redisNs pre x)) = ps.filter (fun p => decide (p = redisNs pre x)) := by
      apply List.filter_congr
      intro p hp
      obtain ⟨y, rfl⟩ := hf ps h p hp
      apply globMatches_plain
      have hy : PlainGlob y := by
        apply hn
        rcases (hm ps h y).1 hp with h | h
        · obtain ⟨_, z, hz, rfl, _⟩ := h.mem; exact ⟨c, Or.inr hz⟩
        · obtain ⟨_, z, hz, rfl⟩ := h.mem; exact ⟨c, Or.inl hz⟩
      intro d hd
      simp only [redisNs, List.mem_append] at hd
      rcases hd with ((hd | hd) | hd) | hd
      · exact hpre d hd
      · rw [List.mem_singleton.1 hd]; decide
      · exact hy d hd
      · rw [List.mem_singleton.1 hd]; decide
    simp only [key]
    rw [filter_eq_length (hnd ps h)]
    simp only [hm ps h x]

/-! ## nats -/

/-- spec: a name that is one literal token of a nats subject -/
structure SafeTok (x : Bytes) : Prop where
  ne : x ≠ []
  dot : (46 : UInt8) ∉ x
  star : x ≠ b! "*"
  full : x ≠ b! ">"

theorem splitDots_nodot (x : Bytes) (h : (46 : UInt8) ∉ x) : splitDots x = [x] := by
  induction x with
  | nil => rfl
  | cons c t ih =>
    have hc : ¬ c = 46 := fun e => h (by simp [e])
    rw [splitDots, if_neg hc, ih (fun e => h (by simp [e]))]

theorem splitDots_two (x y : Bytes) (h : (46 : UInt8) ∉ x) (hy : (46 : UInt8) ∉ y) :
    splitDots (x ++ b! "." ++ y) = [x, y] := by
  induction x with
  | nil =>
    have : ([] : Bytes) ++ b! "." ++ y = 46 :: y := rfl
    rw [this, splitDots, if_pos rfl, splitDots_nodot y hy]
  | cons c t ih =>
    have hc : ¬ c = 46 := fun e => h (by simp [e])
    have : (c :: t) ++ b! "." ++ y = c :: (t ++ b! "." ++ y) := rfl
    rw [this, splitDots, if_neg hc, ih (fun e => h (by simp [e]))]

theorem subjectMatches_safe {pre x y : Bytes} (hp : SafeTok pre) (hx : SafeTok x) (hy : SafeTok y) :
    subjectMatches (natsNs pre x) (natsNs pre y) = decide (x = y) := by
  unfold subjectMatches natsNs
  rw [splitDots_two _ _ hp.dot hx.dot, splitDots_two _ _ hp.dot hy.dot]
  simp [matchTokens, hx.star, hx.full]

theorem validSubject_safe {pre x : Bytes} (hp : SafeTok pre) (hx : SafeTok x) :
    validSubject (splitDots (natsNs pre x)) = true := by
  unfold natsNs
  rw [splitDots_two _ _ hp.dot hx.dot]
  simp [validSubject, hp.ne, hp.full, hx.ne]

theorem natsNs_inj (pre x y : Bytes) : natsNs pre x = natsNs pre y ↔ x = y := by
  simp [natsNs]

theorem natsSubject_self (pre id : Bytes) : (natsSubject pre [] [] id).getD [] = natsNs pre id := by
  unfold natsSubject natsNs
  by_cases h : id = [] <;> simp [h]

def natsRun (pre : Bytes) (acts : List PsAct) : Nats := acts.foldl (natsStep pre) (fun _ => none)

/-- spec: the connection was added under this ID and not removed since -/
def OwnIdN (acts : List PsAct) (c : Nat) (x : Bytes) : Prop :=
  Since acts (fun _ y => y = .add c x) (fun y => y = .del c ∨ ∃ id, y = .add c id)

/-- spec: the connection is never subscribed to a namespace it is already subscribed to -/
def NoDouble (acts : List PsAct) (c : Nat) (x : Bytes) : Prop :=
  ∀ p q, acts = p ++ .subscribe c x :: q → ¬ Subscribed p c x

structure NatsSubInv (pre : Bytes) (acts : List PsAct) (c : Nat) (x : Bytes) (s : NatsSub)
    (id : Bytes) (rest : List (Nat × Bytes)) : Prop where
  active : s.active = (0, natsNs pre id) :: rest
  own : ∀ y, OwnIdN acts c y ↔ y = id
  pos : 0 < s.next
  lt : ∀ a ∈ rest, 0 < a.1 ∧ a.1 < s.next
  form : ∀ a ∈ rest, ∃ y, a.2 = natsNs pre y ∧ .subscribe c y ∈ acts
  map : ∀ S i, mapGet s.subscriptions S = some i →
    0 < i ∧ i < s.next ∧ ∀ T, (i, T) ∈ rest → T = S
  cnt : (Subscribed acts c x → ∃ i, mapGet s.subscriptions (natsNs pre x) = some i ∧
      rest.filter (fun a => decide (a.2 = natsNs pre x)) = [(i, natsNs pre x)]) ∧
    (¬ Subscribed acts c x → rest.filter (fun a => decide (a.2 = natsNs pre x)) = [])

structure NatsInv (pre : Bytes) (acts : List PsAct) (c : Nat) (x : Bytes) (r : Nats) : Prop where
  live : (r c = none) ↔ ¬ Live acts c
  sub : ∀ s, r c = some s → ∃ id rest, NatsSubInv pre acts c x s id rest

theorem nats_inv {pre : Bytes} (hp : SafeTok pre) (acts : List PsAct) (c : Nat) (x : Bytes)
    (hn : ∀ y, Named acts y → SafeTok y) (hd : NoDouble acts c x) :
    NatsInv pre acts c x (natsRun pre acts) := by
  induction acts using snoc_ind with
  | nil =>
    refine ⟨⟨fun _ => since_nil _ _, fun _ => rfl⟩, ?_⟩
    intro ps h; cases h
  | snoc acts a ih =>
    have hrun : natsRun pre (acts ++ [a]) = natsStep pre (natsRun pre acts) a := by
      simp [natsRun]
    have ih := ih (fun y ⟨c, h⟩ => hn y ⟨c, by rcases h with h | h <;> simp [h]⟩)
      (fun p q h => hd p (q ++ [a]) (by rw [h]; simp))
    rw [hrun]
    clear hrun
    generalize natsRun pre acts = r at ih
    obtain ⟨hl, hs⟩ := ih
    have same : (natsStep pre r a) c = r c → (Live (acts ++ [a]) c ↔ Live acts c) →
        (∀ y, OwnIdN (acts ++ [a]) c y ↔ OwnIdN acts c y) →
        (Subscribed (acts ++ [a]) c x ↔ Subscribed acts c x) → NatsInv pre (acts ++ [a]) c x (natsStep pre r a) := by
      intro e h1 h2 h3
      refine ⟨by rw [e, hl, h1], ?_⟩
      rw [e]
      intro s h
      obtain ⟨id, rest, k⟩ := hs s h
      refine ⟨id, rest, k.active, ?_, k.pos, k.lt, ?_, k.map, ?_⟩
      · intro y; rw [h2, k.own]
      · intro b hb
        obtain ⟨y, h1, h2⟩ := k.form b hb
        exact ⟨y, h1, by simp [h2]⟩
      · rw [h3]; exact k.cnt
    cases a with
    | add c' id =>
      have hv := validSubject_safe hp (hn id ⟨c', Or.inl (by simp)⟩)
      by_cases hc : c = c'
      · subst hc
        have e : (natsStep pre r (.add c id)) c = some ⟨[(0, natsNs pre id)], [], 1⟩ := by
          simp [natsStep, natsSubject_self, hv, Nats.set]
        refine ⟨?_, ?_⟩
        · rw [e]; simp [Live, since_snoc]
        · intro s h
          rw [e] at h
          cases h
          refine ⟨id, [], rfl, ?_, by simp, by simp, by simp, by simp [mapGet], ?_⟩
          · intro y; simp [OwnIdN, since_snoc, eq_comm]
          · simp [Subscribed, since_snoc]
      · have hc' : ¬ c' = c := fun h => hc h.symm
        apply same
        · simp [natsStep, natsSubject_self, hv, Nats.set, hc]
        · simp [Live, since_snoc, hc']
        · simp [OwnIdN, since_snoc, hc']
        · simp [Subscribed, since_snoc, hc']
    | del c' =>
      by_cases hc : c = c'
      · subst hc
        have e : (natsStep pre r (.del c)) c = none := by simp [natsStep, Nats.set]
        refine ⟨?_, ?_⟩ <;> rw [e]
        · simp [Live, since_snoc]
        · intro s h; cases h
      · have hc' : ¬ c' = c := fun h => hc h.symm
        apply same
        · simp [natsStep, Nats.set, hc]
        · simp [Live, since_snoc, hc']
        · simp [OwnIdN, since_snoc, hc']
        · simp [Subscribed, since_snoc, hc']
    | subscribe c' ns =>
      have hv := validSubject_safe hp (hn ns ⟨c', Or.inr (by simp)⟩)
      by_cases hc : c = c'
      · subst hc
        cases hrc : r c with
        | none =>
          have hnl := hl.1 hrc
          apply same
          · simp [natsStep, hrc]
          · simp [Live, since_snoc]
          · simp [OwnIdN, since_snoc]
          · simp [Subscribed, since_snoc, hnl]
        | some s0 =>
          have hlive : Live acts c := Classical.byContradiction fun h => by
            have := hl.2 h; rw [hrc] at this; cases this
          obtain ⟨id, rest, k⟩ := hs s0 hrc
          have e : (natsStep pre r (.subscribe c ns)) c = some ⟨s0.active ++ [(s0.next, natsNs pre ns)],
              mapSet s0.subscriptions (natsNs pre ns) s0.next, s0.next + 1⟩ := by
            simp [natsStep, hrc, hv, Nats.set]
          refine ⟨?_, ?_⟩
          · rw [e]; simp [Live, since_snoc]; exact hlive
          · intro s h
            rw [e] at h
            cases h
            refine ⟨id, rest ++ [(s0.next, natsNs pre ns)], ?_, ?_, ?_, ?_, ?_, ?_, ?_⟩
            · simp [k.active]
            · intro y; rw [← k.own]; simp [OwnIdN, since_snoc]
            · simp
            · intro a ha
              rcases List.mem_append.1 ha with ha | ha
              · exact ⟨(k.lt a ha).1, Nat.lt_succ_of_lt (k.lt a ha).2⟩
              · rw [List.mem_singleton.1 ha]; exact ⟨k.pos, Nat.lt_succ_self _⟩
            · intro a ha
              rcases List.mem_append.1 ha with ha | ha
              · obtain ⟨y, h1, h2⟩ := k.form a ha
                exact ⟨y, h1, by simp [h2]⟩
              · rw [List.mem_singleton.1 ha]; exact ⟨ns, rfl, by simp⟩
            · intro S i h
              simp only [mapGet_mapSet] at h
              split at h
              · next hS =>
                cases h
                refine ⟨k.pos, Nat.lt_succ_self _, ?_⟩
                intro T hT
                rcases List.mem_append.1 hT with hT | hT
                · exact absurd (k.lt _ hT).2 (Nat.lt_irrefl _)
                · injection List.mem_singleton.1 hT with _ h2
                  rw [h2, hS]
              · obtain ⟨h1, h2, h3⟩ := k.map S i h
                refine ⟨h1, Nat.lt_succ_of_lt h2, ?_⟩
                intro T hT
                rcases List.mem_append.1 hT with hT | hT
                · exact h3 T hT
                · injection List.mem_singleton.1 hT with h4 _
                  rw [h4] at h2
                  exact absurd h2 (Nat.lt_irrefl _)
            · by_cases hx : ns = x
              · subst hx
                have hns := hd acts [] rfl
                have hy : Subscribed (acts ++ [.subscribe c ns]) c ns :=
                  (since_snoc _ _ _ _).2 (Or.inl ⟨rfl, hlive⟩)
                refine ⟨fun _ => ⟨s0.next, by simp [mapGet_mapSet], ?_⟩, fun h => absurd hy h⟩
                rw [List.filter_append, k.cnt.2 hns]
                simp
              · have hx' : ¬ x = ns := fun h => hx h.symm
                have hy : Subscribed (acts ++ [.subscribe c ns]) c x ↔ Subscribed acts c x := by
                  simp [Subscribed, since_snoc, hx]
                have hne : ¬ natsNs pre x = natsNs pre ns := by rw [natsNs_inj]; exact hx'
                have hne' : ¬ natsNs pre ns = natsNs pre x := by rw [natsNs_inj]; exact hx
                simp only [hy, mapGet_mapSet, hne, if_false, List.filter_append, List.filter_cons, List.filter_nil, hne',
                  decide_false, Bool.false_eq_true, List.append_nil]
                exact k.cnt
      · have hc' : ¬ c' = c := fun h => hc h.symm
        apply same
        · cases hr' : r c' <;> simp [natsStep, hr', hv, Nats.set, hc]
        · simp [Live, since_snoc]
        · simp [OwnIdN, since_snoc]
        · simp [Subscribed, since_snoc, hc']
    | unsubscribe c' ns =>
      by_cases hc : c = c'
      · subst hc
        cases hrc : r c with
        | none =>
          have hnl := hl.1 hrc
          apply same
          · simp [natsStep, hrc]
          · simp [Live, since_snoc]
          · simp [OwnIdN, since_snoc]
          · have h1 : ¬ Subscribed acts c x := fun h => hnl h.live
            have h2 : ¬ Subscribed (acts ++ [.unsubscribe c ns]) c x := fun h => hnl (by
              have := h.live
              simpa [Live, since_snoc] using this)
            exact ⟨fun h => absurd h h2, fun h => absurd h h1⟩
        | some s0 =>
          have hlive : Live acts c := Classical.byContradiction fun h => by
            have := hl.2 h; rw [hrc] at this; cases this
          obtain ⟨id, rest, k⟩ := hs s0 hrc
          have hsub : ∀ y, Subscribed (acts ++ [.unsubscribe c ns]) c y ↔ Subscribed acts c y ∧ ns ≠ y := by
            intro y; simp [Subscribed, since_snoc]
          cases hg : mapGet s0.subscriptions (natsNs pre ns) with
          | none =>
            apply same
            · simp [natsStep, hrc, hg]
            · simp [Live, since_snoc]
            · simp [OwnIdN, since_snoc]
            · rw [hsub]
              refine ⟨And.left, fun h => ⟨h, ?_⟩⟩
              rintro rfl
              obtain ⟨i, hi, _⟩ := k.cnt.1 h
              rw [hg] at hi; cases hi
          | some i =>
            have e : (natsStep pre r (.unsubscribe c ns)) c =
                some { s0 with active := s0.active.filter (fun a => a.1 ≠ i) } := by
              simp [natsStep, hrc, hg, Nats.set]
            obtain ⟨hi0, hi1, hi2⟩ := k.map _ _ hg
            refine ⟨?_, ?_⟩
            · rw [e]; simp [Live, since_snoc]; exact hlive
            · intro s h
              rw [e] at h
              cases h
              refine ⟨id, rest.filter (fun a => a.1 ≠ i), ?_, ?_, k.pos, ?_, ?_, ?_, ?_⟩
              · have : ¬ 0 = i := by omega
                simp [k.active, this]
              · intro y; rw [← k.own]; simp [OwnIdN, since_snoc]
              · intro a ha; exact k.lt a (List.mem_filter.1 ha).1
              · intro a ha
                obtain ⟨y, h1, h2⟩ := k.form a (List.mem_filter.1 ha).1
                exact ⟨y, h1, by simp [h2]⟩
              · intro S j h
                obtain ⟨h1, h2, h3⟩ := k.map S j h
                exact ⟨h1, h2, fun T hT => h3 T (List.mem_filter.1 hT).1⟩
              · rw [hsub]
                by_cases hx : ns = x
                · subst hx
                  refine ⟨fun h => absurd rfl h.2, fun _ => ?_⟩
                  by_cases hb : Subscribed acts c ns
                  · obtain ⟨j, hj, hf⟩ := k.cnt.1 hb
                    rw [hg] at hj; cases hj
                    simp only [List.filter_filter]
                    have : (rest.filter (fun a => decide (a.2 = natsNs pre ns))).filter (fun a => decide (a.1 ≠ i)) = [] := by
                      rw [hf]; simp
                    rw [List.filter_filter] at this
                    rw [← this]
                    apply List.filter_congr
                    intro a _; exact Bool.and_comm _ _
                  · have hf := k.cnt.2 hb
                    rw [List.filter_eq_nil_iff] at hf ⊢
                    intro a ha
                    exact hf a (List.mem_filter.1 ha).1
                · have hx' : ¬ x = ns := fun h => hx h.symm
                  have hsame : (rest.filter (fun a => decide (a.1 ≠ i))).filter (fun a => decide (a.2 = natsNs pre x)) =
                      rest.filter (fun a => decide (a.2 = natsNs pre x)) := by
                    rw [List.filter_filter]
                    apply List.filter_congr
                    rintro ⟨j, T⟩ ha
                    by_cases hT : T = natsNs pre x
                    · have : ¬ j = i := by
                        rintro rfl
                        have := hi2 T ha
                        rw [hT, natsNs_inj] at this
                        exact hx' this
                      simp [hT, this]
                    · simp [hT]
                  simp only [hsame, hx, ne_eq, not_false_eq_true, and_true]
                  exact k.cnt
      · have hc' : ¬ c' = c := fun h => hc h.symm
        apply same
        · cases hr' : r c' with
          | none => simp [natsStep, hr']
          | some s' => cases hg : mapGet s'.subscriptions (natsNs pre ns) <;> simp [natsStep, hr', hg, Nats.set, hc]
        · simp [Live, since_snoc]
        · simp [OwnIdN, since_snoc]
        · simp [Subscribed, since_snoc, hc']

open Classical in
/-- nats: a message is offered to a connection once for its subscription to the namespace of that
name and once for its own ID -/
theorem nats_offers {pre : Bytes} (hp : SafeTok pre) (acts : List PsAct)
    (hn : ∀ y, Named acts y → SafeTok y) (c : Nat) (x : Bytes) (hx : SafeTok x)
    (hd : NoDouble acts c x) :
    natsOffers (natsRun pre acts) (natsNs pre x) c =
      (if OwnIdN acts c x then 1 else 0) + (if Subscribed acts c x then 1 else 0) := by
  obtain ⟨hl, hs⟩ := nats_inv hp acts c x hn hd
  unfold natsOffers
  cases h : natsRun pre acts c with
  | none =>
    have hnl := hl.1 h
    have h1 : ¬ Subscribed acts c x := fun h => hnl h.live
    have h2 : ¬ OwnIdN acts c x := by
      intro h
      apply hnl
      clear hn hd hl hs hnl h1
      rename_i h0
      clear h0
      induction acts using snoc_ind with
      | nil => exact absurd h (since_nil _ _)
      | snoc acts a ih =>
        rcases (since_snoc _ _ _ _).1 h with rfl | ⟨h, hq⟩
        · exact (since_snoc _ _ _ _).2 (Or.inl ⟨_, rfl⟩)
        · exact (since_snoc _ _ _ _).2 (Or.inr ⟨ih h, fun e => hq (Or.inl e)⟩)
    simp [h1, h2]
  | some s =>
    obtain ⟨id, rest, k⟩ := hs s h
    have hid : SafeTok id := by
      obtain ⟨_, z, hz, rfl⟩ := ((k.own id).2 rfl).mem
      exact hn id ⟨c, Or.inl hz⟩
    have hr : rest.filter (fun a => subjectMatches a.2 (natsNs pre x)) =
        rest.filter (fun a => decide (a.2 = natsNs pre x)) := by
      apply List.filter_congr
      intro a ha
      obtain ⟨y, h1, h2⟩ := k.form a ha
      rw [h1, subjectMatches_safe hp (hn y ⟨c, Or.inr h2⟩) hx]
      simp only [natsNs_inj]
    simp only [k.active, List.filter_cons, subjectMatches_safe hp hid hx, hr, k.own, eq_comm (a := x)]
    by_cases hb : Subscribed acts c x
    · obtain ⟨i, _, hf⟩ := k.cnt.1 hb
      by_cases e : id = x <;> simp [e, hf, hb]
    · have hf := k.cnt.2 hb
      by_cases e : id = x <;> simp [e, hf, hb]

/-! ## C50 -/

open Classical in
/-- C50, partial, redis: if the names have no bytes that are special in patterns and nobody is
subscribed to a namespace that is called like the connection ID, a direct message is offered
exactly to the connections with that ID, once. -/
theorem c50_redis_partial {pre : Bytes} (hpre : PlainGlob pre) (acts : List PsAct)
    (hn : ∀ x, Named acts x → PlainGlob x) (m : Message) (hto : m.to ≠ [])
    (hns : ∀ c, PsAct.subscribe c m.to ∉ acts ∧ PsAct.unsubscribe c m.to ∉ acts) (c : Nat) :
    ∃ ch, redisChannel pre m.ns m.room m.to = some ch ∧
      redisOffers (redisRun pre acts) ch c = if OwnIdN acts c m.to then 1 else 0 := by
  refine ⟨redisNs pre m.to, by simp [redisChannel, hto, redisNs], ?_⟩
  rw [redis_offers hpre acts hn]
  have h1 : ¬ Subscribed acts c m.to := by
    intro h
    obtain ⟨_, z, hz, rfl, _⟩ := h.mem
    exact (hns c).1 hz
  have h2 : OwnId acts c m.to ↔ OwnIdN acts c m.to := by
    constructor
    · rintro ⟨p, x, q, h, hp, hq⟩
      exact ⟨p, x, q, h, hp, fun y hy hy' => hq y hy (Or.inr hy')⟩
    · rintro ⟨p, x, q, h, hp, hq⟩
      refine ⟨p, x, q, h, hp, fun y hy hy' => ?_⟩
      rcases hy' with rfl | hy'
      · exact (hns c).2 (by rw [h]; simp [hy])
      · exact hq y hy hy'
  simp only [h1, h2, false_or]

open Classical in
/-- C50, partial, nats: the same, for names that are single literal tokens. -/
theorem c50_nats_partial {pre : Bytes} (hpre : SafeTok pre) (acts : List PsAct)
    (hn : ∀ x, Named acts x → SafeTok x) (m : Message) (hto : SafeTok m.to)
    (hns : ∀ c, PsAct.subscribe c m.to ∉ acts) (c : Nat) :
    ∃ ch, natsSubject pre m.ns m.room m.to = some ch ∧
      natsOffers (natsRun pre acts) ch c = if OwnIdN acts c m.to then 1 else 0 := by
  refine ⟨natsNs pre m.to, by simp [natsSubject, hto.ne, natsNs], ?_⟩
  have h1 : ¬ Subscribed acts c m.to := by
    intro h
    obtain ⟨_, z, hz, rfl, _⟩ := h.mem
    exact hns c hz
  rw [nats_offers hpre acts hn c m.to hto]
  · simp only [h1, if_false, Nat.add_zero]
  · intro p q h
    exact absurd (by rw [h]; simp) (hns c)

/-- two connections, `u1` and `u2`, of which the second is in `chat` -/
def twoActs : List PsAct :=
  [.add 1 (b! "u1"), .add 2 (b! "u2"), .subscribe 1 (b! "chat"), .subscribe 2 (b! "chat")]

example : (∀ x, Named twoActs x → PlainGlob x ∧ SafeTok x) ∧ PlainGlob (b! "neffos") ∧ SafeTok (b! "neffos") ∧
    (∀ c, PsAct.subscribe c (b! "u1") ∉ twoActs ∧ PsAct.unsubscribe c (b! "u1") ∉ twoActs) ∧
    OwnIdN twoActs 1 (b! "u1") ∧ redisOffers (redisRun (b! "neffos") twoActs) (b! "neffos.u1.") 1 = 1 ∧
    natsOffers (natsRun (b! "neffos") twoActs) (b! "neffos.u1") 1 = 1 ∧
    natsOffers (natsRun (b! "neffos") twoActs) (b! "neffos.u1") 2 = 0 := by
  refine ⟨?_, by unfold PlainGlob; decide, ⟨by decide, by decide, by decide, by decide⟩, ?_, ?_, by decide +kernel,
    by decide +kernel, by decide +kernel⟩
  · intro x hx
    have : x = b! "u1" ∨ x = b! "u2" ∨ x = b! "chat" := by
      obtain ⟨c, h | h⟩ := hx
      · simp only [twoActs, List.mem_cons, PsAct.add.injEq, List.not_mem_nil, reduceCtorEq, or_false] at h
        rcases h with h | h
        · exact Or.inl h.2
        · exact Or.inr (Or.inl h.2)
      · simp only [twoActs, List.mem_cons, PsAct.subscribe.injEq, List.not_mem_nil, reduceCtorEq, or_false,
          false_or] at h
        rcases h with h | h <;> exact Or.inr (Or.inr h.2)
    rcases this with rfl | rfl | rfl <;>
      exact ⟨by unfold PlainGlob; decide, ⟨by decide, by decide, by decide, by decide⟩⟩
  · intro c
    have h1 : ¬ b! "u1" = b! "chat" := by decide
    simp [twoActs, h1]
  · exact ⟨[], _, _, rfl, rfl, by simp⟩

/-- C50 fails, redis: a direct message to `u1` is offered to a connection with another ID that is
subscribed to a namespace called `u1`, and is then written to it. -/
theorem c50_redis_refuted :
    let acts := twoActs ++ [PsAct.subscribe 2 (b! "u1")]
    let m : Message := { ns := b! "chat", event := b! "secret", body := b! "x", to := b! "u1" }
    redisChannel (b! "neffos") m.ns m.room m.to = some (b! "neffos.u1.") ∧
    ¬ OwnIdN acts 2 m.to ∧
    redisOffers (redisRun (b! "neffos") acts) (b! "neffos.u1.") 2 = 1 ∧
    (let s := after (serverCfg chatDecl noCb) (b! "u2") chatSrvOps
     ∃ b, serializeMessage m = some b ∧ s.id = b! "u2" ∧
      (psDeliver (serverCfg chatDecl noCb) s b).2 = true) := by
  refine ⟨by decide +kernel, ?_, by decide +kernel, _, rfl, by decide +kernel, by decide +kernel⟩
  intro h
  obtain ⟨_, z, hz, rfl⟩ := h.mem
  have h1 : ¬ b! "u1" = b! "u2" := by decide
  simp [twoActs, h1] at hz

/-- C50 fails, nats: the same. -/
theorem c50_nats_refuted :
    let acts := twoActs ++ [PsAct.subscribe 2 (b! "u1")]
    let m : Message := { ns := b! "chat", event := b! "secret", body := b! "x", to := b! "u1" }
    natsSubject (b! "neffos") m.ns m.room m.to = some (b! "neffos.u1") ∧
    ¬ OwnIdN acts 2 m.to ∧
    natsOffers (natsRun (b! "neffos") acts) (b! "neffos.u1") 2 = 1 := by
  refine ⟨by decide +kernel, ?_, by decide +kernel⟩
  intro h
  obtain ⟨_, z, hz, rfl⟩ := h.mem
  have h1 : ¬ b! "u1" = b! "u2" := by decide
  simp [twoActs, h1] at hz

/-- C50 fails for an ID that is a pattern: the connection with the ID `*` is offered the direct
messages of all others, with both exchanges. -/
theorem c50_refuted_pattern :
    let acts := [PsAct.add 1 (b! "u1"), .add 2 (b! "*")]
    redisOffers (redisRun (b! "neffos") acts) (b! "neffos.u1.") 2 = 1 ∧
    natsOffers (natsRun (b! "neffos") acts) (b! "neffos.u1") 2 = 1 := by
  decide +kernel

/-! ## C51 -/

open Classical in
/-- C51, partial, redis: a broadcast message is offered exactly to the connections subscribed to
its namespace, once, if no connection has the name of the namespace as its ID. -/
theorem c51_redis_partial {pre : Bytes} (hpre : PlainGlob pre) (acts : List PsAct)
    (hn : ∀ x, Named acts x → PlainGlob x) (m : Message) (hto : m.to = [])
    (hroom : m.ns = [] → m.room = []) (c : Nat) (hid : PsAct.add c m.ns ∉ acts) :
    ∃ ch, redisChannel pre m.ns m.room m.to = some ch ∧
      redisOffers (redisRun pre acts) ch c = if Subscribed acts c m.ns then 1 else 0 := by
  refine ⟨redisNs pre m.ns, ?_, ?_⟩
  · have : ¬ (m.ns = [] ∧ m.room ≠ []) := fun h => h.2 (hroom h.1)
    simp [redisChannel, hto, redisNs, this]
  · rw [redis_offers hpre acts hn]
    have h1 : ¬ OwnId acts c m.ns := by
      intro h
      obtain ⟨_, z, hz, rfl⟩ := h.mem
      exact hid hz
    simp only [h1, or_false]

open Classical in
/-- C51, partial, nats: the same, for names that are single literal tokens and a connection that is
never subscribed to the namespace twice. -/
theorem c51_nats_partial {pre : Bytes} (hpre : SafeTok pre) (acts : List PsAct)
    (hn : ∀ x, Named acts x → SafeTok x) (m : Message) (hto : m.to = []) (hns : SafeTok m.ns)
    (c : Nat) (hid : PsAct.add c m.ns ∉ acts) (hd : NoDouble acts c m.ns) :
    ∃ ch, natsSubject pre m.ns m.room m.to = some ch ∧
      natsOffers (natsRun pre acts) ch c = if Subscribed acts c m.ns then 1 else 0 := by
  refine ⟨natsNs pre m.ns, by simp [natsSubject, hto, natsNs, hns.ne], ?_⟩
  rw [nats_offers hpre acts hn c m.ns hns hd]
  have h1 : ¬ OwnIdN acts c m.ns := by
    intro h
    obtain ⟨_, z, hz, rfl⟩ := h.mem
    exact hid hz
  simp only [h1, if_false, Nat.zero_add]

/-- the actions of a history that concern a connection -/
def PsAct.of (c : Nat) : PsAct → Bool
  | .add c' _ => c' = c
  | .subscribe c' _ => c' = c
  | .unsubscribe c' _ => c' = c
  | .del c' => c' = c

/-- the calls of a connection, conn.go:700-713, as actions of the exchange -/
def noteActs (c : Nat) : List Obs → List PsAct
  | [] => []
  | .subscribe ns :: l => .subscribe c ns :: noteActs c l
  | .unsubscribe ns :: l => .unsubscribe c ns :: noteActs c l
  | _ :: l => noteActs c l

theorem noteActs_append (c : Nat) (l m : List Obs) : noteActs c (l ++ m) = noteActs c l ++ noteActs c m := by
  induction l with
  | nil => rfl
  | cons o l ih => cases o <;> simp [noteActs, ih]

theorem live_filter (acts : List PsAct) (c : Nat) : Live (acts.filter (PsAct.of c)) c ↔ Live acts c := by
  induction acts using snoc_ind with
  | nil => rfl
  | snoc acts a ih =>
    rw [List.filter_append]
    cases ha : PsAct.of c a with
    | true => simp only [Live] at ih; simp [ha, Live, since_snoc, ih]
    | false =>
      have h1 : ∀ id, a ≠ .add c id := by rintro id rfl; simp [PsAct.of] at ha
      have h2 : a ≠ .del c := by rintro rfl; simp [PsAct.of] at ha
      simp only [Live] at ih
      simp [ha, Live, since_snoc, ih, h1, h2]

theorem subscribed_filter (acts : List PsAct) (c : Nat) (ns : Bytes) :
    Subscribed (acts.filter (PsAct.of c)) c ns ↔ Subscribed acts c ns := by
  induction acts using snoc_ind with
  | nil => rfl
  | snoc acts a ih =>
    rw [List.filter_append]
    cases ha : PsAct.of c a with
    | true => simp only [Subscribed] at ih; simp [ha, Subscribed, since_snoc, ih, live_filter]
    | false =>
      have h1 : ∀ id, a ≠ .add c id := by rintro id rfl; simp [PsAct.of] at ha
      have h2 : a ≠ .del c := by rintro rfl; simp [PsAct.of] at ha
      have h3 : a ≠ .subscribe c ns := by rintro rfl; simp [PsAct.of] at ha
      have h4 : a ≠ .unsubscribe c ns := by rintro rfl; simp [PsAct.of] at ha
      simp only [Subscribed] at ih
      simp [ha, Subscribed, since_snoc, ih, h1, h2, h3, h4]

theorem obs_snoc_ind {motive : List Obs → Prop} (nil : motive [])
    (snoc : ∀ l a, motive l → motive (l ++ [a])) (l : List Obs) : motive l := by
  have : ∀ n, ∀ l : List Obs, l.length = n → motive l := by
    intro n
    induction n with
    | zero => intro l h; rw [List.length_eq_zero_iff.1 h]; exact nil
    | succ n ih =>
      intro l h
      rcases List.eq_nil_or_concat l with rfl | ⟨q, y, rfl⟩
      · exact nil
      · rw [List.concat_eq_append] at h ⊢; exact snoc q y (ih q (by simpa using h))
  exact this _ l rfl

theorem noteActs_live (c : Nat) (id : Bytes) (l : List Obs) : Live (.add c id :: noteActs c l) c := by
  refine ⟨[], _, _, rfl, ⟨id, rfl⟩, ?_⟩
  intro y hy
  rintro rfl
  induction l with
  | nil => simp [noteActs] at hy
  | cons o l ih => cases o <;> simp [noteActs] at hy <;> exact ih hy

theorem noteActs_subscribed (c : Nat) (id ns : Bytes) (l : List Obs) :
    Subscribed (.add c id :: noteActs c l) c ns ↔ subscribedTo ns l = true := by
  induction l using obs_snoc_ind with
  | nil =>
    have : ([PsAct.add c id] : List PsAct) = [] ++ [.add c id] := rfl
    unfold Subscribed noteActs
    rw [this, since_snoc]
    simp [subscribedTo, since_nil]
  | snoc l o ih =>
    rw [noteActs_append]
    have hfold : subscribedTo ns (l ++ [o]) = subStep ns (subscribedTo ns l) o := by
      simp [subscribedTo]
    rw [hfold]
    have other : noteActs c [o] = [] → subStep ns (subscribedTo ns l) o = subscribedTo ns l →
        (Subscribed (.add c id :: (noteActs c l ++ noteActs c [o])) c ns ↔
          subStep ns (subscribedTo ns l) o = true) := by
      intro h1 h2; rw [h1, h2, List.append_nil]; exact ih
    have live := noteActs_live c id l
    cases o with
    | subscribe n =>
      simp only [noteActs, ← List.cons_append, subStep]
      unfold Subscribed at ih ⊢
      rw [since_snoc]
      by_cases e : n = ns
      · subst e; simp [live]
      · have e' : ¬ (PsAct.subscribe c n = .subscribe c ns) := by simp [e]
        simp [e, ih]
    | unsubscribe n =>
      simp only [noteActs, ← List.cons_append, subStep]
      unfold Subscribed at ih ⊢
      rw [since_snoc]
      by_cases e : n = ns
      · subst e; simp
      · simp [e, ih]
    | _ => exact other rfl rfl

/-- C51: the last call for a namespace is Subscribe exactly if the namespace is connected, in every
reachable state of an open server-side connection that is not native-only. -/
theorem c51_follows {cfg : Cfg} {id : Bytes} {s : St} (hr : Reach cfg id s) (hsrv : cfg.isClient = false)
    (hex : cfg.usesExchange = true) (hnat : cfg.onlyNative = false) (hc : s.closed = false) (ns : Bytes) :
    (s.namespace ns).isSome = true ↔ subscribedTo ns s.log = true := by
  have : s.closed = false → s.hung = false ∧ Tracked s := by
    clear hc
    induction hr with
    | init =>
      intro _
      unfold newConn
      rw [if_neg (by simp [hnat])]
      exact ⟨rfl, fun ns => rfl⟩
    | step hr hs ih =>
      intro hc
      obtain ⟨he, hh⟩ := step_exec hs
      obtain ⟨h1, h2, h3⟩ := trk_exec hsrv hex (reach_ok hr).1 (reach_ok hr).2 he hc hh
      exact ⟨hh, h3 (ih h1).2⟩
  rw [(this hc).2 ns]

open Classical in
/-- C51, partial, redis, the whole way: if the exchange was told of the connection and of its
calls, and of any other connections, a broadcast message of a namespace is offered to the open
connection exactly if that is connected to the namespace. -/
theorem c51_redis_member_partial {cfg : Cfg} {id : Bytes} {s : St} (hr : Reach cfg id s)
    (hsrv : cfg.isClient = false) (hex : cfg.usesExchange = true) (hnat : cfg.onlyNative = false)
    (hc : s.closed = false) {pre : Bytes} (hpre : PlainGlob pre) (acts : List PsAct)
    (hn : ∀ x, Named acts x → PlainGlob x) (c : Nat)
    (hacts : acts.filter (PsAct.of c) = .add c id :: noteActs c s.log)
    (m : Message) (hto : m.to = []) (hroom : m.ns = [] → m.room = []) (hid : id ≠ m.ns) :
    ∃ ch, redisChannel pre m.ns m.room m.to = some ch ∧
      redisOffers (redisRun pre acts) ch c = if (s.namespace m.ns).isSome then 1 else 0 := by
  have hna : PsAct.add c m.ns ∉ acts := by
    intro h
    have : PsAct.add c m.ns ∈ acts.filter (PsAct.of c) := List.mem_filter.2 ⟨h, by simp [PsAct.of]⟩
    rw [hacts] at this
    rcases List.mem_cons.1 this with h | h
    · injection h with _ h; exact hid h.symm
    · revert h
      generalize s.log = l
      intro h
      induction l with
      | nil => simp [noteActs] at h
      | cons o l ih => cases o <;> simp [noteActs] at h <;> exact ih h
  obtain ⟨ch, h1, h2⟩ := c51_redis_partial hpre acts hn m hto hroom c hna
  refine ⟨ch, h1, ?_⟩
  rw [h2]
  simp only [← subscribed_filter acts c m.ns, hacts, noteActs_subscribed,
    ← c51_follows hr hsrv hex hnat hc]

/-- a server with an exchange -/
def exchangeCfg : Cfg := { serverCfg chatDecl noCb with usesExchange := true }

example : ∃ s, Reach exchangeCfg (b! "u1") s ∧ s.closed = false ∧ exchangeCfg.isClient = false ∧
    exchangeCfg.usesExchange = true ∧ exchangeCfg.onlyNative = false ∧ (s.namespace (b! "chat")).isSome = true ∧
    (twoActs.filter (PsAct.of 1)) = .add 1 (b! "u1") :: noteActs 1 s.log ∧ b! "u1" ≠ b! "chat" ∧
    NoDouble twoActs 1 (b! "chat") ∧ PsAct.add 1 (b! "chat") ∉ twoActs := by
  refine ⟨after _ _ chatSrvOps, after_reach (by decide +kernel), by decide +kernel, rfl, rfl, rfl,
    by decide +kernel, by decide +kernel, by decide, ?_, by decide⟩
  intro p q h
  have h0 : twoActs.length = p.length + (q.length + 1) := by rw [h]; simp
  match p, h with
  | [], h => cases h
  | [_], h => cases h
  | [_, _], h =>
    simp [twoActs] at h
    rw [← h.2.1, ← h.1]
    unfold Subscribed
    show ¬ Since ([PsAct.add 1 (b! "u1")] ++ [PsAct.add 2 (b! "u2")]) _ _
    rw [since_snoc]
    have : ([PsAct.add 1 (b! "u1")] : List PsAct) = [] ++ [.add 1 (b! "u1")] := rfl
    rw [this, since_snoc]
    simp [since_nil]
  | [_, _, _], h => cases h
  | _ :: _ :: _ :: _ :: _, h => simp [twoActs] at h0; omega

/-- C51 fails, nats: a connection that is subscribed twice, as two overlapping Connect calls do,
is offered every message twice, and still one after it was unsubscribed. -/
theorem c51_nats_refuted :
    let acts := [PsAct.add 1 (b! "u1"), .subscribe 1 (b! "chat"), .subscribe 1 (b! "chat")]
    natsOffers (natsRun (b! "neffos") acts) (b! "neffos.chat") 1 = 2 ∧
    natsOffers (natsRun (b! "neffos") (acts ++ [.unsubscribe 1 (b! "chat")])) (b! "neffos.chat") 1 = 1 ∧
    ¬ Subscribed (acts ++ [.unsubscribe 1 (b! "chat")]) 1 (b! "chat") := by
  refine ⟨by decide +kernel, by decide +kernel, ?_⟩
  unfold Subscribed
  rw [since_snoc]
  simp

/-- C51 fails for a connection whose ID is the name of a namespace: it is offered the messages of
that namespace without being subscribed, and with redis unsubscribing makes it unreachable by
its ID. -/
theorem c51_refuted_id :
    let acts := [PsAct.add 1 (b! "chat")]
    ¬ Subscribed acts 1 (b! "chat") ∧
    redisOffers (redisRun (b! "neffos") acts) (b! "neffos.chat.") 1 = 1 ∧
    natsOffers (natsRun (b! "neffos") acts) (b! "neffos.chat") 1 = 1 ∧
    redisOffers (redisRun (b! "neffos") (acts ++ [.subscribe 1 (b! "chat"), .unsubscribe 1 (b! "chat")]))
      (b! "neffos.chat.") 1 = 0 := by
  refine ⟨?_, by decide +kernel, by decide +kernel, by decide +kernel⟩
  intro h
  obtain ⟨_, z, hz, rfl, _⟩ := h.mem
  simp at hz

/-- C51 fails for native-only connections: they are connected to the empty namespace from the
start and never subscribe, so that no broadcast reaches them through an exchange. -/
theorem c51_refuted_native (cfg : Cfg) (id : Bytes) (hnat : cfg.onlyNative = true) :
    ((newConn cfg id).namespace []).isSome = true ∧ subscribedTo [] (newConn cfg id).log = false := by
  unfold newConn
  rw [if_pos hnat]
  exact ⟨rfl, rfl⟩

/-- C51, nats: the empty namespace has no valid subject, its messages reach nobody. -/
theorem c51_nats_refuted_empty (pre : Bytes) (hpre : SafeTok pre) (r : Nats) (c : Nat) :
    natsStep pre r (.subscribe c []) = r := by
  have hv : validSubject (splitDots (natsNs pre [])) = false := by
    unfold natsNs
    rw [splitDots_two _ _ hpre.dot (by simp)]
    simp [validSubject]
  simp only [natsStep, hv]
  split <;> simp

end Neffos
