import Verif.Props.PubSub
import Verif.Spec.Match
set_option autoImplicit false
/-!
# C91: how often the brokers offer a message to a connection
-/
namespace Neffos
open Spec

/-! ## redis patterns -/

/-- the model's `parseClass` reads the text as the manual says -/
theorem parseClass_text {t r : Bytes} {rs : List (UInt8 × UInt8)} (h : ClassText t rs r) :
    (parseClass t).2 = r ∧ ∀ x, (parseClass t).1 x = true ↔ InRanges rs x := by
  have sing : ∀ (c : UInt8) (rs : List (UInt8 × UInt8)) (x : UInt8),
      InRanges ((c, c) :: rs) x ↔ x = c ∨ InRanges rs x := by
    intro c rs x
    simp only [InRanges, List.mem_cons, exists_eq_or_imp]
    refine or_congr ?_ Iff.rfl
    constructor
    · rintro (⟨h1, h2⟩ | ⟨h1, h2⟩) <;> exact UInt8.le_antisymm (by assumption) (by assumption)
    · rintro rfl; exact .inl ⟨UInt8.le_refl _, UInt8.le_refl _⟩
  induction h with
  | done => exact ⟨rfl, fun x => by simp [parseClass, InRanges]⟩
  | close t => exact ⟨rfl, fun x => by simp [parseClass, InRanges]⟩
  | esc c h ih =>
    refine ⟨ih.1, fun x => ?_⟩
    rw [sing, ← ih.2 x]
    simp [parseClass]
  | @range t r rs a b h1 h2 h ih =>
    rw [parseClass]
    · refine ⟨ih.1, fun x => ?_⟩
      have : InRanges ((a, b) :: rs) x ↔ ((a ≤ x ∧ x ≤ b) ∨ (b ≤ x ∧ x ≤ a)) ∨ InRanges rs x := by
        simp [InRanges, List.mem_cons]
      rw [this, ← ih.2 x]
      simp only [Bool.or_eq_true, Bool.and_eq_true, decide_eq_true_eq]
      refine or_congr ?_ Iff.rfl
      simp only [UInt8.le_iff_toNat_le]
      have hmin : (min a b).toNat = min a.toNat b.toNat := by
        rw [show min a b = if a ≤ b then a else b from rfl, Nat.min_def]
        simp only [UInt8.le_iff_toNat_le]
        split <;> rfl
      have hmax : (max a b).toNat = max a.toNat b.toNat := by
        rw [show max a b = if a ≤ b then b else a from rfl, Nat.max_def]
        simp only [UInt8.le_iff_toNat_le]
        split <;> rfl
      rw [hmin, hmax]
      omega
    · exact h1
    · exact h2
  | @byte t r rs c h1 h2 h3 h ih =>
    rw [parseClass]
    · refine ⟨ih.1, fun x => ?_⟩
      rw [sing, ← ih.2 x]
      simp
    · exact h1
    · intro d u e1 e2; have := h2 e1; rw [this] at e2; cases e2
    · intro b u e; exact h3 b u e

theorem classText_len {t r : Bytes} {rs : List (UInt8 × UInt8)} (h : ClassText t rs r) : r.length ≤ t.length := by
  induction h <;> simp <;> omega

/-- every text is the text of a class -/
theorem classText_total (t : Bytes) : ∃ rs r, ClassText t rs r := by
  have : ∀ n, ∀ t : Bytes, t.length ≤ n → ∃ rs r, ClassText t rs r := by
    intro n
    induction n with
    | zero => intro t h; have := List.length_eq_zero_iff.mp (Nat.le_zero.mp h); subst this; exact ⟨_, _, .done⟩
    | succ n ih =>
      intro t h
      match t with
      | [] => exact ⟨_, _, .done⟩
      | c :: t =>
        by_cases h1 : c = 93
        · subst h1; exact ⟨_, _, .close t⟩
        by_cases h2 : c = 92
        · match t with
          | [] => exact ⟨_, _, .byte c h1 (fun _ => rfl) (by simp) .done⟩
          | d :: t =>
            obtain ⟨rs, r, hr⟩ := ih t (by simp at h; omega)
            subst h2
            exact ⟨_, _, .esc d hr⟩
        by_cases h3 : ∃ b u, t = 45 :: b :: u
        · obtain ⟨b, u, rfl⟩ := h3
          obtain ⟨rs, r, hr⟩ := ih u (by simp at h; omega)
          exact ⟨_, _, .range c b h1 h2 hr⟩
        · obtain ⟨rs, r, hr⟩ := ih t (by simp at h; omega)
          exact ⟨_, _, .byte c h1 (fun e => absurd e h2) (fun b u e => h3 ⟨b, u, e⟩) hr⟩
  exact this _ t (Nat.le_refl _)

theorem mem_suffixes (s t : Bytes) : t ∈ suffixes s ↔ ∃ u, s = u ++ t := by
  induction s with
  | nil => simp only [suffixes, List.mem_singleton]
           constructor
           · rintro rfl; exact ⟨[], rfl⟩
           · rintro ⟨u, h⟩; exact (List.append_eq_nil_iff.mp h.symm).2
  | cons c s ih =>
    rw [suffixes, List.mem_cons, ih]
    constructor
    · rintro (rfl | ⟨u, rfl⟩)
      · exact ⟨[], rfl⟩
      · exact ⟨c :: u, rfl⟩
    · rintro ⟨u, h⟩
      match u with
      | [] => exact .inl h.symm
      | d :: u => injection h with _ h; exact .inr ⟨u, h⟩

theorem globMatch_byte {q s : Bytes} (h : GlobMatch q s) : ∀ {c : UInt8} {p : Bytes}, q = c :: p → c ≠ 42 → c ≠ 63 →
    c ≠ 91 → (c = 92 → p = []) → ∃ s', s = c :: s' ∧ GlobMatch p s' := by
  intro c p e h1 h2 h3 h4
  cases h with
  | done => cases e
  | star u h => injection e with e; exact absurd e.symm h1
  | one d h => injection e with e; exact absurd e.symm h2
  | cls _ _ _ h => injection e with e; exact absurd e.symm h3
  | not _ _ h => injection e with e; exact absurd e.symm h3
  | esc d h => injection e with e e'; have := h4 e.symm; rw [this] at e'; cases e'
  | byte d _ _ _ _ h => injection e with e e'; subst e; subst e'; exact ⟨_, rfl, h⟩

/-- the model's matcher on a pattern of at most `n` bytes -/
theorem matchGlob_iff (n : Nat) : ∀ (p s : Bytes), p.length ≤ n → (matchGlob (parseGlob n p) s = true ↔ GlobMatch p s) := by
  induction n with
  | zero =>
    intro p s h
    have := List.length_eq_zero_iff.mp (Nat.le_zero.mp h); subst this
    simp only [parseGlob, matchGlob, decide_eq_true_eq]
    constructor
    · rintro rfl; exact .done
    · intro h; cases h; rfl
  | succ n ih =>
    intro p s h
    match p with
    | [] =>
      simp only [parseGlob, matchGlob, decide_eq_true_eq]
      constructor
      · rintro rfl; exact .done
      · intro h; cases h; rfl
    | c :: p =>
      have hp : p.length ≤ n := by simpa using h
      by_cases h42 : c = 42
      · subst h42
        rw [parseGlob, matchGlob, List.any_eq_true]
        constructor
        · rintro ⟨x, hx, hm⟩
          obtain ⟨u, rfl⟩ := (mem_suffixes s x).mp hx
          exact .star u ((ih p x hp).mp hm)
        · intro h
          cases h with
          | star u h => exact ⟨_, (mem_suffixes _ _).mpr ⟨u, rfl⟩, (ih p _ hp).mpr h⟩
          | byte _ h1 => exact absurd rfl h1
      by_cases h63 : c = 63
      · subst h63
        rw [parseGlob]
        match s with
        | [] => simp only [matchGlob, Bool.false_eq_true, false_iff]; intro h; cases h
        | d :: s =>
          rw [matchGlob]
          refine (ih p s hp).trans ⟨.one d, fun h => ?_⟩
          cases h with
          | one _ h => exact h
          | byte _ _ h2 => exact absurd rfl h2
      by_cases h91 : c = 91
      · subst h91
        by_cases hn : ∃ u, p = 94 :: u
        · obtain ⟨u, rfl⟩ := hn
          obtain ⟨rs, r, hc⟩ := classText_total u
          obtain ⟨h1, h2⟩ := parseClass_text hc
          have hr := classText_len hc
          rw [parseGlob]
          show matchGlob (.cls (fun x => !(parseClass u).1 x) :: parseGlob n (parseClass u).2) s = true ↔ _
          rw [h1]
          match s with
          | [] => simp only [matchGlob, Bool.false_eq_true, false_iff]; intro h; cases h
          | d :: s =>
            simp only [matchGlob, Bool.and_eq_true, Bool.not_eq_true', ← Bool.not_eq_true, h2]
            rw [ih r s (by simp at hp; omega)]
            constructor
            · rintro ⟨h3, h4⟩; exact .not hc h3 h4
            · intro h
              cases h with
              | cls hn => exact absurd rfl (hn _)
              | @not _ r' _ rs' _ hc' hi h =>
                obtain ⟨h3, h4⟩ := parseClass_text hc'
                rw [← h2, h4]
                exact ⟨hi, by rw [← h1, h3]; exact h⟩
              | byte _ _ _ h3 => exact absurd rfl h3
        · have hn' : ∀ u, p ≠ 94 :: u := fun u e => hn ⟨u, e⟩
          obtain ⟨rs, r, hc⟩ := classText_total p
          obtain ⟨h1, h2⟩ := parseClass_text hc
          have hr := classText_len hc
          rw [parseGlob]
          · show matchGlob (.cls (parseClass p).1 :: parseGlob n (parseClass p).2) s = true ↔ _
            rw [h1]
            match s with
            | [] => simp only [matchGlob, Bool.false_eq_true, false_iff]; intro h; cases h
            | d :: s =>
              simp only [matchGlob, Bool.and_eq_true, h2]
              rw [ih r s (by omega)]
              constructor
              · rintro ⟨h3, h4⟩; exact .cls hn' hc h3 h4
              · intro h
                cases h with
                | @cls _ r' _ rs' _ hn hc' hi h =>
                  obtain ⟨h3, h4⟩ := parseClass_text hc'
                  rw [← h2, h4]
                  exact ⟨hi, by rw [← h1, h3]; exact h⟩
                | not hc' => exact absurd rfl (hn' _)
                | byte _ _ _ h3 => exact absurd rfl h3
          · intro u e; exact hn' u e
      have lit : (c = 92 → p = []) → parseGlob (n + 1) (c :: p) = .lit c :: parseGlob n p := by
        intro h92
        rw [parseGlob]
        · exact h42
        · exact h63
        · intro t e1 e2; exact h91 e1
        · exact h91
        · intro d t e1 e2; rw [h92 e1] at e2; cases e2
      by_cases h92 : c = 92 → p = []
      · rw [lit h92]
        match s with
        | [] =>
          simp only [matchGlob, Bool.false_eq_true, false_iff]
          intro hm
          obtain ⟨s', e, _⟩ := globMatch_byte hm rfl h42 h63 h91 h92
          cases e
        | d :: s =>
          simp only [matchGlob, Bool.and_eq_true, decide_eq_true_eq]
          rw [ih p s hp]
          constructor
          · rintro ⟨rfl, hm⟩; exact .byte d h42 h63 h91 h92 hm
          · intro hm
            obtain ⟨s', e, hm⟩ := globMatch_byte hm rfl h42 h63 h91 h92
            injection e with e1 e2; subst e2; exact ⟨e1, hm⟩
      · obtain ⟨rfl, hne⟩ := Classical.not_imp.mp h92
        match p, hne with
        | d :: p, _ =>
          rw [parseGlob]
          match s with
          | [] => simp only [matchGlob, Bool.false_eq_true, false_iff]; intro h; cases h
          | e :: s =>
            simp only [matchGlob, Bool.and_eq_true, decide_eq_true_eq]
            rw [ih p s (by simp at hp; omega)]
            constructor
            · rintro ⟨rfl, hm⟩; exact .esc e hm
            · intro h
              cases h with
              | esc _ h => exact ⟨rfl, h⟩
              | byte _ _ _ _ h4 => have := h4 rfl; cases this

theorem globMatches_iff (p s : Bytes) : globMatches p s = true ↔ GlobMatch p s :=
  matchGlob_iff _ p s (Nat.le_refl _)

/-! ## nats subjects -/

theorem splitDots_tokens (s : Bytes) : Tokens s (splitDots s) := by
  induction s with
  | nil => exact .last (by simp)
  | cons c t ih =>
    rw [splitDots]
    split
    · rename_i h; subst h; exact .more (x := []) (by simp) ih
    · rename_i h
      have h' : ¬ (46 : UInt8) = c := fun e => h e.symm
      cases ht : splitDots t with
      | nil => rw [ht] at ih; cases ih
      | cons f fs =>
        rw [ht] at ih
        cases ih with
        | last hx => exact .last (by simp [h', hx])
        | more hx hy => exact .more (x := c :: f) (by simp [h', hx]) hy

theorem tokens_fun {s : Bytes} {ts us : List Bytes} (h1 : Tokens s ts) (h2 : Tokens s us) : ts = us := by
  have : ∀ s ts, Tokens s ts → ts = splitDots s := by
    intro s ts h
    induction h with
    | last h => exact (splitDots_nodot _ h).symm
    | @more x y ts h ht ih =>
      clear ht
      induction x with
      | nil => simp [splitDots, ih]
      | cons c x ihx =>
        have hc : ¬ c = 46 := fun e => h (by simp [e])
        have := ihx (fun e => h (by simp [e]))
        rw [List.cons_append, splitDots, if_neg hc, ← this]
  rw [this _ _ h1, this _ _ h2]

theorem validSubject_iff (s : Bytes) : validSubject (splitDots s) = true ↔ ValidSubject s := by
  have key : ∀ ts : List Bytes, ts ≠ [] → (validSubject ts = true ↔ (∀ t ∈ ts, t ≠ []) ∧ ∀ t ∈ ts.dropLast, t ≠ [62]) := by
    intro ts
    induction ts with
    | nil => intro h; exact absurd rfl h
    | cons t ts ih =>
      intro _
      match ts with
      | [] => simp [validSubject]
      | u :: us =>
        have e : (b! ">" : Bytes) = [62] := by decide
        rw [validSubject, Bool.and_eq_true, Bool.and_eq_true, ih (by simp), e]
        · simp only [decide_eq_true_eq, List.dropLast_cons_cons, List.mem_cons, forall_eq_or_imp]
          constructor
          · rintro ⟨⟨h1, h2⟩, h3, h4⟩; exact ⟨⟨h1, h3⟩, h2, h4⟩
          · rintro ⟨⟨h1, h3⟩, h2, h4⟩; exact ⟨⟨h1, h2⟩, h3, h4⟩
        · simp
  have ht := splitDots_tokens s
  have hne : splitDots s ≠ [] := by intro e; rw [e] at ht; cases ht
  rw [key _ hne]
  constructor
  · intro h; exact ⟨_, ht, h⟩
  · rintro ⟨ts, h1, h2⟩; rw [tokens_fun ht h1]; exact h2

theorem matchTokens_iff (ps : List Bytes) : ∀ ts, matchTokens ps ts = true ↔ TokensMatch ps ts := by
  have e1 : (b! ">" : Bytes) = [62] := by decide
  have e2 : (b! "*" : Bytes) = [42] := by decide
  have tl : ∀ (p : Bytes) (ps : List Bytes), ¬ (p = [62] ∧ ps = []) → (∀ ts, matchTokens ps ts = true ↔ TokensMatch ps ts) →
      ∀ t ts, ((p = [42] ∨ p = t) ∧ matchTokens ps ts = true) ↔ TokensMatch (p :: ps) (t :: ts) := by
    intro p ps hp ih t ts
    rw [ih]
    constructor
    · rintro ⟨rfl | rfl, h⟩
      · exact .any t h
      · exact .same p h
    · intro h
      cases h with
      | full => exact absurd ⟨rfl, rfl⟩ hp
      | any _ h => exact ⟨.inl rfl, h⟩
      | same _ h => exact ⟨.inr rfl, h⟩
  induction ps with
  | nil =>
    intro ts
    simp only [matchTokens, decide_eq_true_eq]
    constructor
    · rintro rfl; exact .done
    · intro h; cases h; rfl
  | cons p ps ih =>
    intro ts
    match ps with
    | [] =>
      by_cases hp : p = [62]
      · subst hp
        match ts with
        | [] => simp only [matchTokens, if_true, ne_eq, not_true, decide_false, Bool.false_eq_true, false_iff]; intro h; cases h
        | t :: ts =>
          simp only [matchTokens, if_true, ne_eq, reduceCtorEq, not_false_eq_true, decide_true, true_iff]; exact .full
      · match ts with
        | [] => simp only [matchTokens, hp, if_false, Bool.false_eq_true, false_iff]; intro h; cases h
        | [t] =>
          rw [← tl p [] (fun h => hp h.1) ih t []]
          simp [matchTokens, hp]
        | t :: u :: ts =>
          rw [← tl p [] (fun h => hp h.1) ih t (u :: ts)]
          simp [matchTokens, hp]
    | q :: ps =>
      match ts with
      | [] => simp only [matchTokens, Bool.false_eq_true, false_iff]; intro h; cases h
      | t :: ts =>
        rw [← tl p (q :: ps) (fun h => by cases h.2) ih t ts]
        simp [matchTokens]

theorem subjectMatches_iff (p s : Bytes) : subjectMatches p s = true ↔ SubjectMatch p s := by
  rw [subjectMatches, matchTokens_iff]
  constructor
  · intro h; exact ⟨_, _, splitDots_tokens p, splitDots_tokens s, h⟩
  · rintro ⟨ps, ts, h1, h2, h3⟩
    rw [tokens_fun (splitDots_tokens p) h1, tokens_fun (splitDots_tokens s) h2]; exact h3

/-! ## C91 -/

theorem map_of_form (pre : Bytes) (ps : List Bytes) (h : ∀ p ∈ ps, ∃ x, p = redisNs pre x) :
    ∃ l : List Bytes, ps = l.map (redisNs pre) := by
  induction ps with
  | nil => exact ⟨[], rfl⟩
  | cons p ps ih =>
    obtain ⟨x, rfl⟩ := h p (by simp)
    obtain ⟨l, rfl⟩ := ih (fun q hq => h q (by simp [hq]))
    exact ⟨x :: l, rfl⟩

theorem nodup_of_map {α β : Type} (f : α → β) : ∀ l : List α, (l.map f).Nodup → l.Nodup
  | [], _ => List.nodup_nil
  | x :: l, h => by
    rw [List.map_cons, List.nodup_cons] at h
    exact List.nodup_cons.mpr ⟨fun hx => h.1 (List.mem_map_of_mem hx), nodup_of_map f l h.2⟩

theorem map_nodup_of_inj {α β : Type} {f : α → β} (hf : ∀ x y, f x = f y → x = y) :
    ∀ l : List α, l.Nodup → (l.map f).Nodup
  | [], _ => List.nodup_nil
  | x :: l, h => by
    rw [List.nodup_cons] at h
    refine List.nodup_cons.mpr ⟨fun hx => ?_, map_nodup_of_inj hf l h.2⟩
    obtain ⟨y, hy, e⟩ := List.mem_map.mp hx
    exact h.1 (hf _ _ e ▸ hy)

/-- C91, redis: for every history, every prefix, and whatever the names are, a message published on a
channel is offered to a connection once for each name it is subscribed to, or was added under, whose
pattern matches the channel. -/
theorem c91_redis (pre : Bytes) (acts : List PsAct) (channel : Bytes) (c : Nat) :
    ∃ names : List Bytes, names.Nodup ∧
      (∀ x, x ∈ names ↔ (Subscribed acts c x ∨ OwnId acts c x) ∧ GlobMatch (pre ++ b! "." ++ x ++ b! ".") channel) ∧
      redisOffers (redisRun pre acts) channel c = names.length := by
  obtain ⟨hl, hf, hnd, hm⟩ := redis_inv pre acts c
  unfold redisOffers
  cases h : redisRun pre acts c with
  | none =>
    have hnl := hl.1 h
    refine ⟨[], List.nodup_nil, fun x => ⟨fun h => absurd h List.not_mem_nil, fun h => ?_⟩, rfl⟩
    rcases h.1 with h | h <;> exact absurd h.live hnl
  | some ps =>
    obtain ⟨l, rfl⟩ := map_of_form pre ps (hf ps h)
    have hl' := nodup_of_map _ _ (hnd _ h)
    refine ⟨l.filter (fun x => globMatches (redisNs pre x) channel), hl'.filter _, fun x => ?_, ?_⟩
    · rw [List.mem_filter, globMatches_iff, ← hm _ h x]
      refine and_congr ?_ Iff.rfl
      rw [List.mem_map]
      constructor
      · intro hx; exact ⟨x, hx, rfl⟩
      · rintro ⟨y, hy, e⟩; rw [← (redisNs_inj pre y x).mp e]; exact hy
    · show ((l.map (redisNs pre)).filter _).length = _
      rw [List.filter_map, List.length_map]; rfl

/-- spec: the next action of a history about this connection and this namespace -/
def nextAbout (c : Nat) (y : Bytes) (acts : List PsAct) : Option PsAct :=
  acts.find? (fun a => a = .subscribe c y ∨ a = .unsubscribe c y)

/-- spec: the namespaces of the calls of Subscribe for this connection, in order, that were not undone: only an
Unsubscribe that is the next action about the namespace undoes a Subscribe -/
def notUndone (c : Nat) : List PsAct → List Bytes
  | [] => []
  | .subscribe c' y :: acts =>
    if c' = c ∧ nextAbout c y acts ≠ some (.unsubscribe c y) then y :: notUndone c acts else notUndone c acts
  | _ :: acts => notUndone c acts

theorem nextAbout_skip {c : Nat} {y : Bytes} {a : PsAct} {q : List PsAct} (h1 : a ≠ .subscribe c y)
    (h2 : a ≠ .unsubscribe c y) : nextAbout c y (a :: q) = nextAbout c y q := by
  simp [nextAbout, h1, h2]

theorem nextAbout_sub (c : Nat) (y : Bytes) (q : List PsAct) :
    nextAbout c y (.subscribe c y :: q) = some (.subscribe c y) := by
  simp [nextAbout]

theorem nextAbout_unsub (c : Nat) (y : Bytes) (q : List PsAct) :
    nextAbout c y (.unsubscribe c y :: q) = some (.unsubscribe c y) := by
  simp [nextAbout]

theorem nats_other (pre : Bytes) (r : Nats) {c c' : Nat} (h : ¬ c = c') (y : Bytes) :
    natsStep pre r (.subscribe c' y) c = r c ∧ natsStep pre r (.unsubscribe c' y) c = r c := by
  constructor
  · cases hr : r c' with
    | none => simp [natsStep, hr]
    | some s => by_cases hv : validSubject (splitDots (natsNs pre y)) = true <;> simp [natsStep, hr, hv, Nats.set, h]
  · cases hr : r c' with
    | none => simp [natsStep, hr]
    | some s => cases hm : mapGet s.subscriptions (natsNs pre y) <;> simp [natsStep, hr, hm, Nats.set, h]

/-- what later actions do to the subscriptions of a connection -/
theorem nats_later (pre : Bytes) (c : Nat) : ∀ (q : List PsAct) (r : Nats) (s : NatsSub), r c = some s →
    (∀ a ∈ s.active, a.1 < s.next) →
    (∀ S i, mapGet s.subscriptions S = some i → i < s.next ∧ ValidSubject S) →
    (∀ a ∈ q, a ≠ .del c ∧ ∀ id, a = .add c id → ¬ ValidSubject (natsNs pre id)) →
    ∃ s' X, (q.foldl (natsStep pre) r) c = some s' ∧
      (open Classical in s'.active = s.active.filter (fun a => decide (¬ ∃ y, mapGet s.subscriptions (natsNs pre y) = some a.1 ∧
        nextAbout c y q = some (.unsubscribe c y))) ++ X) ∧
      X.map (·.2) = ((notUndone c q).filter (fun y => validSubject (splitDots (natsNs pre y)))).map (natsNs pre) := by
  classical
  intro q
  induction q with
  | nil =>
    intro r s hs h1 h2 hq
    refine ⟨s, [], hs, ?_, rfl⟩
    rw [List.append_nil, List.filter_eq_self.mpr]
    intro a ha
    simp [nextAbout]
  | cons a q ih =>
    intro r s hs h1 h2 hq
    have hq' : ∀ a ∈ q, a ≠ .del c ∧ ∀ id, a = .add c id → ¬ ValidSubject (natsNs pre id) := fun b hb => hq b (by simp [hb])
    rw [List.foldl_cons]
    have same : ∀ {r' : Nats}, r' c = some s → (∀ y, nextAbout c y (a :: q) = nextAbout c y q ∨
        ¬ ValidSubject (natsNs pre y)) →
        ((notUndone c (a :: q)).filter (fun y => validSubject (splitDots (natsNs pre y))) =
          (notUndone c q).filter (fun y => validSubject (splitDots (natsNs pre y)))) →
        ∃ s' X, (q.foldl (natsStep pre) r') c = some s' ∧
          s'.active = s.active.filter (fun b => decide (¬ ∃ y, mapGet s.subscriptions (natsNs pre y) = some b.1 ∧
            nextAbout c y (a :: q) = some (.unsubscribe c y))) ++ X ∧
          X.map (·.2) = ((notUndone c (a :: q)).filter (fun y => validSubject (splitDots (natsNs pre y)))).map (natsNs pre) := by
      intro r' hr' hn hk
      obtain ⟨s', X, e1, e2, e3⟩ := ih r' s hr' h1 h2 hq'
      refine ⟨s', X, e1, ?_, by rw [hk]; exact e3⟩
      rw [e2]
      congr 1
      apply List.filter_congr
      intro b hb
      rw [decide_eq_decide]; refine not_congr ?_
      constructor
      · rintro ⟨y, g1, g2⟩
        rcases hn y with h | h
        · exact ⟨y, g1, by rw [h]; exact g2⟩
        · exact absurd (h2 _ _ g1).2 h
      · rintro ⟨y, g1, g2⟩
        rcases hn y with h | h
        · exact ⟨y, g1, by rw [← h]; exact g2⟩
        · exact absurd (h2 _ _ g1).2 h
    cases a with
    | add c' id =>
      refine same ?_ (fun y => .inl (nextAbout_skip (by simp) (by simp))) rfl
      simp only [natsStep, natsSubject_self]
      by_cases hc : c' = c
      · subst hc
        have := (hq (.add c' id) (by simp)).2 id rfl
        rw [← validSubject_iff] at this
        rw [if_neg this]; exact hs
      · split
        · simp [Nats.set, show ¬ c = c' from fun e => hc e.symm, hs]
        · exact hs
    | del c' =>
      have hc : ¬ c = c' := fun e => (hq (.del c') (by simp)).1 (by rw [e])
      refine same ?_ (fun y => .inl (nextAbout_skip (by simp) (by simp))) rfl
      simp [natsStep, Nats.set, hc, hs]
    | subscribe c' y =>
      by_cases hc : c' = c
      · subst hc
        by_cases hv : validSubject (splitDots (natsNs pre y)) = true
        · have hstep : natsStep pre r (.subscribe c' y) c' =
              some ⟨s.active ++ [(s.next, natsNs pre y)], mapSet s.subscriptions (natsNs pre y) s.next, s.next + 1⟩ := by
            simp [natsStep, hs, hv, Nats.set]
          obtain ⟨s', X, e1, e2, e3⟩ := ih (natsStep pre r (.subscribe c' y)) _ hstep
            (by
              intro b hb
              rcases List.mem_append.mp hb with hb | hb
              · have := h1 b hb; show b.1 < s.next + 1; omega
              · rw [List.mem_singleton.mp hb]; show s.next < s.next + 1; omega)
            (by
              intro S i hi
              simp only [mapGet_mapSet] at hi
              split at hi
              · rename_i e; subst e; injection hi with hi; subst hi
                exact ⟨Nat.lt_succ_self _, (validSubject_iff _).mp hv⟩
              · have := h2 S i hi; exact ⟨Nat.lt_succ_of_lt this.1, this.2⟩)
            hq'
          rw [List.filter_append] at e2
          have hold : s.active.filter (fun a => decide (¬ ∃ z, mapGet (mapSet s.subscriptions (natsNs pre y) s.next) (natsNs pre z) = some a.1 ∧
              nextAbout c' z q = some (.unsubscribe c' z))) =
              s.active.filter (fun a => decide (¬ ∃ z, mapGet s.subscriptions (natsNs pre z) = some a.1 ∧
              nextAbout c' z (.subscribe c' y :: q) = some (.unsubscribe c' z))) := by
            apply List.filter_congr
            intro b hb
            have hlt := h1 b hb
            rw [decide_eq_decide]; refine not_congr ?_
            constructor
            · rintro ⟨z, g1, g2⟩
              rw [mapGet_mapSet] at g1
              split at g1
              · injection g1 with g1; omega
              · rename_i hz
                have hz' : ¬ y = z := fun e => hz (by rw [e])
                exact ⟨z, g1, by rw [nextAbout_skip (by simp [hz']) (by simp)]; exact g2⟩
            · rintro ⟨z, g1, g2⟩
              by_cases hz : y = z
              · subst hz; rw [nextAbout_sub] at g2; simp at g2
              · refine ⟨z, ?_, by rw [nextAbout_skip (by simp [hz]) (by simp)] at g2; exact g2⟩
                rw [mapGet_mapSet, if_neg]
                · exact g1
                · intro e; exact hz ((natsNs_inj pre z y).mp e).symm
          have hmine : (∃ z, mapGet (mapSet s.subscriptions (natsNs pre y) s.next) (natsNs pre z) = some s.next ∧
              nextAbout c' z q = some (.unsubscribe c' z)) ↔ nextAbout c' y q = some (.unsubscribe c' y) := by
            constructor
            · rintro ⟨z, g1, g2⟩
              rw [mapGet_mapSet] at g1
              split at g1
              · rename_i e; rw [← (natsNs_inj pre z y).mp e]; exact g2
              · have := (h2 _ _ g1).1; omega
            · intro g; exact ⟨y, by rw [mapGet_mapSet, if_pos rfl], g⟩
          refine ⟨s', (if nextAbout c' y q = some (.unsubscribe c' y) then [] else [(s.next, natsNs pre y)]) ++ X, e1, ?_, ?_⟩
          · rw [e2, hold, List.append_assoc]
            congr 2
            by_cases g : nextAbout c' y q = some (.unsubscribe c' y)
            · rw [if_pos g, List.filter_cons_of_neg]
              · rfl
              · rw [decide_eq_true_eq]; exact fun h => h (hmine.mpr g)
            · rw [if_neg g, List.filter_cons_of_pos]
              · rfl
              · rw [decide_eq_true_eq]; exact fun h => g (hmine.mp h)
          · by_cases g : nextAbout c' y q = some (.unsubscribe c' y)
            · simp [notUndone, g, e3]
            · simp [notUndone, g, e3, hv]
        · refine same ?_ (fun z => ?_) ?_
          · simp [natsStep, hs, hv]
          · by_cases hz : y = z
            · subst hz; right; rw [← validSubject_iff]; exact hv
            · left; exact nextAbout_skip (by simp [hz]) (by simp)
          · rw [notUndone]
            split
            · rw [List.filter_cons_of_neg (by exact hv)]
            · rfl
      · refine same ?_ (fun z => .inl (nextAbout_skip (by simp [hc]) (by simp))) (by simp [notUndone, hc])
        rw [(nats_other pre r (show ¬ c = c' from fun e => hc e.symm) y).1]; exact hs
    | unsubscribe c' y =>
      by_cases hc : c' = c
      · subst hc
        cases hg : mapGet s.subscriptions (natsNs pre y) with
        | none =>
          obtain ⟨s', X, e1, e2, e3⟩ := ih (natsStep pre r (.unsubscribe c' y)) s (by simp [natsStep, hs, hg]) h1 h2 hq'
          refine ⟨s', X, e1, ?_, e3⟩
          rw [e2]
          congr 1
          apply List.filter_congr
          intro b hb
          rw [decide_eq_decide]; refine not_congr ?_
          constructor
          · rintro ⟨z, g1, g2⟩
            have hz : ¬ y = z := fun e => by subst e; rw [hg] at g1; cases g1
            exact ⟨z, g1, by rw [nextAbout_skip (by simp) (by simp [hz])]; exact g2⟩
          · rintro ⟨z, g1, g2⟩
            have hz : ¬ y = z := fun e => by subst e; rw [hg] at g1; cases g1
            exact ⟨z, g1, by rw [nextAbout_skip (by simp) (by simp [hz])] at g2; exact g2⟩
        | some i =>
          obtain ⟨s', X, e1, e2, e3⟩ := ih (natsStep pre r (.unsubscribe c' y))
            { s with active := s.active.filter (fun a => a.1 ≠ i) } (by simp [natsStep, hs, hg, Nats.set])
            (fun b hb => h1 b (List.mem_filter.mp hb).1) h2 hq'
          refine ⟨s', X, e1, ?_, e3⟩
          rw [e2]
          congr 1
          rw [List.filter_filter]
          apply List.filter_congr
          intro b hb
          rw [← Bool.decide_and, decide_eq_decide]
          constructor
          · rintro ⟨g1, g2⟩ ⟨z, g3, g4⟩
            by_cases hz : y = z
            · subst hz; rw [hg] at g3; injection g3 with g3; exact g2 g3.symm
            · exact g1 ⟨z, g3, by rw [nextAbout_skip (by simp) (by simp [hz])] at g4; exact g4⟩
          · intro g
            have hne : ¬ b.1 = i := fun e => g ⟨y, by rw [hg, e], nextAbout_unsub c' y q⟩
            refine ⟨fun ⟨z, g3, g4⟩ => ?_, hne⟩
            by_cases hz : y = z
            · subst hz; rw [hg] at g3; injection g3 with g3; exact hne g3.symm
            · exact g ⟨z, g3, by rw [nextAbout_skip (by simp) (by simp [hz])]; exact g4⟩
      · refine same ?_ (fun z => .inl (nextAbout_skip (by simp) (by simp [hc]))) rfl
        rw [(nats_other pre r (show ¬ c = c' from fun e => hc e.symm) y).2]; exact hs

/-- spec: from here on the history neither removes the connection nor adds it again -/
def KeptAfter (pre : Bytes) (c : Nat) (later : List PsAct) : Prop :=
  ∀ a ∈ later, a ≠ .del c ∧ ∀ id, a = .add c id → ¬ ValidSubject (pre ++ b! "." ++ id)

open Classical in
/-- C91, nats: whatever the names are, a message published on a subject is offered to a connection once if the
subject of the ID it was added under matches, and once more for every Subscribe with a valid and matching
subject that was not undone. -/
theorem c91_nats (pre : Bytes) (before later : List PsAct) (c : Nat) (id subject : Bytes)
    (hv : ValidSubject (pre ++ b! "." ++ id)) (hk : KeptAfter pre c later) :
    natsOffers (natsRun pre (before ++ .add c id :: later)) subject c =
      (if SubjectMatch (pre ++ b! "." ++ id) subject then 1 else 0) +
      ((notUndone c later).filter (fun y => decide (ValidSubject (pre ++ b! "." ++ y) ∧
        SubjectMatch (pre ++ b! "." ++ y) subject))).length := by
  have hv' : validSubject (splitDots (natsNs pre id)) = true := (validSubject_iff _).mpr hv
  have h0 : natsStep pre (natsRun pre before) (.add c id) c = some ⟨[(0, natsNs pre id)], [], 1⟩ := by
    simp only [natsStep, natsSubject_self, hv', if_true, Nats.set]
  obtain ⟨s, X, h1, h2, h3⟩ := nats_later pre c later _ _ h0 (by simp) (by simp [mapGet]) hk
  have hrun : natsRun pre (before ++ .add c id :: later) c = some s := by
    rw [← h1]; simp [natsRun]
  have h2' : s.active = (0, natsNs pre id) :: X := by
    rw [h2, List.filter_eq_self.mpr]
    · rfl
    · intro a _; simp [mapGet]
  simp only [natsOffers, hrun, h2']
  have hX : (X.filter (fun a => subjectMatches a.2 subject)).length =
      ((X.map (·.2)).filter (fun p => subjectMatches p subject)).length := by
    rw [List.filter_map, List.length_map]; rfl
  have hY : (X.filter (fun a => subjectMatches a.2 subject)).length =
      ((notUndone c later).filter (fun y => decide (ValidSubject (pre ++ b! "." ++ y) ∧
        SubjectMatch (pre ++ b! "." ++ y) subject))).length := by
    rw [hX, h3, List.filter_map, List.length_map, List.filter_filter]
    congr 1
    apply List.filter_congr
    intro y _
    rw [Bool.eq_iff_iff]
    simp only [Function.comp, Bool.and_eq_true, decide_eq_true_eq, subjectMatches_iff, validSubject_iff]
    exact and_comm
  rw [List.filter_cons]
  by_cases hm : SubjectMatch (natsNs pre id) subject
  · have hm' := hm
    rw [← subjectMatches_iff] at hm'
    have e : SubjectMatch (pre ++ b! "." ++ id) subject := hm
    rw [if_pos hm', if_pos e, List.length_cons, hY, Nat.add_comm]
  · have hm' := hm
    rw [← subjectMatches_iff] at hm'
    have e : ¬ SubjectMatch (pre ++ b! "." ++ id) subject := hm
    rw [if_neg hm', if_neg e, hY, Nat.zero_add]

/-- C91, nats: a connection that was not added under a valid ID, or was removed since, is offered nothing. -/
theorem c91_nats_none (pre : Bytes) (acts : List PsAct) (c : Nat) (subject : Bytes)
    (h : ¬ ∃ before id later, acts = before ++ .add c id :: later ∧ ValidSubject (pre ++ b! "." ++ id) ∧
      KeptAfter pre c later) :
    natsOffers (natsRun pre acts) subject c = 0 := by
  have : natsRun pre acts c = none := by
    induction acts using snoc_ind with
    | nil => rfl
    | snoc acts a ih =>
      have hrun : natsRun pre (acts ++ [a]) = natsStep pre (natsRun pre acts) a := by simp [natsRun]
      rw [hrun]
      by_cases hd : a = .del c
      · subst hd; simp [natsStep, Nats.set]
      by_cases ha : ∃ id, a = .add c id ∧ ValidSubject (natsNs pre id)
      · obtain ⟨id, rfl, hv⟩ := ha
        exact absurd ⟨acts, id, [], rfl, hv, fun b hb => absurd hb List.not_mem_nil⟩ h
      have ih := ih (fun ⟨before, id, later, e, hv, hk⟩ => h ⟨before, id, later ++ [a], by rw [e]; simp, hv, fun b hb => by
        rcases List.mem_append.mp hb with hb | hb
        · exact hk b hb
        · rw [List.mem_singleton.mp hb]
          exact ⟨hd, fun id e hv => ha ⟨id, e, hv⟩⟩⟩)
      cases a with
      | add c' id =>
        simp only [natsStep, natsSubject_self]
        split
        · rename_i hv
          by_cases hc : c = c'
          · subst hc; exact absurd ⟨id, rfl, (validSubject_iff _).mp hv⟩ ha
          · simp [Nats.set, hc, ih]
        · exact ih
      | del c' =>
        have hc : ¬ c = c' := fun e => hd (by rw [e])
        simp [natsStep, Nats.set, hc, ih]
      | subscribe c' y =>
        by_cases hc : c = c'
        · subst hc; simp [natsStep, ih]
        · rw [(nats_other pre _ hc y).1]; exact ih
      | unsubscribe c' y =>
        by_cases hc : c = c'
        · subst hc; simp [natsStep, ih]
        · rw [(nats_other pre _ hc y).2]; exact ih
  simp [natsOffers, this]

/-- C91: which channel a message is published on. Only a message with a room, without a namespace and without a
receiver makes the exchange panic. -/
theorem c91_channel (pre ns room to : Bytes) :
    (redisChannel pre ns room to = none ↔ to = [] ∧ ns = [] ∧ room ≠ []) ∧
    (natsSubject pre ns room to = none ↔ to = [] ∧ ns = [] ∧ room ≠ []) ∧
    (∀ ch, redisChannel pre ns room to = some ch → ch = pre ++ b! "." ++ (if to = [] then ns else to) ++ b! ".") ∧
    ∀ s, natsSubject pre ns room to = some s → s = pre ++ b! "." ++ (if to = [] then ns else to) := by
  by_cases h1 : to = []
  · by_cases h2 : ns = [] ∧ room ≠ []
    · simp [redisChannel, natsSubject, h1, h2]
    · refine ⟨?_, ?_, ?_, ?_⟩
      · simp only [redisChannel, h1, ne_eq, not_true, if_false, if_neg h2, reduceCtorEq, true_and, false_iff]; exact h2
      · simp only [natsSubject, h1, ne_eq, not_true, if_false, if_neg h2, reduceCtorEq, true_and, false_iff]; exact h2
      · intro ch h; simp only [redisChannel, h1, ne_eq, not_true, if_false, if_neg h2, Option.some.injEq] at h
        simp [h1, ← h]
      · intro ch h; simp only [natsSubject, h1, ne_eq, not_true, if_false, if_neg h2, Option.some.injEq] at h
        simp [h1, ← h]
  · refine ⟨by simp [redisChannel, h1], by simp [natsSubject, h1], ?_, ?_⟩
    · intro ch h; simp only [redisChannel, ne_eq, h1, not_false_eq_true, if_true, Option.some.injEq] at h
      simp [h1, ← h]
    · intro ch h; simp only [natsSubject, ne_eq, h1, not_false_eq_true, if_true, Option.some.injEq] at h
      simp [h1, ← h]

/-- C91: who gets a direct message with redis: the connections subscribed to, or added under, some name whose
pattern matches the channel of the ID. -/
theorem c91_direct (pre : Bytes) (acts : List PsAct) (m : Message) (hto : m.to ≠ []) (c : Nat) :
    ∃ ch, redisChannel pre m.ns m.room m.to = some ch ∧
      (0 < redisOffers (redisRun pre acts) ch c ↔
        ∃ x, (Subscribed acts c x ∨ OwnId acts c x) ∧ GlobMatch (pre ++ b! "." ++ x ++ b! ".") (pre ++ b! "." ++ m.to ++ b! ".")) := by
  refine ⟨pre ++ b! "." ++ m.to ++ b! ".", by simp [redisChannel, hto], ?_⟩
  obtain ⟨l, _, h1, h2⟩ := c91_redis pre acts (pre ++ b! "." ++ m.to ++ b! ".") c
  rw [h2, List.length_pos_iff_exists_mem]
  exact exists_congr h1

/-- a namespace whose name is a pattern: the messages of the other one are offered twice -/
example : Subscribed [.add 1 (b! "u1"), .subscribe 1 (b! "a*"), .subscribe 1 (b! "ab")] 1 (b! "a*") ∧
    GlobMatch (b! "n" ++ b! "." ++ b! "a*" ++ b! ".") (b! "n.ab.") ∧
    redisOffers (redisRun (b! "n") [.add 1 (b! "u1"), .subscribe 1 (b! "a*"), .subscribe 1 (b! "ab")]) (b! "n.ab.") 1 = 2 := by
  refine ⟨⟨[.add 1 (b! "u1")], _, [.subscribe 1 (b! "ab")], rfl, ⟨rfl, [], _, [], rfl, ⟨_, rfl⟩, by simp⟩, by simp⟩,
    (globMatches_iff _ _).mp (by decide +kernel), by decide +kernel⟩

/-- two calls of Subscribe, one of Unsubscribe: one subscription stays and cannot be undone any more -/
example : ValidSubject (b! "n" ++ b! "." ++ b! "u1") ∧
    KeptAfter (b! "n") 1 [.subscribe 1 (b! "chat"), .subscribe 1 (b! "chat"), .unsubscribe 1 (b! "chat"), .unsubscribe 1 (b! "chat")] ∧
    notUndone 1 [.subscribe 1 (b! "chat"), .subscribe 1 (b! "chat"), .unsubscribe 1 (b! "chat"), .unsubscribe 1 (b! "chat")] =
      [b! "chat"] ∧
    SubjectMatch (b! "n" ++ b! "." ++ b! "chat") (b! "n.chat") ∧
    natsOffers (natsRun (b! "n") [.add 1 (b! "u1"), .subscribe 1 (b! "chat"), .subscribe 1 (b! "chat"),
      .unsubscribe 1 (b! "chat"), .unsubscribe 1 (b! "chat")]) (b! "n.chat") 1 = 1 := by
  refine ⟨(validSubject_iff _).mp (by decide +kernel), ?_, by decide +kernel, (subjectMatches_iff _ _).mp (by decide +kernel),
    by decide +kernel⟩
  intro a ha
  simp only [List.mem_cons, List.not_mem_nil, or_false] at ha
  rcases ha with rfl | rfl | rfl | rfl <;> simp

/-- a class, an escape and a range in one pattern -/
example : GlobMatch (b! "x[^ab-d\\]]?\\*") (b! "xe9*") ∧ ¬ GlobMatch (b! "x[^ab-d\\]]?\\*") (b! "xc9*") := by
  rw [← globMatches_iff, ← globMatches_iff]
  decide +kernel

end Neffos
