import Verif.Model.Reconnect
import Verif.Spec.Reconnect
import Verif.Props.Upgrade
set_option autoImplicit false
/-!
# C118: ReconnectTries of a connection
-/
namespace Neffos
open Spec

namespace Recon

theorem digit {c : UInt8} (h : isDigitByte c = true) : c = UInt8.ofNat (48 + (c.toNat - 48)) ∧ c.toNat - 48 < 10 := by
  simp only [isDigitByte, Bool.and_eq_true, decide_eq_true_eq] at h
  have h1 : 48 ≤ c.toNat := h.1
  have h2 : c.toNat ≤ 57 := h.2
  refine ⟨?_, by omega⟩
  rw [show 48 + (c.toNat - 48) = c.toNat by omega, UInt8.ofNat_toNat]

theorem ofNat_digit {d : Nat} (h : d < 10) : (UInt8.ofNat (48 + d)).toNat = 48 + d := by
  rw [UInt8.toNat_ofNat']
  omega

theorem isDigit_ofNat {d : Nat} (h : d < 10) : isDigitByte (UInt8.ofNat (48 + d)) = true := by
  have e := ofNat_digit h
  simp only [isDigitByte, Bool.and_eq_true, decide_eq_true_eq]
  constructor
  · show 48 ≤ (UInt8.ofNat (48 + d)).toNat; omega
  · show (UInt8.ofNat (48 + d)).toNat ≤ 57; omega

/-- the value of the digits `s` read after `n` -/
def val (n : Nat) (s : Bytes) : Nat := s.foldl (fun n c => n * 10 + (c.toNat - 48)) n

theorem val_nil (n : Nat) : val n [] = n := rfl
theorem val_cons (n : Nat) (c : UInt8) (t : Bytes) : val n (c :: t) = val (n * 10 + (c.toNat - 48)) t := by
  unfold val; rw [List.foldl_cons]

theorem val_append (n : Nat) (s t : Bytes) : val n (s ++ t) = val (val n s) t := by
  induction s generalizing n with
  | nil => rfl
  | cons c s ih => rw [List.cons_append, val_cons, val_cons]; exact ih _

theorem val_mono (s : Bytes) {n m : Nat} (h : n ≤ m) : val n s ≤ val m s := by
  induction s generalizing n m with
  | nil => exact h
  | cons c s ih => rw [val_cons, val_cons]; exact ih (by omega)

theorem val_ge (s : Bytes) (n : Nat) : n ≤ val n s := by
  induction s generalizing n with
  | nil => exact Nat.le_refl _
  | cons c s ih => rw [val_cons]; exact Nat.le_trans (by omega) (ih _)

theorem snoc_induction {P : Bytes → Prop} (nil : P []) (snoc : ∀ s c, P s → P (s ++ [c])) (s : Bytes) : P s := by
  have : ∀ n, ∀ s : Bytes, s.length = n → P s := by
    intro n
    induction n with
    | zero => intro s h; rw [List.eq_nil_of_length_eq_zero h]; exact nil
    | succ n ih =>
      intro s h
      rcases List.eq_nil_or_concat s with rfl | ⟨t, c, rfl⟩
      · simp at h
      · rw [List.concat_eq_append]
        exact snoc t c (ih t (by simpa using h))
  exact this _ s rfl

theorem reads_iff (s : Bytes) (n : Nat) : Reads s n ↔ (∀ c ∈ s, isDigitByte c = true) ∧ n = val 0 s := by
  constructor
  · intro h
    induction h with
    | nil => simp [val_nil, val_cons]
    | snoc d hd _ ih =>
      refine ⟨fun c hc => ?_, ?_⟩
      · rcases List.mem_append.mp hc with hc | hc
        · exact ih.1 c hc
        · rw [List.mem_singleton.mp hc]; exact isDigit_ofNat hd
      · rw [val_append, ← ih.2]
        simp only [val_nil, val_cons, ofNat_digit hd]
        omega
  · rintro ⟨h, rfl⟩
    induction s using snoc_induction with
    | nil => exact .nil
    | snoc s c ih =>
      obtain ⟨e, hd⟩ := digit (h c (by simp))
      have := Reads.snoc (c.toNat - 48) hd (ih (fun c hc => h c (by simp [hc])))
      rw [← e] at this
      rw [val_append]
      simp only [val_nil, val_cons]
      rw [show val 0 s * 10 + (c.toNat - 48) = 10 * val 0 s + (c.toNat - 48) by omega]
      exact this

/-- what the loop of ParseUint returns -/
theorem loop (s : Bytes) : ∀ n, n < 2 ^ 64 →
    ((∃ p q, s = p ++ q ∧ (∀ c ∈ p, isDigitByte c = true) ∧ 2 ^ 64 ≤ val n p) →
      parseUintGo n s = (2 ^ 64 - 1, some .range)) ∧
    (¬ (∃ p q, s = p ++ q ∧ (∀ c ∈ p, isDigitByte c = true) ∧ 2 ^ 64 ≤ val n p) →
      ((∀ c ∈ s, isDigitByte c = true) → parseUintGo n s = (val n s, none)) ∧
      (¬ (∀ c ∈ s, isDigitByte c = true) → parseUintGo n s = (0, some .syntax))) := by
  induction s with
  | nil =>
    intro n hn
    refine ⟨?_, fun _ => ⟨fun _ => rfl, fun h => absurd (by simp) h⟩⟩
    rintro ⟨p, q, h1, h2, h3⟩
    have : p = [] := by
      cases p with
      | nil => rfl
      | cons a b => simp at h1
    subst this
    simp only [val_nil, val_cons] at h3
    omega
  | cons c s ih =>
    intro n hn
    unfold parseUintGo
    cases hd : isDigitByte c with
    | false =>
      simp only [Bool.not_false, if_true]
      refine ⟨?_, fun _ => ⟨fun h => ?_, fun _ => by simp⟩⟩
      · rintro ⟨p, q, h1, h2, h3⟩
        cases p with
        | nil => simp only [val_nil, val_cons] at h3; omega
        | cons a p =>
          simp only [List.cons_append, List.cons.injEq] at h1
          have := h2 a (by simp)
          rw [← h1.1, hd] at this; simp at this
      · have := h c (by simp); rw [hd] at this; simp at this
    | true =>
      simp only [Bool.not_true, Bool.false_eq_true, if_false]
      have hdig := (digit hd).2
      by_cases hov : 2 ^ 64 ≤ n * 10 + (c.toNat - 48)
      · have he : (if n ≥ (2 ^ 64 - 1) / 10 + 1 then (2 ^ 64 - 1, some NumErr.range)
            else if n * 10 + (c.toNat - 48) > 2 ^ 64 - 1 then (2 ^ 64 - 1, some NumErr.range)
            else parseUintGo (n * 10 + (c.toNat - 48)) s) = (2 ^ 64 - 1, some NumErr.range) := by
          split
          · rfl
          · rw [if_pos (by omega)]
        rw [he]
        refine ⟨fun _ => rfl, fun h => ?_⟩
        exact absurd ⟨[c], s, rfl, by simp [hd], by simpa [val_nil, val_cons] using hov⟩ h
      · rw [if_neg (by omega), if_neg (by omega)]
        obtain ⟨i1, i2⟩ := ih (n * 10 + (c.toNat - 48)) (by omega)
        have hiff : (∃ p q, c :: s = p ++ q ∧ (∀ c ∈ p, isDigitByte c = true) ∧ 2 ^ 64 ≤ val n p) ↔
            ∃ p q, s = p ++ q ∧ (∀ c ∈ p, isDigitByte c = true) ∧ 2 ^ 64 ≤ val (n * 10 + (c.toNat - 48)) p := by
          constructor
          · rintro ⟨p, q, h1, h2, h3⟩
            cases p with
            | nil => simp only [val_nil, val_cons] at h3; omega
            | cons a p =>
              simp only [List.cons_append, List.cons.injEq] at h1
              obtain ⟨rfl, h1⟩ := h1
              exact ⟨p, q, h1, fun x hx => h2 x (by simp [hx]), h3⟩
          · rintro ⟨p, q, h1, h2, h3⟩
            refine ⟨c :: p, q, by rw [h1]; rfl, ?_, h3⟩
            intro x hx
            rcases List.mem_cons.mp hx with rfl | hx
            · exact hd
            · exact h2 x hx
        rw [hiff]
        refine ⟨i1, fun h => ?_⟩
        obtain ⟨j1, j2⟩ := i2 h
        simp only [List.forall_mem_cons, hd, true_and]
        exact ⟨j1, j2⟩

/-- the value of the text after the sign -/
theorem abs (neg : Bool) (s : Bytes) :
    ((∃ n, ((s ≠ [] ∧ Reads s n) ∨ ∃ p q, s = p ++ q ∧ Reads p n ∧ 2 ^ 64 ≤ n) ∧ (parseIntAbs neg s).1 = nearest neg n)) ∨
    ((¬ ∃ n, ((s ≠ [] ∧ Reads s n) ∨ ∃ p q, s = p ++ q ∧ Reads p n ∧ 2 ^ 64 ≤ n)) ∧ (parseIntAbs neg s).1 = 0) := by
  unfold parseIntAbs parseUint
  by_cases hs : s = []
  · right
    subst hs
    refine ⟨?_, by simp⟩
    rintro ⟨n, h | ⟨p, q, h1, h2, h3⟩⟩
    · exact h.1 rfl
    · have : p = [] := by
        cases p with
        | nil => rfl
        | cons a b => simp at h1
      subst this
      rw [((reads_iff _ _).mp h2).2] at h3
      simp [val_nil, val_cons] at h3
  · rw [if_neg hs]
    obtain ⟨l1, l2⟩ := loop s 0 (by omega)
    by_cases hov : ∃ p q, s = p ++ q ∧ (∀ c ∈ p, isDigitByte c = true) ∧ 2 ^ 64 ≤ val 0 p
    · left
      obtain ⟨p, q, h1, h2, h3⟩ := hov
      refine ⟨val 0 p, .inr ⟨p, q, h1, (reads_iff _ _).mpr ⟨h2, rfl⟩, h3⟩, ?_⟩
      rw [l1 ⟨p, q, h1, h2, h3⟩]
      cases neg with
      | false =>
        simp only [nearest, Bool.false_eq_true, if_false]
        rw [if_neg (show ¬ val 0 p < 2 ^ 63 by omega)]
        decide
      | true =>
        simp only [nearest, if_true]
        rw [if_neg (show ¬ val 0 p ≤ 2 ^ 63 by omega)]
        decide
    · obtain ⟨j1, j2⟩ := l2 hov
      by_cases hd : ∀ c ∈ s, isDigitByte c = true
      · left
        refine ⟨val 0 s, .inl ⟨hs, (reads_iff _ _).mpr ⟨hd, rfl⟩⟩, ?_⟩
        rw [j1 hd]
        cases neg with
        | false =>
          simp only [nearest, Bool.false_eq_true, if_false, reduceCtorEq, Bool.not_false, Bool.true_and,
            Bool.false_and, decide_eq_true_eq]
          by_cases h : val 0 s < 2 ^ 63
          · rw [if_neg (by omega), if_pos h]
          · rw [if_pos (by omega), if_neg h]
        | true =>
          simp only [nearest, Bool.false_eq_true, if_false, reduceCtorEq, Bool.not_true, Bool.true_and,
            Bool.false_and, decide_eq_true_eq, if_true]
          by_cases h : val 0 s ≤ 2 ^ 63
          · rw [if_neg (by omega), if_pos h]
          · rw [if_pos (by omega), if_neg h]
      · right
        refine ⟨?_, by rw [j2 hd]; simp⟩
        rintro ⟨n, h | ⟨p, q, h1, h2, h3⟩⟩
        · exact hd ((reads_iff _ _).mp h.2).1
        · obtain ⟨k1, k2⟩ := (reads_iff _ _).mp h2
          exact hov ⟨p, q, h1, k1, by omega⟩

theorem notDigitSign {c : UInt8} (h : c = 43 ∨ c = 45) : isDigitByte c = false := by
  rcases h with rfl | rfl <;> rfl

/-- a text that begins with a sign is not digits -/
theorem sign_reads {c : UInt8} (h : c = 43 ∨ c = 45) (t : Bytes) (n : Nat)
    (hr : ((c :: t ≠ []) ∧ Reads (c :: t) n) ∨ ∃ p q, c :: t = p ++ q ∧ Reads p n ∧ 2 ^ 64 ≤ n) : False := by
  rcases hr with ⟨_, hr⟩ | ⟨p, q, h1, h2, h3⟩
  · have := ((reads_iff _ _).mp hr).1 c (by simp)
    rw [notDigitSign h] at this; simp at this
  · cases p with
    | nil =>
      rw [((reads_iff _ _).mp h2).2] at h3
      simp [val_nil, val_cons] at h3
    | cons a p =>
      simp only [List.cons_append, List.cons.injEq] at h1
      have := ((reads_iff _ _).mp h2).1 a (by simp)
      rw [← h1.1, notDigitSign h] at this; simp at this

theorem parseInt_spec (s : Bytes) :
    (∃ i, Number s i ∧ (parseInt s).1 = i) ∨ ((¬ ∃ i, Number s i) ∧ (parseInt s).1 = 0) := by
  have lift : ∀ (body : Bytes) (neg : Bool), Signed s body neg → (parseInt s).1 = (parseIntAbs neg body).1 →
      (∀ b' n' n, Signed s b' n' → ((b' ≠ [] ∧ Reads b' n) ∨ ∃ p q, b' = p ++ q ∧ Reads p n ∧ 2 ^ 64 ≤ n) →
        b' = body) →
      (∃ i, Number s i ∧ (parseInt s).1 = i) ∨ ((¬ ∃ i, Number s i) ∧ (parseInt s).1 = 0) := by
    intro body neg hs he huniq
    rcases abs neg body with ⟨n, h1, h2⟩ | ⟨h1, h2⟩
    · exact .inl ⟨_, ⟨body, neg, n, hs, rfl, h1⟩, he.trans h2⟩
    · refine .inr ⟨?_, he.trans h2⟩
      rintro ⟨i, b', n', n, k1, _, k3⟩
      have := huniq b' n' n k1 k3
      subst this
      exact h1 ⟨n, k3⟩
  cases s with
  | nil =>
    right
    refine ⟨?_, rfl⟩
    rintro ⟨i, b, neg, n, h1, _, h3⟩
    cases h1
    rcases h3 with h3 | ⟨p, q, k1, k2, k3⟩
    · exact h3.1 rfl
    · have : p = [] := by
        cases p with
        | nil => rfl
        | cons a b => simp at k1
      subst this
      rw [((reads_iff _ _).mp k2).2] at k3
      simp [val_nil, val_cons] at k3
  | cons c t =>
    by_cases h1 : c = 43
    · subst h1
      refine lift t false (.plus t) (by simp [parseInt]) ?_
      intro b' n' n hs hr
      cases hs with
      | none => exact (sign_reads (.inl rfl) _ _ hr).elim
      | plus => rfl
    · by_cases h2 : c = 45
      · subst h2
        refine lift t true (.minus t) (by simp [parseInt]) ?_
        intro b' n' n hs hr
        cases hs with
        | none => exact (sign_reads (.inr rfl) _ _ hr).elim
        | minus => rfl
      · refine lift (c :: t) false (.none _) (by simp [parseInt, h1, h2]) ?_
        intro b' n' n hs hr
        cases hs with
        | none => rfl
        | plus => exact absurd rfl h1
        | minus => exact absurd rfl h2

/-- the loop of the fast path -/
theorem fast_loop (s : Bytes) : ∀ n : Nat,
    atoiGo n s = if ∀ c ∈ s, isDigitByte c = true then some ((val n s : Nat) : Int) else none := by
  induction s with
  | nil => intro n; simp [atoiGo, val_nil]
  | cons c s ih =>
    intro n
    unfold atoiGo
    have hc : c - 48 > 9 ↔ isDigitByte c = false := by
      have e : (c - 48).toNat = (256 - 48 + c.toNat) % 256 := by rw [UInt8.toNat_sub]; rfl
      have hb : c.toNat < 256 := c.toNat_lt
      rw [← Bool.not_eq_true]
      simp only [isDigitByte, Bool.and_eq_true, decide_eq_true_eq]
      have g : (c - 48 > 9) ↔ 9 < (c - 48).toNat := Iff.rfl
      have g1 : (48 ≤ c) ↔ 48 ≤ c.toNat := Iff.rfl
      have g2 : (c ≤ 57) ↔ c.toNat ≤ 57 := Iff.rfl
      rw [g, g1, g2, e]
      omega
    cases hd : isDigitByte c with
    | false =>
      rw [if_pos (hc.mpr hd), if_neg]
      intro h
      have := h c (by simp)
      rw [hd] at this; simp at this
    | true =>
      have hx : ¬ (c - 48 > 9) := fun h => by rw [hc.mp h] at hd; simp at hd
      rw [if_neg hx]
      have e : (c - 48).toNat = c.toNat - 48 := by
        have h1 : 48 ≤ c.toNat := by
          simp only [isDigitByte, Bool.and_eq_true, decide_eq_true_eq] at hd
          exact hd.1
        have hb : c.toNat < 256 := c.toNat_lt
        have e : (c - 48).toNat = (256 - 48 + c.toNat) % 256 := by rw [UInt8.toNat_sub]; rfl
        rw [e]; omega
      have := ih (n * 10 + (c.toNat - 48))
      rw [e]
      rw [show ((n : Int) * 10 + ((c.toNat - 48 : Nat) : Int)) = ((n * 10 + (c.toNat - 48) : Nat) : Int) by simp]
      rw [this]
      simp only [List.forall_mem_cons, hd, true_and, val_cons]

theorem val_lt (s : Bytes) (h : ∀ c ∈ s, isDigitByte c = true) : ∀ n, val n s < (n + 1) * 10 ^ s.length := by
  induction s with
  | nil => intro n; simp [val_nil, val_cons]
  | cons c s ih =>
    intro n
    have hd := (digit (h c (by simp))).2
    have := ih (fun c hc => h c (by simp [hc])) (n * 10 + (c.toNat - 48))
    simp only [val_nil, val_cons, List.length_cons, Nat.pow_succ]
    refine Nat.lt_of_lt_of_le this ?_
    have : n * 10 + (c.toNat - 48) + 1 ≤ (n + 1) * 10 := by omega
    calc (n * 10 + (c.toNat - 48) + 1) * 10 ^ s.length ≤ ((n + 1) * 10) * 10 ^ s.length := Nat.mul_le_mul_right _ this
      _ = (n + 1) * (10 ^ s.length * 10) := by rw [Nat.mul_assoc, Nat.mul_comm 10]

/-- the fast path gives what ParseInt gives -/
theorem fast_abs (neg : Bool) (t : Bytes) (hl : t.length < 19) :
    (parseIntAbs neg t).1 = if t = [] then 0 else
      if ∀ c ∈ t, isDigitByte c = true then (if neg then -((val 0 t : Nat) : Int) else (val 0 t : Nat)) else 0 := by
  by_cases ht : t = []
  · subst ht; rfl
  · rw [if_neg ht]
    unfold parseIntAbs parseUint
    rw [if_neg ht]
    have hpow : ∀ p : Bytes, p.length < 19 → (∀ c ∈ p, isDigitByte c = true) → val 0 p < 10 ^ 18 := by
      intro p hp hd
      have h1 := val_lt p hd 0
      have h2 : 10 ^ p.length ≤ 10 ^ 18 := Nat.pow_le_pow_right (by omega) (by omega)
      omega
    have hno : ¬ ∃ p q, t = p ++ q ∧ (∀ c ∈ p, isDigitByte c = true) ∧ 2 ^ 64 ≤ val 0 p := by
      rintro ⟨p, q, h1, h2, h3⟩
      have : p.length < 19 := by rw [h1, List.length_append] at hl; omega
      have := hpow p this h2
      omega
    obtain ⟨j1, j2⟩ := (loop t 0 (by omega)).2 hno
    by_cases hd : ∀ c ∈ t, isDigitByte c = true
    · rw [if_pos hd, j1 hd]
      have := hpow t hl hd
      cases neg with
      | false =>
        simp only [Bool.false_eq_true, if_false, reduceCtorEq, Bool.not_false, Bool.true_and,
          Bool.false_and, decide_eq_true_eq]
        rw [if_neg (by omega)]
      | true =>
        simp only [Bool.false_eq_true, if_false, reduceCtorEq, Bool.not_true, Bool.true_and,
          Bool.false_and, decide_eq_true_eq, if_true]
        rw [if_neg (by omega)]
    · rw [if_neg hd, j2 hd]; simp

theorem fast (s : Bytes) (hl : s.length < 19) : (atoiFast s).1 = (parseInt s).1 := by
  cases s with
  | nil => rfl
  | cons c t =>
    have hl' : t.length < 19 := by simp at hl; omega
    have go : ∀ (u : Bytes), (match atoiGo 0 u with
        | none => ((0 : Int), some NumErr.syntax)
        | some n => (if c = 45 then -n else n, none)).1 =
        if ∀ c ∈ u, isDigitByte c = true then (if c = 45 then -((val 0 u : Nat) : Int) else (val 0 u : Nat)) else 0 := by
      intro u
      have := fast_loop u 0
      rw [show ((0 : Nat) : Int) = 0 from rfl] at this
      rw [this]
      by_cases h : ∀ c ∈ u, isDigitByte c = true
      · rw [if_pos h, if_pos h]
      · rw [if_neg h, if_neg h]
    unfold atoiFast parseInt
    dsimp only
    by_cases h1 : c = 43
    · subst h1
      rw [if_pos (Or.inr rfl), if_pos rfl, fast_abs false t hl']
      by_cases ht : t = []
      · rw [if_pos ht, if_pos ht]
      · rw [if_neg ht, if_neg ht]
        exact (go t).trans (by simp)
    · by_cases h2 : c = 45
      · subst h2
        rw [if_pos (Or.inl rfl), if_neg h1, if_pos rfl, fast_abs true t hl']
        by_cases ht : t = []
        · rw [if_pos ht, if_pos ht]
        · rw [if_neg ht, if_neg ht]
          exact (go t).trans (by simp)
      · have h3 : ¬ (c = 45 ∨ c = 43) := fun h => h.elim h2 h1
        rw [if_neg h3, if_neg h1, if_neg h2, fast_abs false (c :: t) hl]
        rw [if_neg (by simp), if_neg (by simp)]
        exact (go (c :: t)).trans (by rw [if_neg h2]; simp)

theorem atoi_eq (s : Bytes) : (atoi s).1 = (parseInt s).1 := by
  unfold atoi
  split
  · rename_i h; exact fast s h.2
  · rfl

/-- a text is one number at most -/
theorem unique {s : Bytes} {i j : Int} (hi : Number s i) (hj : Number s j) : i = j := by
  obtain ⟨b, neg, n, h1, rfl, h3⟩ := hi
  obtain ⟨b', neg', n', k1, rfl, k3⟩ := hj
  have hb : b = b' ∧ neg = neg' := by
    cases h1 with
    | none =>
      cases k1 with
      | none => exact ⟨rfl, rfl⟩
      | plus => exact (sign_reads (.inl rfl) _ _ h3).elim
      | minus => exact (sign_reads (.inr rfl) _ _ h3).elim
    | plus =>
      cases k1 with
      | none => exact (sign_reads (.inl rfl) _ _ k3).elim
      | plus => exact ⟨rfl, rfl⟩
    | minus =>
      cases k1 with
      | none => exact (sign_reads (.inr rfl) _ _ k3).elim
      | minus => exact ⟨rfl, rfl⟩
  obtain ⟨rfl, rfl⟩ := hb
  have far : ∀ n n', 2 ^ 64 ≤ n → 2 ^ 64 ≤ n' → nearest neg n = nearest neg n' := by
    intro n n' hn hn'
    unfold nearest
    rw [if_neg (show ¬ n ≤ 2 ^ 63 by omega), if_neg (show ¬ n' ≤ 2 ^ 63 by omega),
      if_neg (show ¬ n < 2 ^ 63 by omega), if_neg (show ¬ n' < 2 ^ 63 by omega)]
  have whole : ∀ n n', Reads b n → (∃ p q, b = p ++ q ∧ Reads p n' ∧ 2 ^ 64 ≤ n') → 2 ^ 64 ≤ n := by
    rintro n n' h ⟨p, q, rfl, k2, k3⟩
    have e1 := ((reads_iff _ _).mp h).2
    have e2 := ((reads_iff _ _).mp k2).2
    rw [val_append, ← e2] at e1
    have := val_ge q n'
    omega
  rcases h3 with ⟨_, h3⟩ | h3 <;> rcases k3 with ⟨_, k3⟩ | k3
  · rw [((reads_iff _ _).mp h3).2, ((reads_iff _ _).mp k3).2]
  · exact far _ _ (whole _ _ h3 k3) (by obtain ⟨_, _, _, _, k⟩ := k3; exact k)
  · exact far _ _ (by obtain ⟨_, _, _, _, k⟩ := h3; exact k) (whole _ _ k3 h3)
  · exact far _ _ (by obtain ⟨_, _, _, _, k⟩ := h3; exact k) (by obtain ⟨_, _, _, _, k⟩ := k3; exact k)

end Recon

/-- spec: the text that counts: the first value of the request's header, or, without one, the first
value of the URL parameters with the name `X-Websocket-Header-X-Websocket-Reconnect` in any letter case -/
def reconnectText (h : Header) (q : List (Bytes × List Bytes)) : Bytes :=
  match h (b! "X-Websocket-Reconnect") with
  | v :: _ => v
  | [] =>
    match (q.filter (fun p => canonicalKey p.1 = b! "X-Websocket-Header-X-Websocket-Reconnect")).flatMap (·.2) with
    | v :: _ => v
    | [] => []

/-- C118: ReconnectTries is the number of the text that counts, or 0 if it is none. -/
theorem c118_tries (h : Header) (q : List (Bytes × List Bytes)) :
    (∀ i, Number (reconnectText h q) i → reconnectTries h q = i) ∧
    ((∀ i, ¬ Number (reconnectText h q) i) → reconnectTries h q = 0) := by
  have ht : (parseParams h q).get reconnectKey = reconnectText h q := by
    unfold Header.get
    rw [show canonicalKey reconnectKey = reconnectKey by decide +kernel,
      c47_values h q reconnectKey (by decide +kernel)]
    unfold reconnectText paramValues
    show ((h reconnectKey ++ _).head?).getD [] = match h reconnectKey with | v :: _ => v | [] => _
    rw [show urlPrefix ++ reconnectKey = b! "X-Websocket-Header-X-Websocket-Reconnect" by decide +kernel]
    cases h reconnectKey with
    | cons v t => rfl
    | nil =>
      rw [List.nil_append]
      cases (q.filter (fun p => canonicalKey p.1 = b! "X-Websocket-Header-X-Websocket-Reconnect")).flatMap (·.2) <;> rfl
  have hv : reconnectTries h q = (parseInt (reconnectText h q)).1 := by
    unfold reconnectTries
    simp only [ht]
    split
    · exact Recon.atoi_eq _
    · rename_i hn
      simp only [ne_eq, Decidable.not_not] at hn
      rw [hn]; rfl
  rw [hv]
  rcases Recon.parseInt_spec (reconnectText h q) with ⟨i, h1, h2⟩ | ⟨h1, h2⟩
  · exact ⟨fun j hj => by rw [h2]; exact Recon.unique h1 hj, fun hno => absurd h1 (hno i)⟩
  · exact ⟨fun i hi => absurd ⟨i, hi⟩ h1, fun _ => h2⟩

/-- C118: WasReconnected, exactly: the text is a number greater than zero. -/
theorem c118_was (h : Header) (q : List (Bytes × List Bytes)) :
    wasReconnected (reconnectTries h q) = true ↔ ∃ i, Number (reconnectText h q) i ∧ 0 < i := by
  obtain ⟨h1, h2⟩ := c118_tries h q
  simp only [wasReconnected, gt_iff_lt, decide_eq_true_eq]
  constructor
  · intro hp
    refine Classical.byContradiction fun hn => ?_
    by_cases hx : ∃ i, Number (reconnectText h q) i
    · obtain ⟨i, hi⟩ := hx
      exact hn ⟨i, hi, by rw [← h1 i hi]; exact hp⟩
    · rw [h2 (fun i hi => hx ⟨i, hi⟩)] at hp
      omega
  · rintro ⟨i, hi, hp⟩
    rw [h1 i hi]; exact hp

/-- C118: the number always fits. -/
theorem c118_range (h : Header) (q : List (Bytes × List Bytes)) :
    -2 ^ 63 ≤ reconnectTries h q ∧ reconnectTries h q < 2 ^ 63 := by
  obtain ⟨h1, h2⟩ := c118_tries h q
  by_cases hx : ∃ i, Number (reconnectText h q) i
  · obtain ⟨i, hi⟩ := hx
    rw [h1 i hi]
    obtain ⟨_, neg, n, _, rfl, _⟩ := hi
    unfold nearest
    split <;> split <;> constructor <;> omega
  · rw [h2 (fun i hi => hx ⟨i, hi⟩)]
    constructor <;> omega

/-- the header wins over the parameter; the parameter in another letter case; texts that are no numbers; a
number that is too large, also when other text follows -/
example : let h : Header := fun k => if k = b! "X-Websocket-Reconnect" then [b! "3", b! "4"] else []
    let none : Header := fun _ => []
    let q := [(b! "x-websocket-header-x-websocket-reconnect", [b! "7"])]
    let one := fun v : Bytes => ([(b! "X-Websocket-Header-X-Websocket-Reconnect", [v])] : List (Bytes × List Bytes))
    reconnectText h q = b! "3" ∧ reconnectTries h q = 3 ∧ reconnectTries none q = 7 ∧
    reconnectTries none (one (b! "-5")) = -5 ∧ reconnectTries none (one (b! "+007")) = 7 ∧
    reconnectTries none (one (b! "5x")) = 0 ∧ reconnectTries none (one (b! " 5")) = 0 ∧ reconnectTries none [] = 0 ∧
    reconnectTries none (one (b! "9999999999999999999")) = 2 ^ 63 - 1 ∧
    reconnectTries none (one (b! "99999999999999999999x")) = 2 ^ 63 - 1 ∧
    reconnectTries none (one (b! "9999999999999999999x")) = 0 := by
  decide +kernel

example : Number (b! "-42") (-42) ∧ ∀ i, ¬ Number (b! "4 2") i := by
  refine ⟨⟨b! "42", true, 42, .minus _, by decide, .inl ⟨by decide, ?_⟩⟩, ?_⟩
  · exact (Recon.reads_iff _ _).mpr ⟨by decide +kernel, by decide +kernel⟩
  · rcases Recon.parseInt_spec (b! "4 2") with ⟨i, h1, h2⟩ | ⟨h1, _⟩
    · exfalso
      obtain ⟨b, neg, n, k1, k2, k3⟩ := h1
      cases k1
      rcases k3 with ⟨_, k3⟩ | ⟨p, q, e, k3, k4⟩
      · exact absurd (((Recon.reads_iff _ _).mp k3).1 32 (by decide)) (by decide)
      · have hl : p.length ≤ 3 := by
          have := congrArg List.length e
          simp at this; omega
        obtain ⟨d, e2⟩ := (Recon.reads_iff _ _).mp k3
        have := Recon.val_lt p d 0
        have h3 : 10 ^ p.length ≤ 10 ^ 3 := Nat.pow_le_pow_right (by omega) hl
        omega
    · exact fun i hi => h1 ⟨i, hi⟩

end Neffos
