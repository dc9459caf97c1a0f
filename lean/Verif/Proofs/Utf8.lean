import Verif.Spec.Socket
/-!
# `validUTF8` accepts exactly the UTF-8 texts
-/
set_option autoImplicit false
namespace Neffos
open Neffos.Spec

theorem byte_of {a : UInt8} {n : Nat} (h : a.toNat = n) : a = .ofNat n := by rw [← h]; simp

theorem isCont_iff {x : UInt8} : isCont x = true ↔ 128 ≤ x.toNat ∧ x.toNat ≤ 191 := by
  simp [isCont, UInt8.le_iff_toNat_le]

/-- what the first byte demands -/
theorem valid_cons {a : UInt8} {t : Bytes} : validUTF8 (a :: t) = true ↔
    (a.toNat < 128 ∧ validUTF8 t = true) ∨
    (194 ≤ a.toNat ∧ a.toNat ≤ 223 ∧ ∃ b t', t = b :: t' ∧ isCont b = true ∧ validUTF8 t' = true) ∨
    (224 ≤ a.toNat ∧ a.toNat ≤ 239 ∧ ∃ b c t', t = b :: c :: t' ∧ isCont b = true ∧ isCont c = true ∧
      (a.toNat = 224 → 160 ≤ b.toNat) ∧ (a.toNat = 237 → b.toNat ≤ 159) ∧ validUTF8 t' = true) ∨
    (240 ≤ a.toNat ∧ a.toNat ≤ 244 ∧ ∃ b c d t', t = b :: c :: d :: t' ∧ isCont b = true ∧ isCont c = true ∧
      isCont d = true ∧ (a.toNat = 240 → 144 ≤ b.toNat) ∧ (a.toNat = 244 → b.toNat ≤ 143) ∧ validUTF8 t' = true) := by
  rw [validUTF8.eq_def]
  by_cases h1 : a < 0x80
  · have h1' := UInt8.lt_iff_toNat_lt.mp h1
    simp at h1'
    simp only [h1, if_true]
    constructor
    · exact fun h => .inl ⟨h1', h⟩
    · rintro (h | h | h | h)
      · exact h.2
      all_goals omega
  · have h1' : 128 ≤ a.toNat := by
      have := mt UInt8.lt_iff_toNat_lt.mpr h1
      simp at this; exact this
    simp only [h1, if_false]
    cases t with
    | nil => simp; omega
    | cons b t =>
      by_cases h2 : (0xC2 ≤ a && a ≤ 0xDF) = true
      · have h2' : 194 ≤ a.toNat ∧ a.toNat ≤ 223 := by simpa [UInt8.le_iff_toNat_le] using h2
        simp only [h2, if_true, Bool.and_eq_true]
        constructor
        · exact fun h => .inr (.inl ⟨h2'.1, h2'.2, b, t, rfl, h.1, h.2⟩)
        · rintro (h | ⟨_, _, _, _, e, h⟩ | h | h)
          · omega
          · cases e; exact h
          all_goals omega
      · have h2' : ¬ (194 ≤ a.toNat ∧ a.toNat ≤ 223) := by
          simpa [UInt8.le_iff_toNat_le] using h2
        simp only [h2]
        rw [if_neg (by simp)]
        cases t with
        | nil => simp; omega
        | cons c t =>
          by_cases h3 : (0xE0 ≤ a && a ≤ 0xEF) = true
          · have h3' : 224 ≤ a.toNat ∧ a.toNat ≤ 239 := by simpa [UInt8.le_iff_toNat_le] using h3
            simp only [h3, if_true]
            simp only [Bool.and_eq_true, Bool.or_eq_true, bne_iff_ne, ne_eq, ← UInt8.toNat_inj,
              decide_eq_true_eq, UInt8.le_iff_toNat_le]
            constructor
            · rintro ⟨⟨⟨⟨k1, k2⟩, k3⟩, k4⟩, k5⟩
              exact .inr (.inr (.inl ⟨h3'.1, h3'.2, b, c, t, rfl, k1, k2, fun e => k3.resolve_left (fun n => n e),
                fun e => k4.resolve_left (fun n => n e), k5⟩))
            · rintro (h | h | ⟨_, _, _, _, _, e, k1, k2, k3, k4, k5⟩ | h)
              · omega
              · omega
              · cases e
                refine ⟨⟨⟨⟨k1, k2⟩, ?_⟩, ?_⟩, k5⟩
                · exact (Classical.em _).symm.imp id k3
                · exact (Classical.em _).symm.imp id k4
              · omega
          · have h3' : ¬ (224 ≤ a.toNat ∧ a.toNat ≤ 239) := by simpa [UInt8.le_iff_toNat_le] using h3
            simp only [h3]
            rw [if_neg (by simp)]
            cases t with
            | nil => simp; omega
            | cons d t =>
              simp only [Bool.and_eq_true, Bool.or_eq_true, bne_iff_ne, ne_eq, ← UInt8.toNat_inj,
                decide_eq_true_eq, UInt8.le_iff_toNat_le]
              constructor
              · rintro ⟨⟨⟨⟨⟨⟨⟨k0, k0'⟩, k1⟩, k2⟩, k2'⟩, k3⟩, k4⟩, k5⟩
                exact .inr (.inr (.inr ⟨k0, k0', b, c, d, t, rfl, k1, k2, k2', fun e => k3.resolve_left (fun n => n e),
                  fun e => k4.resolve_left (fun n => n e), k5⟩))
              · rintro (h | h | h | ⟨k0, k0', _, _, _, _, e, k1, k2, k2', k3, k4, k5⟩)
                · omega
                · omega
                · omega
                · cases e
                  refine ⟨⟨⟨⟨⟨⟨⟨k0, k0'⟩, k1⟩, k2⟩, k2'⟩, ?_⟩, ?_⟩, k5⟩
                  · exact (Classical.em _).symm.imp id k3
                  · exact (Classical.em _).symm.imp id k4

theorem toNat_byte {n : Nat} (h : n < 256) : (UInt8.ofNat n).toNat = n := by simp; omega

theorem valid_char {c : Nat} (hc : Scalar c) {t : Bytes} (ht : validUTF8 t = true) : validUTF8 (utf8 c ++ t) = true := by
  unfold Scalar at hc
  unfold utf8
  split
  · refine valid_cons.mpr (.inl ⟨?_, ht⟩)
    rw [toNat_byte] <;> omega
  · split
    · refine valid_cons.mpr (.inr (.inl ⟨?_, ?_, _, _, rfl, isCont_iff.mpr ?_, ht⟩)) <;>
        repeat rw [toNat_byte (by omega)]
      all_goals omega
    · split
      · refine valid_cons.mpr (.inr (.inr (.inl ⟨?_, ?_, _, _, _, rfl, isCont_iff.mpr ?_, isCont_iff.mpr ?_, ?_, ?_, ht⟩))) <;>
          repeat rw [toNat_byte (by omega)]
        all_goals omega
      · refine valid_cons.mpr (.inr (.inr (.inr ⟨?_, ?_, _, _, _, _, rfl, isCont_iff.mpr ?_, isCont_iff.mpr ?_,
          isCont_iff.mpr ?_, ?_, ?_, ht⟩))) <;>
          repeat rw [toNat_byte (by omega)]
        all_goals omega

theorem valid_first {a : UInt8} {t : Bytes} (h : validUTF8 (a :: t) = true) :
    ∃ c t', Scalar c ∧ a :: t = utf8 c ++ t' ∧ validUTF8 t' = true := by
  unfold Scalar
  rcases valid_cons.mp h with ⟨h1, h2⟩ | ⟨h1, h2, b, t, rfl, hb, ht⟩ | ⟨h1, h2, b, c, t, rfl, hb, hc, h3, h4, ht⟩ |
    ⟨h1, h2, b, c, d, t, rfl, hb, hc, hd, h3, h4, ht⟩
  · refine ⟨a.toNat, t, by omega, ?_, h2⟩
    unfold utf8
    rw [if_pos h1, ← byte_of rfl]
    rfl
  · rw [isCont_iff] at hb
    refine ⟨(a.toNat - 192) * 64 + (b.toNat - 128), t, by omega, ?_, ht⟩
    unfold utf8
    rw [if_neg (by omega), if_pos (by omega), ← byte_of (a := a) (by omega), ← byte_of (a := b) (by omega)]
    rfl
  · rw [isCont_iff] at hb hc
    refine ⟨(a.toNat - 224) * 4096 + (b.toNat - 128) * 64 + (c.toNat - 128), t, by omega, ?_, ht⟩
    unfold utf8
    rw [if_neg (by omega), if_neg (by omega), if_pos (by omega), ← byte_of (a := a) (by omega),
      ← byte_of (a := b) (by omega), ← byte_of (a := c) (by omega)]
    rfl
  · rw [isCont_iff] at hb hc hd
    refine ⟨(a.toNat - 240) * 262144 + (b.toNat - 128) * 4096 + (c.toNat - 128) * 64 + (d.toNat - 128), t, by omega, ?_, ht⟩
    unfold utf8
    rw [if_neg (by omega), if_neg (by omega), if_neg (by omega), ← byte_of (a := a) (by omega),
      ← byte_of (a := b) (by omega), ← byte_of (a := c) (by omega), ← byte_of (a := d) (by omega)]
    rfl

theorem validUTF8_iff {b : Bytes} : validUTF8 b = true ↔ Utf8 b := by
  constructor
  · induction hn : b.length using Nat.strongRecOn generalizing b with
    | ind n ih =>
      intro h
      cases b with
      | nil => exact ⟨[], by simp, rfl⟩
      | cons a t =>
        obtain ⟨c, t', h1, h2, h3⟩ := valid_first h
        have hl : t'.length < n := by
          rw [← hn, h2]
          have : 0 < (utf8 c).length := by unfold utf8; split <;> (try split) <;> (try split) <;> simp
          simp; omega
        obtain ⟨cs, k1, k2⟩ := ih _ hl rfl h3
        exact ⟨c :: cs, fun x hx => (List.mem_cons.mp hx).elim (fun e => e ▸ h1) (k1 x), by rw [h2, k2]; rfl⟩
  · rintro ⟨cs, h1, rfl⟩
    induction cs with
    | nil => rfl
    | cons c cs ih =>
      rw [List.flatMap_cons]
      exact valid_char (h1 c List.mem_cons_self) (ih fun x hx => h1 x (List.mem_cons_of_mem _ hx))

end Neffos
