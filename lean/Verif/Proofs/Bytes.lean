import Verif.Model.Message
import Verif.Spec.Wire
/-! Helper lemmas about byte strings, escaping and splitting. -/
namespace Neffos

/-- To check a statement for all bytes it is enough to check the 256 of them. -/
theorem forall_byte {P : UInt8 → Prop} (h : ∀ n : Fin 256, P (UInt8.ofNat n.val)) (c : UInt8) :
    P c := by
  have := h ⟨c.toNat, c.toNat_lt⟩
  simpa using this

theorem cut_of_not_mem {sep : UInt8} {f : Bytes} (h : sep ∉ f) : cut sep f = (f, none) := by
  induction f with
  | nil => rfl
  | cons c t ih =>
    simp only [List.mem_cons, not_or] at h
    simp [cut, ih h.2, Ne.symm h.1]

theorem cut_append {sep : UInt8} {f : Bytes} (h : sep ∉ f) (r : Bytes) :
    cut sep (f ++ sep :: r) = (f, some r) := by
  induction f with
  | nil => simp [cut]
  | cons c t ih =>
    simp only [List.mem_cons, not_or] at h
    simp [cut, ih h.2, Ne.symm h.1]

theorem cut_spec (sep : UInt8) (b : Bytes) :
    (∃ f, cut sep b = (f, none) ∧ b = f ∧ sep ∉ f) ∨
    (∃ f r, cut sep b = (f, some r) ∧ b = f ++ sep :: r ∧ sep ∉ f) := by
  by_cases h : sep ∈ b
  · have key : ∀ s t : Bytes, ∃ f r, s ++ sep :: t = f ++ sep :: r ∧ sep ∉ f := by
      intro s t
      induction s with
      | nil => exact ⟨[], t, rfl, by simp⟩
      | cons c s ih =>
        by_cases hc : c = sep
        · subst hc; exact ⟨[], s ++ c :: t, rfl, by simp⟩
        · obtain ⟨f, r, e, hf⟩ := ih
          exact ⟨c :: f, r, by simp [e], by simp [hf, Ne.symm hc]⟩
    obtain ⟨s, t, e⟩ := List.append_of_mem h
    obtain ⟨f, r, e', hf⟩ := key s t
    rw [e, e']
    exact Or.inr ⟨f, r, cut_append hf r, rfl, hf⟩
  · exact Or.inl ⟨b, cut_of_not_mem h, rfl, h⟩

/-- `SplitN` recovers joined fields when all but the last are free of the separator. -/
theorem splitN_join (sep : UInt8) (fs : List Bytes) (last : Bytes)
    (h : ∀ f ∈ fs, sep ∉ f) :
    splitN sep (fs.length + 1) (joinBytes sep (fs ++ [last])) = fs ++ [last] := by
  induction fs with
  | nil => simp [splitN, joinBytes]
  | cons f fs ih =>
    have hf : sep ∉ f := h f (by simp)
    have ih := ih (fun g hg => h g (by simp [hg]))
    cases fs with
    | nil => simp [splitN, joinBytes, cut_append hf]
    | cons g gs =>
      simp only [List.cons_append, joinBytes, List.length_cons] at ih ⊢
      rw [splitN, cut_append hf]
      simp [ih]

theorem joinBytes_singleton (sep : UInt8) (f : Bytes) : joinBytes sep [f] = f := rfl

/-- A payload with fewer separators than needed is split into fewer fields. -/
theorem splitN_few (sep : UInt8) (n : Nat) (b : Bytes) (h : b.count sep < n) :
    (splitN sep (n + 1) b).length = b.count sep + 1 := by
  induction n generalizing b with
  | zero => omega
  | succ n ih =>
    rcases cut_spec sep b with ⟨f, e, hb, hf⟩ | ⟨f, r, e, hb, hf⟩
    · subst hb; simp [splitN, e, List.count_eq_zero.mpr hf]
    · have hc : b.count sep = r.count sep + 1 := by
        simp [hb, List.count_append, List.count_eq_zero.mpr hf]
      rw [splitN, e]
      simp only [List.length_cons]
      rw [ih r (by omega)]; omega

/-- A payload with enough separators is split into exactly `n + 1` fields, all but the
last free of separators, that join back to the payload. -/
theorem splitN_many (sep : UInt8) (n : Nat) (b : Bytes) (h : n ≤ b.count sep) :
    ∃ fs last, splitN sep (n + 1) b = fs ++ [last] ∧ fs.length = n ∧
      (∀ f ∈ fs, sep ∉ f) ∧ b = joinBytes sep (fs ++ [last]) := by
  induction n generalizing b with
  | zero => exact ⟨[], b, by simp [splitN], rfl, by simp, by simp [joinBytes]⟩
  | succ n ih =>
    rcases cut_spec sep b with ⟨f, e, hb, hf⟩ | ⟨f, r, e, hb, hf⟩
    · rw [hb, List.count_eq_zero.mpr hf] at h; omega
    · have hc : b.count sep = r.count sep + 1 := by
        simp [hb, List.count_append, List.count_eq_zero.mpr hf]
      obtain ⟨fs, last, h1, h2, h3, h4⟩ := ih r (by omega)
      refine ⟨f :: fs, last, ?_, by simp [h2], ?_, ?_⟩
      · rw [splitN, e]; simp [h1]
      · intro g hg
        rcases List.mem_cons.mp hg with rfl | hg
        · exact hf
        · exact h3 g hg
      · rw [hb, h4]
        cases fs with
        | nil => simp [joinBytes]
        | cons g gs => simp [joinBytes]

theorem joinBytes_count (sep : UInt8) (fs : List Bytes) (last : Bytes)
    (h : ∀ f ∈ fs, sep ∉ f) :
    (joinBytes sep (fs ++ [last])).count sep = fs.length + last.count sep := by
  induction fs with
  | nil => simp [joinBytes]
  | cons f fs ih =>
    have hf := List.count_eq_zero.mpr (h f (by simp))
    have ih := ih (fun g hg => h g (by simp [hg]))
    cases fs with
    | nil => simp [joinBytes, hf]; omega
    | cons g gs =>
      simp only [List.cons_append, joinBytes, List.length_cons] at ih ⊢
      simp [List.count_append, hf, ih]; omega

/-! ### Escaping -/

theorem escape_nil : escape [] = [] := rfl
theorem unescape_nil : unescape [] = [] := rfl

theorem escape_eq (s : Bytes) : escape s = replaceGo [sepByte] sepReplacement 0 s := by
  cases s <;> simp [escape, replaceAll, replaceGo]

theorem unescape_eq (s : Bytes) : unescape s = replaceGo sepReplacement [sepByte] 0 s := by
  cases s <;> simp [unescape, replaceAll, replaceGo]

theorem escape_cons (c : UInt8) (t : Bytes) :
    escape (c :: t) = (if c = sepByte then sepReplacement else [c]) ++ escape t := by
  rw [escape_eq, escape_eq]
  by_cases h : c = sepByte
  · simp [replaceGo, h, List.isPrefixOf]
  · have : (sepByte == c) = false := by simp [Ne.symm h]
    simp [replaceGo, h, List.isPrefixOf, this]

theorem sep_not_mem_escape (s : Bytes) : sepByte ∉ escape s := by
  induction s with
  | nil => simp [escape_nil]
  | cons c t ih =>
    rw [escape_cons]
    by_cases h : c = sepByte
    · rw [if_pos h]
      simp only [List.mem_append, not_or]
      exact ⟨by decide, ih⟩
    · simp [h, ih, Ne.symm h]

theorem replaceGo_skip (old new p r : Bytes) : replaceGo old new p.length (p ++ r) = replaceGo old new 0 r := by
  induction p with
  | nil => rfl
  | cons c p ih => simpa [replaceGo] using ih

theorem unescape_match (r : Bytes) : unescape (sepReplacement ++ r) = sepByte :: unescape r := by
  rw [unescape_eq, unescape_eq]
  have hp : sepReplacement.isPrefixOf (sepReplacement ++ r) = true := by
    simp [List.isPrefixOf_iff_prefix]
  show replaceGo sepReplacement [sepByte] 0 (64 :: ((b! "%!semicolon@%!") ++ r)) = _
  rw [replaceGo, if_pos (show List.isPrefixOf sepReplacement (64 :: ((b! "%!semicolon@%!") ++ r)) = true from hp)]
  have := replaceGo_skip sepReplacement [sepByte] (b! "%!semicolon@%!") r
  simp only [List.singleton_append, List.cons.injEq, true_and]
  exact this

theorem unescape_nomatch (c : UInt8) (t : Bytes) (h : ¬ sepReplacement <+: (c :: t)) :
    unescape (c :: t) = c :: unescape t := by
  rw [unescape_eq, unescape_eq, replaceGo, if_neg]
  simpa [List.isPrefixOf_iff_prefix] using h

/-- the text `@%!semicolon` -/
def halfReplacement : Bytes := b! "@%!semicolon"

/-- If the escaped text begins with the bytes `p`, free of separators and of `@`
beyond the first, then so does the text, unless a separator is hit. -/
theorem escape_prefix_step (p : Bytes) (s : Bytes) (hsep : sepByte ∉ p)
    (hat : (64 : UInt8) ∉ p) (r : Bytes) (h : (p ++ r) <+: escape s) :
    ∃ s', s = p ++ s' ∧ r <+: escape s' := by
  induction p generalizing s with
  | nil => exact ⟨s, rfl, by simpa using h⟩
  | cons c p ih =>
    simp only [List.mem_cons, not_or] at hsep hat
    cases s with
    | nil => simp [escape_nil] at h
    | cons d s =>
      rw [escape_cons] at h
      by_cases hd : d = sepByte
      · rw [if_pos hd] at h
        exfalso
        have : c = 64 := by
          rw [List.cons_append] at h
          exact (List.cons_prefix_cons.mp h).1
        exact hat.1 this.symm
      · rw [if_neg hd] at h
        simp only [List.cons_append, List.cons_prefix_cons, List.nil_append] at h
        obtain ⟨s', e, h'⟩ := ih s hsep.2 hat.2 h.2
        exact ⟨s', by simp [h.1, e], h'⟩

/-- When the escaped text starts with the replacement although the text does not start
with a separator, the text starts with one of the two bad patterns. -/
theorem escape_bad_head (c : UInt8) (t : Bytes) (hc : c ≠ sepByte)
    (h : sepReplacement <+: escape (c :: t)) :
    sepReplacement <+: (c :: t) ∨ (b! "@%!semicolon;") <+: (c :: t) := by
  rw [escape_cons, if_neg hc] at h
  have h1 : c = 64 ∧ ((b! "%!semicolon") ++ (b! "@%!")) <+: escape t := by
    have := List.cons_prefix_cons.mp h
    exact ⟨this.1.symm, this.2⟩
  obtain ⟨t', e, h2⟩ := escape_prefix_step (b! "%!semicolon") t (by decide) (by decide) _ h1.2
  cases t' with
  | nil => simp [escape_nil] at h2
  | cons d t' =>
    rw [escape_cons] at h2
    by_cases hd : d = sepByte
    · right
      rw [h1.1, e, hd]
      exact ⟨t', rfl⟩
    · left
      rw [if_neg hd] at h2
      have h3 : d = 64 ∧ ((b! "%!") ++ []) <+: escape t' := by
        have := List.cons_prefix_cons.mp h2
        exact ⟨this.1.symm, this.2⟩
      obtain ⟨t'', e', _⟩ := escape_prefix_step (b! "%!") t' (by decide) (by decide) _ h3.2
      rw [h1.1, e, h3.1, e']
      exact ⟨t'', rfl⟩

theorem escape_append (s t : Bytes) : escape (s ++ t) = escape s ++ escape t := by
  induction s with
  | nil => simp [escape_nil]
  | cons c s ih => rw [List.cons_append, escape_cons, escape_cons, ih, List.append_assoc]

theorem escape_of_not_mem {s : Bytes} (h : sepByte ∉ s) : escape s = s := by
  induction s with
  | nil => rfl
  | cons c t ih =>
    simp only [List.mem_cons, not_or] at h
    rw [escape_cons, if_neg (Ne.symm h.1), ih h.2]; rfl

/-- A text that starts with a bad pattern does not survive. -/
theorem bad_head_not_survive (c : UInt8) (t : Bytes)
    (h : sepReplacement <+: (c :: t) ∨ (b! "@%!semicolon;") <+: (c :: t)) :
    unescape (escape (c :: t)) ≠ c :: t := by
  have key : ∃ r, escape (c :: t) = sepReplacement ++ r := by
    rcases h with ⟨r, e⟩ | ⟨r, e⟩
    · rw [← e, escape_append, escape_of_not_mem (by decide)]; exact ⟨_, rfl⟩
    · rw [← e]
      have : escape (b! "@%!semicolon;" ++ r) = sepReplacement ++ ((b! "semicolon@%!") ++ escape r) := by
        rw [escape_append]; rfl
      exact ⟨_, this⟩
  have hc : c = 64 := by
    rcases h with h | h <;> exact (List.cons_prefix_cons.mp h).1.symm
  obtain ⟨r, e⟩ := key
  rw [e, unescape_match, hc]
  intro h
  have := (List.cons.inj h).1
  revert this; decide

open Spec in
theorem occurs_cons (p : Bytes) (c : UInt8) (t : Bytes) :
    Occurs p (c :: t) ↔ p <+: (c :: t) ∨ Occurs p t := by
  constructor
  · rintro ⟨u, v, e⟩
    cases u with
    | nil => left; exact ⟨v, by simpa using e.symm⟩
    | cons d u =>
      simp only [List.cons_append, List.cons.injEq] at e
      right; exact ⟨u, v, e.2⟩
  · rintro (⟨v, e⟩ | ⟨u, v, e⟩)
    · exact ⟨[], v, by simpa using e.symm⟩
    · exact ⟨c :: u, v, by simp [e]⟩

open Spec in
theorem not_occurs_nil (p : Bytes) (hp : p ≠ []) : ¬ Occurs p [] := by
  rintro ⟨u, v, e⟩
  have := congrArg List.length e
  simp only [List.length_nil, List.length_append] at this
  exact hp (List.length_eq_zero_iff.mp (by omega))

open Spec in
theorem unescape_escape_iff (s : Bytes) : unescape (escape s) = s ↔ SafeName s := by
  induction s with
  | nil =>
    simp [escape_nil, unescape_nil, SafeName, not_occurs_nil]
  | cons c t ih =>
    have hR := occurs_cons (b! "@%!semicolon@%!") c t
    have hH := occurs_cons (b! "@%!semicolon;") c t
    by_cases hc : c = sepByte
    · have h1 : unescape (escape (c :: t)) = c :: unescape (escape t) := by
        rw [escape_cons, if_pos hc, unescape_match, hc]
      have n1 : ¬ (b! "@%!semicolon@%!") <+: (c :: t) := by
        rw [hc]; intro h; exact absurd (List.cons_prefix_cons.mp h).1 (by decide)
      have n2 : ¬ (b! "@%!semicolon;") <+: (c :: t) := by
        rw [hc]; intro h; exact absurd (List.cons_prefix_cons.mp h).1 (by decide)
      rw [h1]
      simp only [List.cons.injEq, true_and, ih, SafeName, hR, hH, n1, n2, false_or]
    · by_cases hb : sepReplacement <+: (c :: t) ∨ (b! "@%!semicolon;") <+: (c :: t)
      · have := bad_head_not_survive c t hb
        constructor
        · intro h; exact absurd h this
        · rintro ⟨h1, h2⟩
          rcases hb with hb | hb
          · exact absurd (hR.mpr (Or.inl hb)) h1
          · exact absurd (hH.mpr (Or.inl hb)) h2
      · have hnp : ¬ sepReplacement <+: escape (c :: t) := fun h => hb (escape_bad_head c t hc h)
        have h1 : unescape (escape (c :: t)) = c :: unescape (escape t) := by
          rw [escape_cons, if_neg hc] at hnp ⊢
          exact unescape_nomatch c _ hnp
        have n1 : ¬ (b! "@%!semicolon@%!") <+: (c :: t) := fun h => hb (Or.inl h)
        have n2 : ¬ (b! "@%!semicolon;") <+: (c :: t) := fun h => hb (Or.inr h)
        rw [h1]
        simp only [List.cons.injEq, true_and, ih, SafeName, hR, hH, n1, n2, false_or]

open Spec in
theorem replaced_escape (s : Bytes) : Replaced (b! ";") (b! "@%!semicolon@%!") s (escape s) := by
  induction s with
  | nil => exact .nil
  | cons c t ih =>
    rw [escape_cons]
    by_cases h : c = sepByte
    · rw [if_pos h, h]; exact Replaced.hit t _ ih
    · rw [if_neg h]
      refine Replaced.keep c t _ ?_ ih
      intro hp
      exact h (List.cons_prefix_cons.mp hp).1.symm

open Spec in
theorem replaced_unescape (s : Bytes) : Replaced (b! "@%!semicolon@%!") (b! ";") s (unescape s) := by
  induction hn : s.length using Nat.strongRecOn generalizing s with
  | _ n ih =>
    cases s with
    | nil => exact .nil
    | cons c t =>
      by_cases h : sepReplacement <+: (c :: t)
      · obtain ⟨r, e⟩ := h
        rw [← e, unescape_match]
        refine Replaced.hit r _ (ih r.length ?_ r rfl)
        have := congrArg List.length e
        simp [sepReplacement] at this hn
        omega
      · rw [unescape_nomatch c t h]
        exact Replaced.keep c t _ h (ih t.length (by simp at hn; omega) t rfl)

open Spec in
theorem replaced_fun {old new s o₁ o₂ : Bytes} (hne : old ≠ [])
    (h₁ : Replaced old new s o₁) (h₂ : Replaced old new s o₂) : o₁ = o₂ := by
  induction h₁ generalizing o₂ with
  | nil =>
    generalize hs : ([] : Bytes) = s at h₂
    cases h₂ with
    | nil => rfl
    | hit r o h => simp at hs; exact absurd hs.1 hne
    | keep => simp at hs
  | hit r o _ ih =>
    generalize hs : old ++ r = s at h₂
    cases h₂ with
    | nil => simp at hs; exact absurd hs.1 hne
    | hit r' o' h =>
      have := List.append_cancel_left hs
      subst this
      rw [ih h]
    | keep c t o' hn h => exact absurd ⟨r, hs⟩ hn
  | keep c t o hn _ ih =>
    generalize hs : c :: t = s at h₂
    cases h₂ with
    | nil => simp at hs
    | hit r' o' h => exact absurd ⟨r', hs.symm⟩ hn
    | keep c' t' o' hn' h =>
      simp only [List.cons.injEq] at hs
      obtain ⟨rfl, rfl⟩ := hs
      rw [ih h]

/-- A prefix without a separator of an unescaped text is a prefix of the text, and what
follows is the unescaped rest, as long as the text does not start with a replacement
within that prefix. -/
theorem unescape_prefix_clean (p : Bytes) (hsep : sepByte ∉ p) (t r : Bytes)
    (h : p ++ r = unescape t) : ∃ t', t = p ++ t' ∧ r = unescape t' := by
  induction p generalizing t with
  | nil => exact ⟨t, rfl, by simpa using h⟩
  | cons c p ih =>
    simp only [List.mem_cons, not_or] at hsep
    cases t with
    | nil => simp [unescape_nil] at h
    | cons d t =>
      by_cases hr : sepReplacement <+: (d :: t)
      · obtain ⟨q, e⟩ := hr
        rw [← e, unescape_match] at h
        simp only [List.cons_append, List.cons.injEq] at h
        exact absurd h.1.symm hsep.1
      · rw [unescape_nomatch d t hr] at h
        simp only [List.cons_append, List.cons.injEq] at h
        obtain ⟨t', e, h'⟩ := ih hsep.2 t h.2
        exact ⟨t', by simp [h.1, e], h'⟩

open Spec in
/-- Whatever was received survives being sent back. -/
theorem safe_unescape (t : Bytes) (ht : sepByte ∉ t) : SafeName (unescape t) := by
  have head : ∀ s : Bytes, sepByte ∉ s →
      ¬ (b! "@%!semicolon@%!") <+: unescape s ∧ ¬ (b! "@%!semicolon;") <+: unescape s := by
    intro s hs
    constructor
    · rintro ⟨r, e⟩
      obtain ⟨t', e1, -⟩ := unescape_prefix_clean (b! "@%!semicolon@%!") (by decide) s r e
      have : unescape s = sepByte :: unescape t' := by rw [e1]; exact unescape_match t'
      rw [this] at e
      exact absurd (List.cons.inj e).1 (by decide)
    · rintro ⟨r, e⟩
      obtain ⟨t', e1, h1⟩ := unescape_prefix_clean (b! "@%!semicolon") (by decide) s (59 :: r)
        (by simpa using e)
      have hs' : sepByte ∉ t' := by
        intro hm; exact hs (by rw [e1]; exact List.mem_append_right _ hm)
      cases t' with
      | nil => simp [unescape_nil] at h1
      | cons d t' =>
        by_cases hr : sepReplacement <+: (d :: t')
        · obtain ⟨q, e2⟩ := hr
          have : s = sepReplacement ++ ((b! "semicolon@%!") ++ q) := by
            rw [e1, ← e2]; rfl
          rw [this, unescape_match] at e
          exact absurd (List.cons.inj e).1 (by decide)
        · rw [unescape_nomatch d t' hr] at h1
          have := (List.cons.inj h1).1
          subst this
          exact absurd (by simp [sepByte]) hs'
  have cons_case : ∀ (c : UInt8) (s s' : Bytes), unescape s = c :: s' → sepByte ∉ s →
      SafeName s' → SafeName (c :: s') := by
    intro c s s' e hs h
    have hh := head s hs
    rw [e] at hh
    constructor
    · rw [occurs_cons]; rintro (h1 | h1)
      · exact hh.1 h1
      · exact h.1 h1
    · rw [occurs_cons]; rintro (h1 | h1)
      · exact hh.2 h1
      · exact h.2 h1
  induction hn : t.length using Nat.strongRecOn generalizing t with
  | _ n ih =>
    cases t with
    | nil => exact ⟨not_occurs_nil _ (by simp), not_occurs_nil _ (by simp)⟩
    | cons c s =>
      by_cases hr : sepReplacement <+: (c :: s)
      · obtain ⟨q, e⟩ := hr
        have hq : sepByte ∉ q := by
          intro hm; exact ht (by rw [← e]; exact List.mem_append_right _ hm)
        have hl : q.length < n := by
          have := congrArg List.length e
          simp [sepReplacement] at this hn; omega
        have eq : unescape (c :: s) = sepByte :: unescape q := by rw [← e]; exact unescape_match q
        rw [eq]
        exact cons_case _ (c :: s) _ eq ht (ih q.length hl q hq rfl)
      · have eq := unescape_nomatch c s hr
        have hs : sepByte ∉ s := by simp at ht; exact ht.2
        rw [eq]
        exact cons_case _ (c :: s) _ eq ht (ih s.length (by simp at hn; omega) s hs rfl)

end Neffos
