import Verif.Spec.StructNs
import Verif.Props.Struct
set_option autoImplicit false
/-!
# C120: the namespace of a struct controller, exactly
-/
namespace Neffos
open Spec
namespace StructNs

theorem fieldAt_snoc {i : Nat} {p : List Nat} (hp : p ≠ []) : ∀ fs : List SField,
    fieldAt fs (p ++ [i]) = (fieldAt fs p).bind (fun f => f.fields[i]?) := by
  induction p with
  | nil => exact absurd rfl hp
  | cons j p ih =>
    intro fs
    rw [List.cons_append, fieldAt, fieldAt]
    cases hj : fs[j]? with
    | none => rfl
    | some g =>
      dsimp only
      rw [if_neg (by simp)]
      by_cases h : p = []
      · subst h
        simp only [List.nil_append, if_true, Option.bind_some, fieldAt]
        cases g.fields[i]? <;> rfl
      · rw [if_neg h, ih h]

theorem sizes_mem {f : SField} {fs : List SField} (h : f ∈ fs) : f.size ≤ sizes fs := by
  induction fs with
  | nil => cases h
  | cons g fs ih =>
    rw [sizes]
    rcases List.mem_cons.mp h with rfl | h
    · omega
    · have := ih h; omega

theorem size_fields (f : SField) : sizes f.fields + 1 ≤ f.size := by
  obtain ⟨n, s, v, sub⟩ := f
  cases sub with
  | none => simp [SField.fields, SField.sub, SField.size, sizes]
  | some p => obtain ⟨t, l⟩ := p; simp [SField.fields, SField.sub, SField.size]; omega

theorem fieldAt_length {p : List Nat} : ∀ {fs : List SField} {f : SField}, fieldAt fs p = some f → p.length ≤ sizes fs := by
  induction p with
  | nil => intro fs f h; simp
  | cons j p ih =>
    intro fs f h
    rw [fieldAt] at h
    cases hj : fs[j]? with
    | none => rw [hj] at h; cases h
    | some g =>
      rw [hj] at h
      dsimp only at h
      have h1 := sizes_mem (List.mem_of_getElem? hj)
      have h2 := size_fields g
      split at h
      · rename_i hp; subst hp; simp; omega
      · have := ih h; simp; omega

/-- a prefix of a path leads to a field -/
theorem fieldAt_init {fs : List SField} {p : List Nat} {i : Nat} {f : SField} (h : fieldAt fs (p ++ [i]) = some f) (hp : p ≠ []) :
    ∃ g, fieldAt fs p = some g ∧ g.fields[i]? = some f := by
  rw [fieldAt_snoc hp] at h
  exact Option.bind_eq_some_iff.mp h

/-- all fields at a depth, with their paths -/
structure Lv (fs : List SField) (d : Nat) (L : List (List Nat × SField)) : Prop where
  mem : ∀ p f, (p, f) ∈ L ↔ fieldAt fs p = some f ∧ p.length = d + 1
  nodup : L.Nodup

def next (L : List (List Nat × SField)) : List (List Nat × SField) :=
  L.flatMap (fun q => q.2.fields.zipIdx.map (fun g => (q.1 ++ [g.2], g.1)))

theorem zipIdx_nodup {α : Type} (l : List α) : l.zipIdx.Nodup := by
  rw [List.nodup_iff_pairwise_ne, List.pairwise_iff_getElem]
  intro i j hi hj hij h
  simp only [List.getElem_zipIdx, Prod.mk.injEq] at h
  omega

theorem lv_next {fs : List SField} {d : Nat} {L : List (List Nat × SField)} (h : Lv fs d L) : Lv fs (d + 1) (next L) := by
  refine ⟨?_, ?_⟩
  · intro p f
    unfold next
    simp only [List.mem_flatMap, List.mem_map, Prod.mk.injEq, Prod.exists, List.mk_mem_zipIdx_iff_getElem?]
    constructor
    · rintro ⟨q, g, hq, f', i, hg, rfl, rfl⟩
      obtain ⟨h1, h2⟩ := (h.mem q g).mp hq
      have hq0 : q ≠ [] := by intro e; subst e; simp at h2
      refine ⟨?_, by simp [h2]⟩
      rw [fieldAt_snoc hq0, h1]
      exact hg
    · rintro ⟨h1, h2⟩
      have hp : p ≠ [] := by intro e; subst e; simp at h2
      obtain ⟨q, i, rfl⟩ : ∃ q i, p = q ++ [i] := ⟨p.dropLast, p.getLast hp, (List.dropLast_concat_getLast hp).symm⟩
      have hl : q.length = d + 1 := by simpa using h2
      have hq0 : q ≠ [] := by intro e; subst e; simp at hl
      obtain ⟨g, h3, h4⟩ := fieldAt_init h1 hq0
      exact ⟨q, g, (h.mem q g).mpr ⟨h3, hl⟩, f, i, h4, rfl, rfl⟩
  · unfold next
    have hn := h.nodup
    have hu : ∀ q g g', (q, g) ∈ L → (q, g') ∈ L → g = g' := by
      intro q g g' h1 h2
      have a := ((h.mem q g).mp h1).1
      have b := ((h.mem q g').mp h2).1
      rw [a] at b; exact Option.some.inj b
    clear h
    rw [List.nodup_iff_pairwise_ne, List.pairwise_flatMap]
    constructor
    · intro q _
      rw [List.pairwise_map]
      refine (List.nodup_iff_pairwise_ne.mp (zipIdx_nodup q.2.fields)).imp ?_
      rintro ⟨a, i⟩ ⟨b, j⟩ hne e
      simp only [Prod.mk.injEq, List.append_cancel_left_eq, List.cons.injEq, and_true] at e
      exact hne (by rw [e.1, e.2])
    · rw [List.nodup_iff_pairwise_ne] at hn
      refine hn.imp_of_mem ?_
      rintro ⟨q, g⟩ ⟨q', g'⟩ h1 h2 hne x hx y hy e
      simp only [List.mem_map, Prod.exists] at hx hy
      obtain ⟨a, i, _, rfl⟩ := hx
      obtain ⟨b, j, _, rfl⟩ := hy
      simp only [Prod.mk.injEq] at e
      have := (List.append_inj' e.1 rfl).1
      subst this
      exact hne (by rw [hu _ _ _ h1 h2])

theorem lv_zero (fs : List SField) : Lv fs 0 (fs.zipIdx.map (fun g => ([g.2], g.1))) := by
  refine ⟨?_, ?_⟩
  · intro p f
    simp only [List.mem_map, Prod.mk.injEq, Prod.exists, List.mk_mem_zipIdx_iff_getElem?]
    constructor
    · rintro ⟨g, i, hg, rfl, rfl⟩
      simp [fieldAt, hg]
    · rintro ⟨h1, h2⟩
      match p, h2 with
      | [i], _ =>
        rw [fieldAt] at h1
        cases hi : fs[i]? with
        | none => rw [hi] at h1; cases h1
        | some g =>
          rw [hi] at h1
          simp only [if_true, Option.some.injEq] at h1
          exact ⟨f, i, by rw [hi, h1], rfl, rfl⟩
  · rw [List.nodup_iff_pairwise_ne, List.pairwise_map]
    refine (List.nodup_iff_pairwise_ne.mp (zipIdx_nodup fs)).imp ?_
    rintro ⟨a, i⟩ ⟨b, j⟩ hne e
    simp only [Prod.mk.injEq, List.cons.injEq, and_true] at e
    exact hne (by rw [e.1, e.2])

/-- a path without the indexes after the first -/
def flat (L : List (List Nat × SField)) : List (Nat × SField) := L.map (fun q => (q.1.headD 0, q.2))

theorem flat_next {fs : List SField} {d : Nat} {L : List (List Nat × SField)} (h : Lv fs d L) :
    flat (next L) = (flat L).flatMap (fun p => p.2.fields.map (fun f => (p.1, f))) := by
  have hne : ∀ q ∈ L, q.1 ≠ [] := by
    rintro ⟨p, f⟩ hq e
    have := ((h.mem p f).mp hq).2
    dsimp only at e
    subst e; simp at this
  clear h
  unfold flat next
  rw [List.map_flatMap, List.flatMap_map]
  rw [List.flatMap_def, List.flatMap_def]
  refine congrArg _ (List.map_congr_left ?_)
  intro q hq
  rw [List.map_map]
  obtain ⟨j, p, hp⟩ := List.exists_cons_of_ne_nil (hne q hq)
  have : ((fun q : List Nat × SField => (q.1.headD 0, q.2)) ∘ fun g : SField × Nat => (q.1 ++ [g.2], g.1)) =
      (fun f => (q.1.headD 0, f)) ∘ Prod.fst := by
    funext g
    simp [hp]
  rw [this, ← List.map_map, List.zipIdx_map_fst]

/-- the search by levels finds what the selector means -/
theorem fieldByName_iff {fs : List SField} {name : Bytes} (fuel : Nat) : ∀ {d : Nat} {L : List (List Nat × SField)},
    Lv fs d L → (∀ p f, fieldAt fs p = some f → p.length ≤ d → f.name ≠ name) → sizes fs < d + fuel →
    ∀ r, fieldByName name fuel (flat L) = some r ↔ ∃ p f, Selects fs name p f ∧ r = (p.headD 0, f) := by
  induction fuel with
  | zero =>
    intro d L hL hd hf r
    simp only [fieldByName, reduceCtorEq, false_iff]
    rintro ⟨p, f, ⟨h1, h2, _⟩, _⟩
    exact hd p f h1 (by have := fieldAt_length h1; omega) h2
  | succ fuel ih =>
    intro d L hL hd hf r
    rw [fieldByName]
    have hfl : (flat L).filter (fun p => p.2.name = name) = flat (L.filter (fun q => q.2.name = name)) := by
      unfold flat
      rw [List.filter_map]
      rfl
    rw [hfl]
    have hmem : ∀ p f, (p, f) ∈ L.filter (fun q => q.2.name = name) ↔ (fieldAt fs p = some f ∧ p.length = d + 1) ∧ f.name = name := by
      intro p f
      rw [List.mem_filter, hL.mem]
      simp
    have hdeep : ∀ q g, fieldAt fs q = some g → g.name = name → d + 1 ≤ q.length := by
      intro q g h1 h2
      refine Classical.byContradiction fun hx => hd q g h1 (by omega) h2
    have hnd := hL.nodup.filter (fun q => decide (q.2.name = name))
    generalize hF : L.filter (fun q => q.2.name = name) = F at hmem hnd
    match F with
    | [] =>
      simp only [flat, List.map_nil]
      rw [← show flat L = L.map (fun q => (q.1.headD 0, q.2)) from rfl, ← flat_next hL]
      refine ih (lv_next hL) ?_ (by omega) r
      intro p f h1 h2 h3
      by_cases hl : p.length ≤ d
      · exact hd p f h1 hl h3
      · have := (hmem p f).mpr ⟨⟨h1, by omega⟩, h3⟩
        cases this
    | [(p, f)] =>
      simp only [flat, List.map_cons, List.map_nil, Option.some.injEq]
      obtain ⟨⟨h1, h2⟩, h3⟩ := (hmem p f).mp (by simp)
      have hsel : Selects fs name p f := by
        refine ⟨h1, h3, fun q g h4 h5 => ?_⟩
        by_cases hl : q.length = d + 1
        · have := (hmem q g).mpr ⟨⟨h4, hl⟩, h5⟩
          rw [List.mem_singleton] at this
          exact .inl (Prod.mk.inj this).1
        · have := hdeep q g h4 h5
          exact .inr (by omega)
      constructor
      · intro h; exact ⟨p, f, hsel, h.symm⟩
      · rintro ⟨q, g, ⟨h4, h5, h6⟩, rfl⟩
        have : p = q := by
          rcases h6 p f h1 h3 with h | h
          · exact h
          · have := hdeep q g h4 h5; omega
        subst this
        rw [h1] at h4
        cases h4
        rfl
    | (p, f) :: (q, g) :: F =>
      simp only [flat, List.map_cons, reduceCtorEq, false_iff]
      rintro ⟨q', g', ⟨h4, h5, h6⟩, _⟩
      obtain ⟨⟨a1, a2⟩, a3⟩ := (hmem p f).mp (by simp)
      obtain ⟨⟨b1, b2⟩, b3⟩ := (hmem q g).mp (by simp)
      have hq' := hdeep q' g' h4 h5
      have e1 : p = q' := by rcases h6 p f a1 a3 with h | h; exact h; omega
      have e2 : q = q' := by rcases h6 q g b1 b3 with h | h; exact h; omega
      subst e1; subst e2
      rw [a1] at b1
      cases b1
      simp at hnd

end StructNs

/-- C120: the namespace that a struct controller declares: the result of its method; else, if the selector
`x.Namespace` means a field of kind string, the text of that field if it is the struct's own, and otherwise the
placeholder text of the embedded struct that it comes through; else none. -/
theorem c120_exact (c : Ctl) (ns : Bytes) : resolveStructNamespace c = some ns ↔
    c.nsMethod = some ns ∨
    (c.nsMethod = none ∧ ∃ i p f g, Selects c.fields (b! "Namespace") (i :: p) f ∧ f.isStr = true ∧ c.fields[i]? = some g ∧
      ns = reflectString g ∧ (p = [] → ns = f.value) ∧
      (p ≠ [] → ∀ typ l, g.sub = some (typ, l) → g.isStr = false → ns = b! "<" ++ typ ++ b! " Value>")) := by
  unfold resolveStructNamespace
  cases hm : c.nsMethod with
  | some x => simp
  | none =>
    simp only [reduceCtorEq, false_or, true_and]
    have hz : c.fields.zipIdx.map (fun p => (p.2, p.1)) = StructNs.flat (c.fields.zipIdx.map (fun g => ([g.2], g.1))) := by
      unfold StructNs.flat
      rw [List.map_map]
      rfl
    have key := StructNs.fieldByName_iff (name := b! "Namespace") (sizes c.fields + 1) (StructNs.lv_zero c.fields)
      (by
        intro p f h1 h2
        have : p = [] := List.length_eq_zero_iff.mp (Nat.le_zero.mp h2)
        subst this; cases h1) (by omega)
    rw [← hz] at key
    generalize fieldByName (b! "Namespace") (sizes c.fields + 1) (c.fields.zipIdx.map (fun p => (p.2, p.1))) = o at key ⊢
    have hhead : ∀ (i : Nat) (p : List Nat) (f : SField), fieldAt c.fields (i :: p) = some f →
        ∃ g, c.fields[i]? = some g ∧ (p = [] → f = g) := by
      intro i p f h
      rw [fieldAt] at h
      cases hi : c.fields[i]? with
      | none => rw [hi] at h; cases h
      | some g =>
        rw [hi] at h
        refine ⟨g, rfl, fun hp => ?_⟩
        subst hp
        simp only [if_true, Option.some.injEq] at h
        exact h.symm
    constructor
    · intro h
      split at h
      · rename_i j f
        obtain ⟨p, f', hs, e⟩ := (key (j, f)).mp rfl
        cases e
        match p, hs with
        | [], hs => cases hs.1
        | i :: p, hs =>
          obtain ⟨g, hg, hgf⟩ := hhead i p f hs.1
          rw [List.headD_cons, hg] at h
          by_cases hstr : f.isStr = true
          · rw [if_pos hstr] at h
            simp only [Option.some.injEq] at h
            subst h
            refine ⟨i, p, f, g, hs, hstr, hg, rfl, ?_, ?_⟩
            · intro hp
              rw [← hgf hp, reflectString, if_pos hstr]
            · intro _ typ l h1 h2
              simp [reflectString, h1, h2]
          · rw [if_neg hstr] at h; cases h
      · cases h
    · rintro ⟨i, p, f, g, hs, hstr, hg, rfl, _, _⟩
      have := (key (i, f)).mpr ⟨i :: p, f, hs, rfl⟩
      rw [this]
      simp [hstr, hg]

/-- C120: so the namespace is the value that `x.Namespace` has in Go if the field is the struct's own; and with
no such method and no such selector there is none. -/
theorem c120_none (c : Ctl) : resolveStructNamespace c = none ↔ c.nsMethod = none ∧
    ∀ p f, Selects c.fields (b! "Namespace") p f → f.isStr = false := by
  constructor
  · intro h
    have hm : c.nsMethod = none := by
      cases hm : c.nsMethod with
      | none => rfl
      | some x => rw [(c120_exact c x).mpr (.inl hm)] at h; cases h
    refine ⟨hm, fun p f hs => ?_⟩
    cases hstr : f.isStr with
    | false => rfl
    | true =>
      exfalso
      match p, hs with
      | [], hs => cases hs.1
      | i :: p, hs =>
        have h1 := hs.1
        rw [fieldAt] at h1
        cases hi : c.fields[i]? with
        | none => rw [hi] at h1; cases h1
        | some g =>
          rw [hi] at h1
          have := (c120_exact c (reflectString g)).mpr (.inr ⟨hm, i, p, f, g, hs, hstr, hi, rfl, ?_, ?_⟩)
          · rw [h] at this; cases this
          · intro hp
            subst hp
            simp only [if_true, Option.some.injEq] at h1
            subst h1
            rw [reflectString, if_pos hstr]
          · intro _ typ l h1 h2
            simp [reflectString, h1, h2]
  · rintro ⟨hm, h⟩
    cases hr : resolveStructNamespace c with
    | none => rfl
    | some x =>
      rcases (c120_exact c x).mp hr with h1 | ⟨_, i, p, f, g, hs, hstr, _⟩
      · rw [hm] at h1; cases h1
      · rw [h _ f hs] at hstr; cases hstr

/-- the field of the outer struct hides the one of the embedded struct; two at one depth select none; a promoted
one gives the placeholder -/
example :
    let str : Bytes → Bytes → SField := fun n v => .mk n true v none
    let base : Bytes → SField := fun n => .mk n false [] (some (b! "main." ++ n, [str (b! "Namespace") (b! "base")]))
    resolveStructNamespace ⟨none, [base (b! "A"), str (b! "Namespace") (b! "chat")]⟩ = some (b! "chat") ∧
    resolveStructNamespace ⟨none, [base (b! "A"), base (b! "B")]⟩ = none ∧
    resolveStructNamespace ⟨none, [str (b! "X") (b! "x"), base (b! "B")]⟩ = some (b! "<main.B Value>") ∧
    fieldAt [str (b! "X") (b! "x"), base (b! "B")] [1, 0] = some (str (b! "Namespace") (b! "base")) :=
  ⟨by decide +kernel, by decide +kernel, by decide +kernel, rfl⟩

end Neffos
