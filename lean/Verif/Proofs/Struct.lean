import Verif.Spec.Struct
/-!
# Lemmas about struct controllers
-/
set_option autoImplicit false
namespace Neffos
open Neffos.Spec

theorem zeroVals_eq (es : List RVal) : zeroVals es = es.map zeroVal := by
  induction es with
  | nil => rfl
  | cons v t ih => simp [zeroVals, ih]

theorem zeroFields_eq (fs : List (Vis × RVal)) : zeroFields fs = fs.map (fun f => (f.1, zeroVal f.2)) := by
  induction fs with
  | nil => rfl
  | cons f t ih => obtain ⟨v, x⟩ := f; simp [zeroFields, ih]

theorem blank_zero {v : RVal} (h : Blank v) : v = zeroVal v := by
  induction h with
  | leaf => rfl
  | ref => rfl
  | array _ ih =>
    simp only [zeroVal, zeroVals_eq]
    congr 1
    exact (List.map_congr_left (fun e he => (ih e he).symm) |>.trans (List.map_id' _)).symm
  | struct _ ih =>
    simp only [zeroVal, zeroFields_eq]
    congr 1
    exact (List.map_congr_left (fun f hf => (show (f.1, zeroVal f.2) = f by rw [← ih f hf])) |>.trans (List.map_id' _)).symm

theorem elemsZero_some {ro : Bool} {es : List RVal}
    (h : ∀ e ∈ es, ∃ b, isZero ro ro e = some b ∧ (b = true → Blank e)) :
    ∃ b, elemsZero ro es = some b ∧ (b = true → ∀ e ∈ es, Blank e) := by
  induction es with
  | nil => exact ⟨true, rfl, by simp⟩
  | cons e t ih =>
    obtain ⟨b, h1, h2⟩ := h e (by simp)
    obtain ⟨b', h3, h4⟩ := ih (fun x hx => h x (by simp [hx]))
    simp only [elemsZero, h1]
    cases b with
    | false => exact ⟨false, rfl, by simp⟩
    | true =>
      refine ⟨b', h3, fun hb x hx => ?_⟩
      rcases List.mem_cons.mp hx with rfl | hx
      · exact h2 rfl
      · exact h4 hb x hx

theorem fieldsZero_some {sticky : Bool} {fs : List (Vis × RVal)}
    (h : ∀ f ∈ fs, ∃ b, isZero (sticky || f.1 = .hidden) (sticky || f.1 ≠ .exported) f.2 = some b ∧
      (b = true → Blank f.2)) :
    ∃ b, fieldsZero sticky fs = some b ∧ (b = true → ∀ f ∈ fs, Blank f.2) := by
  induction fs with
  | nil => exact ⟨true, rfl, by simp⟩
  | cons f t ih =>
    obtain ⟨vis, v⟩ := f
    obtain ⟨b, h1, h2⟩ := h (vis, v) (by simp)
    obtain ⟨b', h3, h4⟩ := ih (fun x hx => h x (by simp [hx]))
    simp only [fieldsZero]
    dsimp only at h1
    rw [h1]
    cases b with
    | false => exact ⟨false, rfl, by simp⟩
    | true =>
      refine ⟨b', h3, fun hb x hx => ?_⟩
      rcases List.mem_cons.mp hx with rfl | hx
      · exact h2 rfl
      · exact h4 hb x hx

/-- `isZero` of a fair value returns, and what it says is zero is the zero value -/
theorem isZero_fair {sticky ro : Bool} {v : RVal} (h : Fair sticky ro v) :
    ∃ b, isZero sticky ro v = some b ∧ (b = true → Blank v) := by
  induction h with
  | @leaf sticky ro v =>
    cases ro with
    | true => exact ⟨false, by simp [isZero], by simp⟩
    | false =>
      refine ⟨v == 0, by simp [isZero], fun h => ?_⟩
      simp at h; subst h; exact .leaf
  | @ref sticky ro v =>
    refine ⟨v.isNone, by simp [isZero], fun h => ?_⟩
    cases v with
    | none => exact .ref
    | some x => cases h
  | array _ ih =>
    obtain ⟨b, h1, h2⟩ := elemsZero_some ih
    exact ⟨b, by simpa [isZero] using h1, fun hb => .array (h2 hb)⟩
  | noMethod _ ih =>
    obtain ⟨b, h1, h2⟩ := fieldsZero_some ih
    exact ⟨b, by simp [isZero, h1, isZeroMethod], fun hb => .struct (h2 hb)⟩
  | @method sticky says fs _ hs ih =>
    obtain ⟨b, h1, h2⟩ := fieldsZero_some ih
    refine ⟨says, by simp [isZero, h1, isZeroMethod], fun hb => .struct (hs hb)⟩
  | @notAsked sticky ro m fs _ hm ih =>
    obtain ⟨b, h1, h2⟩ := fieldsZero_some ih
    refine ⟨b, ?_, fun hb => .struct (h2 hb)⟩
    rcases hm with hm | ⟨o, l, hm⟩
    · simp [isZero, h1, isZeroMethod, show 0 < m.args from hm]
    · simp [isZero, h1, isZeroMethod, hm]

/-! ### The static fields -/

theorem nonZero_len {fs : List (Vis × RVal)} {l : List Bool} (h : nonZeroFields fs = some l) :
    l.length = fs.length := by
  induction fs generalizing l with
  | nil => cases h; rfl
  | cons f t ih =>
    obtain ⟨vis, v⟩ := f
    simp only [nonZeroFields] at h
    split at h
    · cases h
    · split at h
      · cases h
      · rename_i l' hl
        cases h
        simp [ih hl]

theorem nonZero_get {fs : List (Vis × RVal)} {l : List Bool} (h : nonZeroFields fs = some l) {i : Nat}
    {vis : Vis} {v : RVal} (hi : fs[i]? = some (vis, v)) :
    ∃ z, isZero (vis = .hidden) (vis ≠ .exported) v = some z ∧ l[i]? = some (!z) := by
  induction fs generalizing l i with
  | nil => simp at hi
  | cons f t ih =>
    obtain ⟨vis', v'⟩ := f
    simp only [nonZeroFields] at h
    split at h
    · cases h
    · rename_i z hz
      split at h
      · cases h
      · rename_i l' hl
        cases h
        cases i with
        | zero =>
          simp at hi
          obtain ⟨rfl, rfl⟩ := hi
          exact ⟨z, hz, by simp⟩
        | succ i => exact ih hl (by simpa using hi)

theorem nonZero_some {fs : List (Vis × RVal)}
    (h : ∀ f ∈ fs, ∃ z, isZero (f.1 = .hidden) (f.1 ≠ .exported) f.2 = some z) :
    ∃ l, nonZeroFields fs = some l := by
  induction fs with
  | nil => exact ⟨[], rfl⟩
  | cons f t ih =>
    obtain ⟨vis, v⟩ := f
    obtain ⟨z, hz⟩ := h (vis, v) (by simp)
    obtain ⟨l, hl⟩ := ih (fun x hx => h x (by simp [hx]))
    dsimp only at hz
    exact ⟨(!z) :: l, by simp only [nonZeroFields]; rw [hz]; dsimp only; rw [hl]⟩

/-- registering panics as soon as one field does -/
theorem nonZero_none {fs : List (Vis × RVal)} {f : Vis × RVal} (hf : f ∈ fs)
    (h : isZero (f.1 = .hidden) (f.1 ≠ .exported) f.2 = none) : nonZeroFields fs = none := by
  cases hn : nonZeroFields fs with
  | none => rfl
  | some l =>
    obtain ⟨i, hi⟩ := List.mem_iff_getElem?.mp hf
    obtain ⟨z, hz, _⟩ := nonZero_get (vis := f.1) (v := f.2) hn hi
    rw [h] at hz; cases hz

theorem sameShape_get {a b : List (Vis × RVal)} (h : SameShape a b) (i : Nat) :
    (a[i]?).map (·.1) = (b[i]?).map (·.1) := by
  have := congrArg (fun l => l[i]?) h
  simpa using this

theorem setField_some {fs fs' : List (Vis × RVal)} {i : Nat} {x : RVal} (h : setField fs i x = some fs') :
    fs' = fs.set i (.exported, x) ∧ ∃ v, fs[i]? = some (.exported, v) := by
  unfold setField at h
  split at h
  · rename_i v hv
    cases h
    exact ⟨rfl, v, hv⟩
  · cases h

theorem setField_shape {fs fs' : List (Vis × RVal)} {i : Nat} {x : RVal} (h : setField fs i x = some fs') :
    SameShape fs' fs := by
  obtain ⟨rfl, v, hv⟩ := setField_some h
  unfold SameShape
  apply List.ext_getElem?
  intro j
  simp only [List.getElem?_map, List.getElem?_set]
  split
  · rename_i hij
    subst hij
    split
    · simp [hv]
    · rename_i hl; rw [List.getElem?_eq_none (by omega)] at hv; cases hv
  · rfl

/-- the loop over the static fields: it panics at an unexported one, otherwise it copies them -/
theorem setStatics_iff {orig : List (Vis × RVal)} {order : List Nat} {fs : List (Vis × RVal)}
    (hsh : SameShape orig fs) (hin : ∀ i ∈ order, i < orig.length) :
    (setStatics orig order fs = none ↔ ∃ i ∈ order, ∃ vis v, orig[i]? = some (vis, v) ∧ vis ≠ .exported) ∧
      ∀ inst, setStatics orig order fs = some inst →
        ∀ i, inst[i]? = if i ∈ order then orig[i]? else fs[i]? := by
  induction order generalizing fs with
  | nil =>
    refine ⟨by simp [setStatics], ?_⟩
    intro inst h i
    cases h; simp
  | cons k t ih =>
    have hk : k < orig.length := hin k (by simp)
    obtain ⟨⟨vis, x⟩, hx⟩ : ∃ y, orig[k]? = some y := ⟨_, List.getElem?_eq_getElem hk⟩
    have hf : (fs[k]?).map (·.1) = some vis := by rw [← sameShape_get hsh, hx]; rfl
    simp only [setStatics, hx]
    cases hs : setField fs k x with
    | none =>
      have hvis : vis ≠ .exported := by
        rintro rfl
        cases hfk : fs[k]? with
        | none => rw [hfk] at hf; cases hf
        | some y =>
          obtain ⟨vy, y⟩ := y
          rw [hfk] at hf
          simp at hf
          subst hf
          simp [setField, hfk] at hs
      refine ⟨⟨fun _ => ⟨k, by simp, vis, x, hx, hvis⟩, fun _ => rfl⟩, ?_⟩
      intro inst h; cases h
    | some fs' =>
      have hsh' : SameShape orig fs' := hsh.trans (setField_shape hs).symm
      obtain ⟨i1, i2⟩ := ih hsh' (fun i hi => hin i (by simp [hi]))
      obtain ⟨rfl, v, hv⟩ := setField_some hs
      have hvis : vis = .exported := by rw [hv] at hf; simpa using hf.symm
      subst hvis
      refine ⟨i1.trans ⟨?_, ?_⟩, ?_⟩
      · rintro ⟨i, hi, h⟩; exact ⟨i, by simp [hi], h⟩
      · rintro ⟨i, hi, vis, v', h1, h2⟩
        rcases List.mem_cons.mp hi with rfl | hi
        · rw [hx] at h1; cases h1; exact absurd rfl h2
        · exact ⟨i, hi, vis, v', h1, h2⟩
      · intro inst h i
        rw [i2 inst h i]
        have hkf : k < fs.length := (List.getElem?_eq_some_iff.mp hv).1
        by_cases hit : i ∈ t
        · simp [hit]
        · by_cases hik : i = k
          · subst hik
            simp [hit, hkf, hx]
          · rw [if_neg hit, if_neg (by simp [hik, hit]), List.getElem?_set_ne (by omega)]

/-! ### Fields by name -/

theorem fieldByName_none {name : Bytes} {fuel : Nat} {level : List (Nat × SField)}
    (h : ¬ HasField name (level.map (·.2))) : fieldByName name fuel level = none := by
  induction fuel generalizing level with
  | zero => rfl
  | succ fuel ih =>
    have he : level.filter (fun p => p.2.name = name) = [] := by
      rw [List.filter_eq_nil_iff]
      intro p hp hn
      exact h (.here (List.mem_map_of_mem hp) (by simpa using hn))
    simp only [fieldByName]
    rw [he]
    dsimp only
    apply ih
    intro hx
    apply h
    generalize hl : List.map (·.2) (level.flatMap (fun p => p.2.fields.map (fun f => (p.1, f)))) = l at hx
    have hmem : ∀ g ∈ l, ∃ p ∈ level, g ∈ p.2.fields := by
      intro g hg
      rw [← hl] at hg
      simp only [List.mem_map, List.mem_flatMap] at hg
      obtain ⟨q, ⟨p, hp, f, hf, rfl⟩, rfl⟩ := hg
      exact ⟨p, hp, hf⟩
    cases hx with
    | here h1 h2 =>
      obtain ⟨p, hp, hg⟩ := hmem _ h1
      exact .sub (List.mem_map_of_mem hp) (.here hg h2)
    | sub h1 h2 =>
      obtain ⟨p, hp, hg⟩ := hmem _ h1
      exact .sub (List.mem_map_of_mem hp) (.sub hg h2)

end Neffos
