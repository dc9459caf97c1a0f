import Verif.Proofs.Struct
/-!
# C64, C65, C66: struct controllers
-/
set_option autoImplicit false
namespace Neffos
open Neffos.Spec

/-! ## C64 -/

section instances
variable {orig fresh : List (Vis × RVal)} {statics : List Bool} {order : List Nat} {nsIdx : Nat} {conn : RVal}

/-- C64, the whole truth: making the value for an NSConn panics exactly when the NSConn field or a
static field is not exported; otherwise static fields have the value of the registered struct, the
NSConn field has the NSConn unless it is static, and the others are as the injector made them. -/
theorem c64_exact (hsh : SameShape orig fresh) (hst : nonZeroFields orig = some statics)
    (hr : RangeOf statics order) (hns : nsIdx < orig.length) :
    (makeInstance orig fresh nsIdx order conn = none ↔
      ∃ i vis v, orig[i]? = some (vis, v) ∧ vis ≠ .exported ∧ (i = nsIdx ∨ statics[i]? = some true)) ∧
    ∀ inst, makeInstance orig fresh nsIdx order conn = some inst → ∀ i,
      inst[i]? = if statics[i]? = some true then orig[i]?
        else if i = nsIdx then some (.exported, conn) else fresh[i]? := by
  have hlen := nonZero_len hst
  have hin : ∀ i ∈ order, i < orig.length := by
    intro i hi
    have := (hr.2 i).mp hi
    rw [← hlen]
    exact (List.getElem?_eq_some_iff.mp this).1
  obtain ⟨⟨vis, x⟩, hx⟩ : ∃ y, orig[nsIdx]? = some y := ⟨_, List.getElem?_eq_getElem hns⟩
  have hf : (fresh[nsIdx]?).map (·.1) = some vis := by rw [← sameShape_get hsh, hx]; rfl
  unfold makeInstance
  cases hs : setField fresh nsIdx conn with
  | none =>
    have hvis : vis ≠ .exported := by
      rintro rfl
      cases hfk : fresh[nsIdx]? with
      | none => rw [hfk] at hf; cases hf
      | some y =>
        obtain ⟨vy, y⟩ := y
        rw [hfk] at hf
        simp at hf
        subst hf
        simp [setField, hfk] at hs
    refine ⟨⟨fun _ => ⟨nsIdx, vis, x, hx, hvis, .inl rfl⟩, fun _ => rfl⟩, ?_⟩
    intro inst h; cases h
  | some fs' =>
    have hsh' : SameShape orig fs' := hsh.trans (setField_shape hs).symm
    obtain ⟨i1, i2⟩ := setStatics_iff hsh' hin
    obtain ⟨rfl, v, hv⟩ := setField_some hs
    have hvis : vis = .exported := by rw [hv] at hf; simpa using hf.symm
    subst hvis
    refine ⟨i1.trans ⟨?_, ?_⟩, ?_⟩
    · rintro ⟨i, hi, vis, v', h1, h2⟩
      exact ⟨i, vis, v', h1, h2, .inr ((hr.2 i).mp hi)⟩
    · rintro ⟨i, vis, v', h1, h2, rfl | h3⟩
      · rw [hx] at h1; cases h1; exact absurd rfl h2
      · exact ⟨i, (hr.2 i).mpr h3, vis, v', h1, h2⟩
    · intro inst h i
      rw [i2 inst h i]
      have hkf : nsIdx < fresh.length := (List.getElem?_eq_some_iff.mp hv).1
      by_cases hit : i ∈ order
      · rw [if_pos hit, if_pos ((hr.2 i).mp hit)]
      · rw [if_neg hit, if_neg (fun h => hit ((hr.2 i).mpr h))]
        by_cases hik : i = nsIdx
        · subst hik; simp [hkf]
        · rw [if_neg hik, List.getElem?_set_ne (by omega)]

/-- C64: with exported fields, an NSConn field that is nil, and `IsZero` methods that tell the truth,
registering does not panic and every NSConn gets a struct value that has the fields of the registered
one, and the NSConn. -/
theorem c64_instance_partial (hvis : ∀ f ∈ orig, f.1 = .exported) (hfair : ∀ f ∈ orig, Fair false false f.2)
    (hns : orig[nsIdx]? = some (.exported, .leaf 0)) :
    ∃ statics, nonZeroFields orig = some statics ∧ ∀ order, RangeOf statics order →
      makeInstance orig (zeroFields orig) nsIdx order conn = some (orig.set nsIdx (.exported, conn)) := by
  have hz : ∀ f ∈ orig, ∃ b, isZero (f.1 = .hidden) (f.1 ≠ .exported) f.2 = some b ∧ (b = true → Blank f.2) := by
    intro f hf
    have := isZero_fair (hfair f hf)
    rw [hvis f hf]
    simpa using this
  obtain ⟨statics, hst⟩ := nonZero_some (fun f hf => (hz f hf).imp fun _ h => h.1)
  refine ⟨statics, hst, fun order hr => ?_⟩
  have hsh : SameShape orig (zeroFields orig) := by
    unfold SameShape; rw [zeroFields_eq]; simp
  have hlt : nsIdx < orig.length := (List.getElem?_eq_some_iff.mp hns).1
  obtain ⟨e1, e2⟩ := c64_exact (conn := conn) hsh hst hr hlt
  cases hm : makeInstance orig (zeroFields orig) nsIdx order conn with
  | none =>
    obtain ⟨i, vis, v, h1, h2, _⟩ := e1.mp hm
    exact absurd (hvis _ (List.mem_of_getElem? h1)) h2
  | some inst =>
    have h3 := e2 inst hm
    congr 1
    apply List.ext_getElem?
    intro i
    rw [h3 i]
    have hlen := nonZero_len hst
    have h0 : statics[nsIdx]? = some false := by
      obtain ⟨z, hz, hl⟩ := nonZero_get hst hns
      simp [isZero] at hz
      rw [hl, hz]; rfl
    by_cases hi : i = nsIdx
    · subst hi
      rw [h0]
      simp [hlt]
    · rw [List.getElem?_set_ne (by omega), if_neg hi]
      split
      · rfl
      · rename_i hn
        rw [zeroFields_eq, List.getElem?_map]
        cases ho : orig[i]? with
        | none => rfl
        | some f =>
          obtain ⟨vis, v⟩ := f
          obtain ⟨z, hz1, hl⟩ := nonZero_get hst ho
          have hzt : z = true := by
            cases z with
            | true => rfl
            | false => exact absurd hl hn
          subst hzt
          obtain ⟨b, hb1, hb2⟩ := hz _ (List.mem_of_getElem? ho)
          dsimp only at hb1 hb2
          rw [hz1] at hb1
          cases hb1
          simp [← blank_zero (hb2 rfl)]

/-- C64 fails for every controller that has an unexported field of a comparable type, such as a
number, a string or a pointer, whatever its value: such a field is always taken for a static one and
the first Connect panics when it is set. -/
theorem c64_hidden_refuted {i : Nat} {vis : Vis} {v : Nat} (hsh : SameShape orig fresh)
    (hst : nonZeroFields orig = some statics) (hr : RangeOf statics order) (hns : nsIdx < orig.length)
    (hi : orig[i]? = some (vis, .leaf v)) (hv : vis ≠ .exported) :
    makeInstance orig fresh nsIdx order conn = none := by
  refine (c64_exact hsh hst hr hns).1.mpr ⟨i, vis, _, hi, hv, .inr ?_⟩
  obtain ⟨z, hz, hl⟩ := nonZero_get hst hi
  simp [isZero, hv] at hz
  rw [hl, hz]; rfl

/-- C64 fails for an unexported field of a struct type with a method `IsZero() bool`, such as
`time.Time`: registering the controller panics. -/
theorem c64_time_refuted {vis : Vis} {says : Bool} {fs : List (Vis × RVal)}
    (hf : (vis, .struct (some ⟨0, [.bool], says⟩) fs) ∈ orig) (hv : vis ≠ .exported) :
    nonZeroFields orig = none := by
  apply nonZero_none hf
  simp only [isZero]
  cases fieldsZero _ fs with
  | none => rfl
  | some z => simp [isZeroMethod, hv]

/-- C64 fails for an `IsZero` method without a result or with a result that is not `bool`, also of an
exported field: registering the controller panics. -/
theorem c64_method_refuted {vis : Vis} {says : Bool} {outs : List OutTy} {fs : List (Vis × RVal)}
    (hf : (vis, .struct (some ⟨0, outs, says⟩) fs) ∈ orig)
    (ho : outs = [] ∨ outs = [.other] ∨ ∃ l, outs = .namedBool :: l) :
    nonZeroFields orig = none := by
  apply nonZero_none hf
  simp only [isZero]
  cases fieldsZero _ fs with
  | none => rfl
  | some z => rcases ho with rfl | rfl | ⟨l, rfl⟩ <;> simp [isZeroMethod]

/-- C64 fails when the NSConn field of the registered struct was set: every NSConn gets a struct
value with that NSConn instead of its own. -/
theorem c64_preset_refuted {v : Nat} {inst : List (Vis × RVal)} (hsh : SameShape orig fresh)
    (hst : nonZeroFields orig = some statics) (hr : RangeOf statics order)
    (hns : orig[nsIdx]? = some (.exported, .leaf (v + 1)))
    (hm : makeInstance orig fresh nsIdx order conn = some inst) :
    inst[nsIdx]? = some (.exported, .leaf (v + 1)) := by
  have hlt : nsIdx < orig.length := (List.getElem?_eq_some_iff.mp hns).1
  rw [(c64_exact hsh hst hr hlt).2 inst hm nsIdx]
  obtain ⟨z, hz, hl⟩ := nonZero_get hst hns
  simp [isZero] at hz
  rw [if_pos (by rw [hl, hz]; rfl)]
  exact hns

/-- C64 fails for a struct that calls itself zero: its content is not in the value of an NSConn. -/
theorem c64_says_refuted : ∃ (orig inst : List (Vis × RVal)), nonZeroFields orig = some [false, false] ∧
    RangeOf [false, false] [] ∧ makeInstance orig (zeroFields orig) 0 [] (.leaf 5) = some inst ∧
    orig[1]? = some (.exported, .struct (some ⟨0, [.bool], true⟩) [(.exported, .leaf 7)]) ∧
    inst[1]? = some (.exported, .struct (some ⟨0, [.bool], true⟩) [(.exported, .leaf 0)]) :=
  ⟨[(.exported, .leaf 0), (.exported, .struct (some ⟨0, [.bool], true⟩) [(.exported, .leaf 7)])], _, by
    simp [nonZeroFields, isZero, fieldsZero, isZeroMethod], ⟨by simp, by
      intro i
      match i with
      | 0 => simp
      | 1 => simp
      | n + 2 => simp⟩, rfl, rfl, rfl⟩

end instances

/-- A controller with an NSConn, a name, a map, a list of two numbers and a struct with a truthful
`IsZero`: the conditions of `c64_instance_partial` hold. -/
example : let orig : List (Vis × RVal) := [(.exported, .leaf 0), (.exported, .leaf 3), (.exported, .ref (some 1)),
      (.exported, .array [.leaf 0, .leaf 2]), (.exported, .struct (some ⟨0, [.bool], false⟩) [(.exported, .leaf 1)]),
      (.exported, .struct (some ⟨1, [], true⟩) [(.exported, .leaf 4)]), (.exported, .leaf 0)]
    (∀ f ∈ orig, f.1 = .exported) ∧ (∀ f ∈ orig, Fair false false f.2) ∧ orig[0]? = some (.exported, .leaf 0) ∧
      nonZeroFields orig = some [false, true, true, true, true, true, false] ∧
      makeInstance orig (zeroFields orig) 0 [2, 1, 5, 4, 3] (.leaf 9) = some (orig.set 0 (.exported, .leaf 9)) := by
  refine ⟨by simp, ?_, rfl, by simp [nonZeroFields, isZero, elemsZero, fieldsZero, isZeroMethod], rfl⟩
  intro f hf
  simp only [List.mem_cons, List.not_mem_nil, or_false] at hf
  rcases hf with rfl | rfl | rfl | rfl | rfl | rfl | rfl
  · exact .leaf _
  · exact .leaf _
  · exact .ref _
  · exact .array (fun e he => by
      simp only [List.mem_cons, List.not_mem_nil, or_false] at he
      rcases he with rfl | rfl <;> exact .leaf _)
  · exact .method (fun f hf => by simp at hf; subst hf; exact .leaf _) (by simp)
  · exact .notAsked (fun f hf => by simp at hf; subst hf; exact .leaf _) (by simp)
  · exact .leaf _

/-- An unexported mutex, a struct of two numbers, is enough: registering works, the first Connect
panics. -/
example : let orig : List (Vis × RVal) := [(.exported, .leaf 0),
      (.hidden, .struct none [(.hidden, .leaf 0), (.hidden, .leaf 0)])]
    nonZeroFields orig = some [false, true] ∧ makeInstance orig (zeroFields orig) 0 [1] (.leaf 9) = none := by
  exact ⟨by simp [nonZeroFields, isZero, fieldsZero, isZeroMethod], rfl⟩

/-! ## C65 -/

/-- C65: the namespace is the result of the method `Namespace() string` if there is one. -/
theorem c65_method (c : Ctl) {ns : Bytes} (h : c.nsMethod = some ns) : resolveStructNamespace c = some ns := by
  unfold resolveStructNamespace; rw [h]

/-- the one field of that name, with its index -/
theorem filter_level {fs : List SField} {f : SField} {name : Bytes}
    (h : fs.filter (fun g => g.name = name) = [f]) :
    ∃ i, fs[i]? = some f ∧
      (fs.zipIdx.map (fun p => (p.2, p.1))).filter (fun p => p.2.name = name) = [(i, f)] := by
  obtain ⟨a, b, rfl, h1, h2, h3⟩ := List.filter_eq_cons_iff.mp h
  refine ⟨a.length, by simp, ?_⟩
  rw [List.filter_eq_nil_iff] at h3
  rw [List.zipIdx_append, List.zipIdx_cons, List.map_append, List.map_cons, List.filter_append, List.filter_cons]
  have e1 : (a.zipIdx.map (fun p => (p.2, p.1))).filter (fun p => p.2.name = name) = [] := by
    rw [List.filter_eq_nil_iff]
    intro p hp
    simp only [List.mem_map] at hp
    obtain ⟨q, hq, rfl⟩ := hp
    exact h1 _ (List.fst_mem_of_mem_zipIdx hq)
  have e2 : ∀ n, (((b.zipIdx n).map (fun p => (p.2, p.1))).filter (fun p => p.2.name = name)) = [] := by
    intro n
    rw [List.filter_eq_nil_iff]
    intro p hp
    simp only [List.mem_map] at hp
    obtain ⟨q, hq, rfl⟩ := hp
    exact h3 _ (List.fst_mem_of_mem_zipIdx hq)
  rw [e1, e2]
  simp only [decide_eq_true_eq] at h2
  simp [h2]

/-- C65: without the method it is the value of the struct's own field `Namespace`, if that is a
string; a field of another type counts as none. -/
theorem c65_field (c : Ctl) {f : SField} (hm : c.nsMethod = none)
    (hf : c.fields.filter (fun g => g.name = b! "Namespace") = [f]) :
    resolveStructNamespace c = if f.isStr then some f.value else none := by
  obtain ⟨i, h1, h2⟩ := filter_level hf
  unfold resolveStructNamespace
  rw [hm]
  dsimp only
  simp only [fieldByName]
  rw [h2]
  dsimp only
  split
  · rename_i hs; rw [h1]; simp [reflectString, hs]
  · rfl

/-- C65: without the method and without such a field at any depth there is none, and the namespace is
the empty one. -/
theorem c65_none (c : Ctl) (hm : c.nsMethod = none) (hf : ¬ HasField (b! "Namespace") c.fields) :
    resolveStructNamespace c = none := by
  unfold resolveStructNamespace
  rw [hm]
  dsimp only
  rw [fieldByName_none]
  have : (c.fields.zipIdx.map (fun p => (p.2, p.1))).map (·.2) = c.fields := by
    rw [List.map_map]
    exact List.zipIdx_map_fst 0 c.fields
  rw [this]
  exact hf

/-- the index that a search returns is one it was given -/
theorem fieldByName_idx {name : Bytes} {fuel : Nat} {level : List (Nat × SField)} {p : Nat × SField}
    (h : fieldByName name fuel level = some p) : ∃ q ∈ level, q.1 = p.1 := by
  induction fuel generalizing level with
  | zero => cases h
  | succ fuel ih =>
    simp only [fieldByName] at h
    split at h
    · rename_i q hq
      cases h
      have : p ∈ level.filter (fun p => p.2.name = name) := by rw [hq]; simp
      exact ⟨p, (List.mem_filter.mp this).1, rfl⟩
    · cases h
    · obtain ⟨q, hq, he⟩ := ih h
      simp only [List.mem_flatMap, List.mem_map] at hq
      obtain ⟨r, hr, f, hf, rfl⟩ := hq
      exact ⟨r, hr, he⟩

/-- C65 fails for every struct that has its field `Namespace` from an embedded struct: the value of
that field is never used. The namespace is a placeholder such as `<main.Base Value>`, or the field is
not found because there are several. -/
theorem c65_promoted_refuted (c : Ctl) (hm : c.nsMethod = none)
    (hf : ∀ f ∈ c.fields, f.name ≠ b! "Namespace")
    (hk : ∀ f ∈ c.fields, f.sub ≠ none → f.isStr = false) :
    resolveStructNamespace c = none ∨ ∃ g typ l, g ∈ c.fields ∧ g.sub = some (typ, l) ∧
      resolveStructNamespace c = some (b! "<" ++ typ ++ b! " Value>") := by
  have he : (c.fields.zipIdx.map (fun p => (p.2, p.1))).filter (fun p => p.2.name = b! "Namespace") = [] := by
    rw [List.filter_eq_nil_iff]
    intro p hp
    simp only [List.mem_map] at hp
    obtain ⟨q, hq, rfl⟩ := hp
    simpa using hf _ (List.fst_mem_of_mem_zipIdx hq)
  unfold resolveStructNamespace
  rw [hm]
  dsimp only
  simp only [fieldByName]
  rw [he]
  dsimp only
  split
  · rename_i i f hfound
    obtain ⟨q, hq, hqi⟩ := fieldByName_idx hfound
    simp only [List.mem_flatMap, List.mem_map] at hq
    obtain ⟨r, ⟨⟨g, j⟩, hg, rfl⟩, f', hf', rfl⟩ := hq
    dsimp only at hqi hf'
    subst hqi
    have hget : c.fields[j]? = some g := by
      have := List.mem_zipIdx_iff_getElem?.mp hg
      simpa using this
    split
    · rw [hget]
      right
      have hmem : g ∈ c.fields := List.mem_of_getElem? hget
      cases hs : g.sub with
      | none => simp [SField.fields, hs] at hf'
      | some x =>
        obtain ⟨typ, l⟩ := x
        refine ⟨g, typ, l, hmem, hs, ?_⟩
        simp [reflectString, hk g hmem (by rw [hs]; simp), hs]
    · exact .inl rfl
  · exact .inl rfl

/-- C65, the case that goes wrong: `struct { Base; Name string }` where `Base` has the field
`Namespace` with the value `chat`. -/
theorem c65_promoted_witness_refuted : ∃ c : Ctl, c.nsMethod = none ∧ HasField (b! "Namespace") c.fields ∧
    resolveStructNamespace c = some (b! "<main.Base Value>") :=
  ⟨⟨none, [.mk (b! "Base") false [] (some (b! "main.Base", [.mk (b! "Namespace") true (b! "chat") none])),
      .mk (b! "Name") true (b! "x") none]⟩, rfl,
    .sub (f := .mk (b! "Base") false [] (some (b! "main.Base", [.mk (b! "Namespace") true (b! "chat") none])))
      (by simp) (.here (f := .mk (b! "Namespace") true (b! "chat") none) (by simp [SField.fields, SField.sub]) rfl),
    by decide +kernel⟩

example : let c : Ctl := ⟨none, [.mk (b! "Name") true (b! "x") none, .mk (b! "Namespace") true (b! "chat") none]⟩
    c.fields.filter (fun g => g.name = b! "Namespace") = [.mk (b! "Namespace") true (b! "chat") none] ∧
      resolveStructNamespace c = some (b! "chat") :=
  ⟨rfl, by decide +kernel⟩

/-! ## C66 -/

theorem lastSet_snoc {α : Type} (get : StructOp → Option α) (ops : List StructOp) (o : StructOp) (d : α) :
    lastSet get (ops ++ [o]) d = (get o).getD (lastSet get ops d) := by
  unfold lastSet
  rw [List.filterMap_append]
  cases h : get o with
  | none => simp [h]
  | some x => simp [h]

/-- a `Struct` after the calls -/
def StructH.run (c : Ctl) (ops : List StructOp) : StructH := ops.foldl (StructH.step c) {}

theorem events_fields (s : StructH) : s.events.1.ns = s.ns ∧ s.events.1.matcher = s.matcher ∧
    s.events.1.injector = s.injector ∧ s.events.1.read = s.read ∧ s.events.1.write = s.write ∧
    s.events.1.built = some (s.built.getD (s.matcher, s.injector)) := by
  unfold StructH.events
  cases h : s.built with
  | none => simp
  | some e => simp [h]

theorem getNamespaces_ns (c : Ctl) (s : StructH) :
    (s.getNamespaces c).2.1 = if s.ns = [] then (resolveStructNamespace c).getD [] else s.ns := by
  unfold StructH.getNamespaces
  dsimp only
  rw [(events_fields _).1]
  split <;> rfl

theorem getNamespaces_fields (c : Ctl) (s : StructH) :
    (s.getNamespaces c).1.ns = (if s.ns = [] then (resolveStructNamespace c).getD [] else s.ns) ∧
      (s.getNamespaces c).1.matcher = s.matcher ∧ (s.getNamespaces c).1.injector = s.injector ∧
      (s.getNamespaces c).1.read = s.read ∧ (s.getNamespaces c).1.write = s.write ∧
      (s.getNamespaces c).1.built = some (s.built.getD (s.matcher, s.injector)) := by
  unfold StructH.getNamespaces
  dsimp only
  obtain ⟨h1, h2, h3, h4, h5, h6⟩ := events_fields
    (if s.ns = [] then { s with ns := (resolveStructNamespace c).getD [] } else s)
  rw [h1, h2, h3, h4, h5, h6]
  split <;> simp

theorem calls_ind {α : Type} {P : List α → Prop} (nil : P []) (snoc : ∀ l a, P l → P (l ++ [a])) (l : List α) :
    P l := by
  rw [← List.reverse_reverse l]
  induction l.reverse with
  | nil => exact nil
  | cons a t ih => rw [List.reverse_cons]; exact snoc _ _ ih

theorem events_snd (s : StructH) : s.events.2 = s.built.getD (s.matcher, s.injector) := by
  unfold StructH.events
  cases s.built <;> rfl

theorem any_snoc (ops : List StructOp) (o : StructOp) : (ops ++ [o]).any BuildsEvents = (ops.any BuildsEvents || BuildsEvents o) := by
  simp

theorem beforeUse_snoc (ops : List StructOp) (o : StructOp) :
    beforeUse (ops ++ [o]) = if ops.any BuildsEvents then beforeUse ops else if BuildsEvents o then ops else ops ++ [o] := by
  unfold beforeUse
  induction ops with
  | nil => cases h : BuildsEvents o <;> simp [h]
  | cons a t ih =>
    simp only [List.cons_append, List.takeWhile_cons, List.any_cons]
    cases h : BuildsEvents a with
    | true => simp
    | false =>
      simp only [Bool.not_false, if_true, Bool.false_or]
      rw [ih]
      split
      · rfl
      · split <;> rfl

/-- the settings after the calls, without the result of `GetNamespaces` -/
theorem settings_run (c : Ctl) (ops : List StructOp) :
    let s := StructH.run c ops
    (s.built = if ops.any BuildsEvents then
        some (lastSet matcherOf (beforeUse ops) none, lastSet injectorOf (beforeUse ops) none) else none) ∧
      s.matcher = lastSet matcherOf ops none ∧ s.injector = lastSet injectorOf ops none ∧
      (s.read, s.write) = lastSet timeoutsOf ops (0, 0) ∧
      (if s.ns = [] then (resolveStructNamespace c).getD [] else s.ns) =
        (if lastSet nsOf ops [] = [] then (resolveStructNamespace c).getD [] else lastSet nsOf ops []) := by
  induction ops using calls_ind with
  | nil => exact ⟨rfl, rfl, rfl, rfl, rfl⟩
  | snoc ops o ih =>
    intro s
    have hs : s = (StructH.run c ops).step c o := by
      show StructH.run c (ops ++ [o]) = _
      unfold StructH.run
      rw [List.foldl_append]; rfl
    clear_value s
    subst hs
    revert ih
    generalize StructH.run c ops = s
    rintro ⟨h1, h2, h3, h4, h5⟩
    simp only [any_snoc, beforeUse_snoc, lastSet_snoc]
    cases o with
    | setNamespace ns =>
      refine ⟨?_, h2, h3, h4, rfl⟩
      simp only [StructH.step, BuildsEvents, Bool.or_false]
      rw [h1]
      split <;> rfl
    | setMatcher m =>
      refine ⟨?_, rfl, h3, h4, h5⟩
      simp only [StructH.step, BuildsEvents, Bool.or_false]
      rw [h1]
      split <;> rfl
    | setTimeouts r w =>
      refine ⟨?_, h2, h3, rfl, h5⟩
      simp only [StructH.step, BuildsEvents, Bool.or_false]
      rw [h1]
      split <;> rfl
    | setInjector j =>
      refine ⟨?_, h2, rfl, h4, h5⟩
      simp only [StructH.step, BuildsEvents, Bool.or_false]
      rw [h1]
      split <;> rfl
    | events =>
      obtain ⟨k1, k2, k3, k4, k5, k6⟩ := events_fields s
      refine ⟨?_, k2.trans h2, k3.trans h3, ?_, ?_⟩
      · show s.events.1.built = _
        rw [k6, h1, h2, h3]
        simp only [BuildsEvents, Bool.or_true, if_true]
        by_cases hu : ops.any BuildsEvents = true
        · simp [hu]
        · rw [if_neg hu, if_neg hu]; rfl
      · show (s.events.1.read, s.events.1.write) = _
        rw [k4, k5]; exact h4
      · show (if s.events.1.ns = [] then _ else s.events.1.ns) = _
        rw [k1]; exact h5
    | getNamespaces =>
      obtain ⟨k1, k2, k3, k4, k5, k6⟩ := getNamespaces_fields c s
      refine ⟨?_, k2.trans h2, k3.trans h3, ?_, ?_⟩
      · show (s.getNamespaces c).1.built = _
        rw [k6, h1, h2, h3]
        simp only [BuildsEvents, Bool.or_true, if_true]
        by_cases hu : ops.any BuildsEvents = true
        · simp [hu]
        · rw [if_neg hu, if_neg hu]; rfl
      · show ((s.getNamespaces c).1.read, (s.getNamespaces c).1.write) = _
        rw [k4, k5]; exact h4
      · show (if (s.getNamespaces c).1.ns = [] then _ else (s.getNamespaces c).1.ns) = _
        rw [k1, h5]
        show _ = if (nsOf .getNamespaces).getD (lastSet nsOf ops []) = [] then _ else _
        simp only [nsOf, Option.getD_none]
        split
        · split <;> simp_all
        · simp_all

/-- C66: after any calls, the events were built with the matcher and the injector that were set last
before they were built, if they were built at all; the timeouts are those set last; `GetNamespaces`
returns the namespace that was set last, or the one of the controller if that is empty. -/
theorem c66_settings (c : Ctl) (ops : List StructOp) :
    let s := StructH.run c ops
    (s.built = if ops.any BuildsEvents then
        some (lastSet matcherOf (beforeUse ops) none, lastSet injectorOf (beforeUse ops) none) else none) ∧
      s.matcher = lastSet matcherOf ops none ∧ s.injector = lastSet injectorOf ops none ∧
      (s.read, s.write) = lastSet timeoutsOf ops (0, 0) ∧
      (s.getNamespaces c).2.1 = (if lastSet nsOf ops [] = [] then (resolveStructNamespace c).getD []
        else lastSet nsOf ops []) ∧
      (s.getNamespaces c).2.2 = s.built.getD (s.matcher, s.injector) := by
  intro s
  obtain ⟨h1, h2, h3, h4, h5⟩ := settings_run c ops
  refine ⟨h1, h2, h3, h4, (getNamespaces_ns c _).trans h5, ?_⟩
  unfold StructH.getNamespaces
  dsimp only
  rw [events_snd]
  split <;> rfl

/-- A matcher that is set after `GetNamespaces` is ignored, a namespace is not. -/
example : let ops : List StructOp := [.setMatcher (some (eventPrefixMatcher (b! "On"))), .getNamespaces,
      .setMatcher none, .setNamespace (b! "chat")]
    let s := StructH.run ⟨none, []⟩ ops
    s.matcher.isNone = true ∧ (s.built.map (fun e => e.1.isSome)) = some true ∧
      (s.getNamespaces ⟨none, []⟩).2.1 = b! "chat" := by
  decide +kernel

end Neffos
