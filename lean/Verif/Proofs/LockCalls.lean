import Verif.Proofs.Locks
import Verif.Spec.LockCalls
/-! The connections are closed one after the other: an order of the locks that grows. -/
set_option autoImplicit false
namespace Neffos
namespace LockCalls
open Spec

/-- the how-manieth connection that was closed; the newest comes first in the list -/
def age : List Nat → Nat → Nat
  | [], _ => 0
  | e :: cl, c => if c ∈ cl then age cl c else if c = e then cl.length else cl.length + 1

theorem age_cons {e : Nat} {cl : List Nat} {c : Nat} :
    age (e :: cl) c = if c ∈ cl then age cl c else if c = e then cl.length else cl.length + 1 := rfl

theorem age_lt : ∀ {cl : List Nat} {c : Nat}, c ∈ cl → age cl c < cl.length
  | [], _, h => by cases h
  | e :: cl, c, h => by
    unfold age
    split
    · have := age_lt ‹_›; simp only [List.length_cons]; omega
    · have : c = e := (List.mem_cons.mp h).resolve_right ‹_›
      simp only [this, if_true, List.length_cons]; omega

theorem age_open : ∀ {cl : List Nat} {c : Nat}, c ∉ cl → age cl c = cl.length
  | [], _, _ => rfl
  | e :: cl, c, h => by
    have h1 : c ∉ cl := fun h' => h (List.mem_cons_of_mem _ h')
    have h2 : c ≠ e := fun h' => h (by simp [h'])
    simp [age, h1, h2]

theorem age_le {cl : List Nat} {c : Nat} : age cl c ≤ cl.length := by
  by_cases h : c ∈ cl
  · exact Nat.le_of_lt (age_lt h)
  · exact Nat.le_of_eq (age_open h)

theorem age_keep {cl : List Nat} {c : Nat} (l : List Nat) (h : c ∈ cl) : age (l ++ cl) c = age cl c := by
  induction l with
  | nil => rfl
  | cons e l ih =>
    have : c ∈ l ++ cl := List.mem_append_right _ h
    simp only [List.cons_append, age, this, if_true]; exact ih

theorem age_grow {cl : List Nat} {c : Nat} (l : List Nat) : age cl c ≤ age (l ++ cl) c := by
  by_cases h : c ∈ cl
  · exact Nat.le_of_eq (age_keep l h).symm
  · induction l with
    | nil => exact Nat.le_refl _
    | cons e l ih =>
      rw [List.cons_append, age_cons]
      split
      · exact ih
      · rename_i hn
        have hn := age_open hn
        split <;> omega

theorem age_new {cl : List Nat} {c : Nat} (h : c ∉ cl) : age (c :: cl) c = cl.length := by simp [age, h]

def rank (cl : List Nat) : Res → Nat
  | .queue _ => 0
  | .loop => 1
  | .bmu => 2
  | .ns c => 3 + 2 * age cl c
  | .rooms c _ => 4 + 2 * age cl c

/-- if it belongs to a connection, that one is closed -/
def Shut (cl : List Nat) : Res → Prop
  | .ns c => c ∈ cl
  | .rooms c _ => c ∈ cl
  | _ => True

theorem shut_grow {cl : List Nat} {r : Res} (l : List Nat) (h : Shut cl r) : Shut (l ++ cl) r := by
  cases r <;> first | exact List.mem_append_right _ h | trivial

theorem rank_keep {cl : List Nat} {r : Res} (l : List Nat) (h : Shut cl r) : rank (l ++ cl) r = rank cl r := by
  cases r <;> simp only [rank] <;> (rw [age_keep l h])

theorem rank_grow {cl : List Nat} {r : Res} (l : List Nat) : rank cl r ≤ rank (l ++ cl) r := by
  cases r with
  | ns c => have := age_grow (cl := cl) (c := c) l; simp only [rank]; omega
  | rooms c n => have := age_grow (cl := cl) (c := c) l; simp only [rank]; omega
  | _ => exact Nat.le_refl _

abbrev Held := List (Res × Bool)

/-- what is known about the locks of somebody who takes another one -/
structure Base (held : Held) (cl : List Nat) : Prop where
  shut : ∀ h ∈ held, Shut cl h.1
  mine : ∀ c n b, (Res.rooms c n, b) ∈ held → (Res.ns c, true) ∈ held

/-- with `held`, `r` may be taken -/
structure Fits (cl : List Nat) (held : Held) (r : Res) : Prop where
  base : Base held cl
  up : ∀ h ∈ held, rank cl h.1 < rank cl r ∨
    ∃ c n m, h.1 = .rooms c n ∧ r = .rooms c m ∧ (Res.ns c, true) ∈ held
  fresh : ∀ b, (r, b) ∉ held

theorem Base.grow {held : Held} {cl : List Nat} (l : List Nat) (h : Base held cl) : Base held (l ++ cl) :=
  ⟨fun x hx => shut_grow l (h.shut x hx), h.mine⟩

theorem Fits.grow {held : Held} {cl : List Nat} {r : Res} (l : List Nat) (h : Fits cl held r) : Fits (l ++ cl) held r := by
  refine ⟨h.base.grow l, fun x hx => ?_, h.fresh⟩
  rcases h.up x hx with hu | hu
  · left
    have := rank_keep l (h.base.shut x hx)
    have := rank_grow (cl := cl) (r := r) l
    omega
  · exact .inr hu

/-- the program takes the locks in this order -/
def Fine : Prog → Held → List Nat → Prop
  | .done, held, _ => held = []
  | .lock r p, held, cl => Fits cl held r ∧ Fine p ((r, true) :: held) cl
  | .rlock r p, held, cl => Fits cl held r ∧ Fine p ((r, false) :: held) cl
  | .unlock r p, held, cl => ∃ h, held = (r, true) :: h ∧ Fine p h cl
  | .runlock r p, held, cl => ∃ h, held = (r, false) :: h ∧ Fine p h cl
  | .ifOpen c p q, held, cl => (∀ l, c ∉ l ++ cl → Fine p held (l ++ cl)) ∧ Fine q held cl
  | .cas c p q, held, cl => (∀ l, c ∉ l ++ cl → Fine p held (c :: (l ++ cl))) ∧ Fine q held cl

theorem fine_grow {p : Prog} : ∀ {held : Held} {cl : List Nat} (l : List Nat), Fine p held cl → Fine p held (l ++ cl) := by
  induction p with
  | done => intro held cl l h; exact h
  | lock r p ih => intro held cl l h; exact ⟨h.1.grow l, ih l h.2⟩
  | rlock r p ih => intro held cl l h; exact ⟨h.1.grow l, ih l h.2⟩
  | unlock r p ih => intro held cl l h; obtain ⟨h', e, h⟩ := h; exact ⟨h', e, ih l h⟩
  | runlock r p ih => intro held cl l h; obtain ⟨h', e, h⟩ := h; exact ⟨h', e, ih l h⟩
  | ifOpen c p q ih1 ih2 =>
    intro held cl l h
    refine ⟨fun l' hc => ?_, ih2 l h.2⟩
    rw [← List.append_assoc] at hc ⊢
    exact h.1 _ hc
  | cas c p q ih1 ih2 =>
    intro held cl l h
    refine ⟨fun l' hc => ?_, ih2 l h.2⟩
    rw [← List.append_assoc] at hc ⊢
    exact h.1 _ hc

variable {held : Held} {cl : List Nat} {p q : Prog} {c d n m : Nat}

theorem fine_read {r : Res} (h : Fits cl held r) (hp : Fine p held cl) : Fine (.read r p) held cl := ⟨h, held, rfl, hp⟩

theorem fine_touch {r : Res} (h : Fits cl held r) (hp : Fine p held cl) : Fine (.touch r p) held cl := ⟨h, held, rfl, hp⟩

/-- the locks of a connection that is open come after all that are held -/
theorem fits_open {r : Res} (hb : Base held cl) (hr : r = .ns d ∨ ∃ m, r = .rooms d m) (hd : d ∉ cl) : Fits cl held r := by
  have ha := age_open hd
  have hlow : 3 + 2 * cl.length ≤ rank cl r := by rcases hr with rfl | ⟨m, rfl⟩ <;> simp only [rank] <;> omega
  refine ⟨hb, fun x hx => .inl ?_, fun b hx => ?_⟩
  · have hs := hb.shut x hx
    generalize x.1 = y at hs
    cases y with
    | ns c => have := age_lt (show c ∈ cl from hs); show 3 + 2 * age cl c < rank cl r; omega
    | rooms c n => have := age_lt (show c ∈ cl from hs); show 4 + 2 * age cl c < rank cl r; omega
    | queue => show 0 < rank cl r; omega
    | loop => show 1 < rank cl r; omega
    | bmu => show 2 < rank cl r; omega
  · have hs := hb.shut _ hx
    rcases hr with rfl | ⟨m, rfl⟩ <;> exact hd hs

/-- with nothing of a connection held -/
theorem fits_low {r : Res} {k : Nat} (hk : k ≤ 3) (h : ∀ x ∈ held, rank cl x.1 < k) (hr : k ≤ rank cl r) : Fits cl held r := by
  refine ⟨⟨fun x hx => ?_, fun c n b hx => ?_⟩, fun x hx => .inl (Nat.lt_of_lt_of_le (h x hx) hr), fun b hx => ?_⟩
  · have := h x hx
    generalize x.1 = y at this
    cases y <;> first | trivial | (simp only [rank] at this; omega)
  · have := h _ hx; simp only [rank] at this; omega
  · have := h _ hx; dsimp only at this; omega

theorem base_low {k : Nat} (hk : k ≤ 3) (h : ∀ x ∈ held, rank cl x.1 < k) : Base held cl := by
  refine ⟨fun x hx => ?_, fun c n b hx => ?_⟩
  · have := h x hx
    generalize x.1 = y at this
    cases y <;> first | trivial | (simp only [rank] at this; omega)
  · have := h _ hx; simp only [rank] at this; omega

/-- connection `c` is being closed by us -/
structure Closer (c : Nat) (held : Held) (cl : List Nat) : Prop where
  base : Base held cl
  closed : c ∈ cl
  has : (Res.ns c, true) ∈ held
  below : ∀ h ∈ held, rank cl h.1 < 4 + 2 * age cl c

theorem Closer.grow (l : List Nat) (h : Closer c held cl) : Closer c held (l ++ cl) :=
  ⟨h.base.grow l, List.mem_append_right _ h.closed, h.has, fun x hx => by
    rw [rank_keep l (h.base.shut x hx), age_keep l h.closed]; exact h.below x hx⟩

theorem Closer.room (h : Closer c held cl) : Fits cl held (.rooms c m) :=
  ⟨h.base, fun x hx => .inl (h.below x hx), fun b hx => by have := h.below _ hx; simp [rank] at this⟩

theorem Closer.inRoom (h : Closer c held cl) : Base ((Res.rooms c n, true) :: held) cl := by
  refine ⟨fun x hx => ?_, fun c' n' b hx => ?_⟩
  · rcases List.mem_cons.mp hx with rfl | hx
    · exact h.closed
    · exact h.base.shut x hx
  · rcases List.mem_cons.mp hx with e | hx
    · cases e; exact List.mem_cons_of_mem _ h.has
    · exact List.mem_cons_of_mem _ (h.base.mine _ _ _ hx)

theorem Closer.sibling (h : Closer c held cl) (hm : m ≠ n) : Fits cl ((Res.rooms c n, true) :: held) (.rooms c m) := by
  refine ⟨h.inRoom, fun x hx => ?_, fun b hx => ?_⟩
  · rcases List.mem_cons.mp hx with rfl | hx
    · exact .inr ⟨c, n, m, rfl, rfl, List.mem_cons_of_mem _ h.has⟩
    · exact .inl (h.below x hx)
  · rcases List.mem_cons.mp hx with e | hx
    · cases e; exact hm rfl
    · have := h.below _ hx; simp [rank] at this

/-- where a callback runs: what it holds -/
def At (own : Option (Nat × Nat)) (held : Held) (cl : List Nat) : CbSite → Prop
  | .plain => ∀ h ∈ held, rank cl h.1 < 1
  | .queued => ∀ h ∈ held, rank cl h.1 < 1
  | .loop => ∀ h ∈ held, rank cl h.1 < 2
  | .leaving => True
  | .closing _ => ∃ c n, own = some (c, n) ∧ Closer c held cl
  | .closingRooms _ => ∃ c n h, own = some (c, n) ∧ held = (.rooms c n, true) :: h ∧ Closer c h cl

theorem low_grow {k : Nat} (hk : k ≤ 3) (l : List Nat) (h : ∀ x ∈ held, rank cl x.1 < k) :
    ∀ x ∈ held, rank (l ++ cl) x.1 < k := fun x hx => by
  rw [rank_keep l ((base_low hk h).shut x hx)]; exact h x hx

theorem fine_write {roomy : Bool} (hb : Base held cl)
    (hp : ∀ l, Fine p held (l ++ cl)) (hq : Fine q held cl) :
    Fine (oneCall (if roomy then .roomEmit else .emit) d m p q) held cl := by
  cases roomy with
  | false =>
    exact ⟨fun l hd => fine_read (fits_open (hb.grow l) (.inl rfl) hd) (hp l), hq⟩
  | true =>
    exact ⟨fun l hd => fine_read (fits_open (hb.grow l) (.inl rfl) hd)
      (fine_read (fits_open (hb.grow l) (.inr ⟨m, rfl⟩) hd) (hp l)), hq⟩

/-- the locks that somebody holds who makes safe calls -/
theorem At.base {own : Option (Nat × Nat)} {at_ : CbSite} {k : ApiKind} {a : About} (h : At own held cl at_)
    (hs : safeX at_ k a = true) : Base held cl := by
  cases at_ with
  | plain => exact base_low (by decide) h
  | queued => exact base_low (by decide) h
  | loop => exact base_low (by decide) h
  | leaving => cases hs
  | closing x => obtain ⟨c, n, _, h⟩ := h; exact h.base
  | closingRooms x => obtain ⟨c, n, h', _, e, h⟩ := h; rw [e]; exact h.inRoom

theorem At.grow {own : Option (Nat × Nat)} {at_ : CbSite} (l : List Nat) (h : At own held cl at_) :
    At own held (l ++ cl) at_ := by
  cases at_ with
  | plain => exact low_grow (by decide) l h
  | queued => exact low_grow (by decide) l h
  | loop => exact low_grow (by decide) l h
  | leaving => trivial
  | closing x => obtain ⟨c, n, e, h⟩ := h; exact ⟨c, n, e, h.grow l⟩
  | closingRooms x => obtain ⟨c, n, h', e1, e, h⟩ := h; exact ⟨c, n, h', e1, e, h.grow l⟩

/-- one safe call -/
theorem fine_one {own : Option (Nat × Nat)} {at_ : CbSite} {k : ApiKind} (h : At own held cl at_)
    (hs : safeX at_ k (aboutOf own d m) = true) (hp : k = .emit ∨ k = .roomEmit → ∀ l, Fine p held (l ++ cl))
    (hq : Fine q held cl) : Fine (oneCall k d m p q) held cl := by
  have low : ∀ {j : Nat} {r : Res}, j ≤ 3 → (∀ x ∈ held, rank cl x.1 < j) → j ≤ rank cl r → Fits cl held r :=
    fun h1 h2 h3 => fits_low h1 h2 h3
  have hb := h.base hs
  cases k with
  | emit => exact fine_write (roomy := false) hb (hp (.inl rfl)) hq
  | roomEmit => exact fine_write (roomy := true) hb (hp (.inr rfl)) hq
  | room =>
    refine fine_read ?_ hq
    cases at_ with
    | plain => exact low (j := 1) (by decide) h (by simp only [rank]; omega)
    | queued => exact low (j := 1) (by decide) h (by simp only [rank]; omega)
    | loop => exact low (j := 2) (by decide) h (by simp only [rank]; omega)
    | leaving => cases hs
    | closing x =>
      obtain ⟨c, n, e, h⟩ := h
      subst e
      have : d = c := by
        apply Classical.byContradiction
        intro hd
        simp [safeX, aboutOf, hd] at hs
      subst this
      exact h.room
    | closingRooms x =>
      obtain ⟨c, n, h', e, e', h⟩ := h
      subst e; subst e'
      have : d = c ∧ m ≠ n := by
        apply Classical.byContradiction
        intro hd
        by_cases h1 : d = c
        · have : m = n := Classical.byContradiction (fun h2 => hd ⟨h1, h2⟩)
          simp [safeX, aboutOf, h1, this] at hs
        · simp [safeX, aboutOf, h1] at hs
      obtain ⟨rfl, hm⟩ := this
      exact h.sibling hm
  | nsp =>
    refine fine_read ?_ hq
    cases at_ with
    | plain => exact low (j := 1) (by decide) h (by simp only [rank]; omega)
    | queued => exact low (j := 1) (by decide) h (by simp only [rank]; omega)
    | loop => exact low (j := 2) (by decide) h (by simp only [rank]; omega)
    | leaving => cases hs
    | closing x => simp [safeX] at hs
    | closingRooms x => simp [safeX] at hs
  | cast =>
    refine fine_touch ?_ hq
    cases at_ with
    | plain => exact low (j := 1) (by decide) h (by simp only [rank]; omega)
    | queued => exact low (j := 1) (by decide) h (by simp only [rank]; omega)
    | loop => exact low (j := 2) (by decide) h (by simp only [rank]; omega)
    | leaving => cases hs
    | closing x => simp [safeX] at hs
    | closingRooms x => simp [safeX] at hs
  | sync =>
    refine fine_touch ?_ hq
    cases at_ with
    | plain => exact low (j := 1) (by decide) h (by simp only [rank]; omega)
    | queued => exact low (j := 1) (by decide) h (by simp only [rank]; omega)
    | loop => simp [safeX] at hs
    | leaving => cases hs
    | closing x => simp [safeX] at hs
    | closingRooms x => simp [safeX] at hs
  | act =>
    refine fine_touch ?_ hq
    cases at_ with
    | plain => exact low (j := 1) (by decide) h (by simp only [rank]; omega)
    | queued => exact low (j := 1) (by decide) h (by simp only [rank]; omega)
    | loop => simp [safeX] at hs
    | leaving => cases hs
    | closing x => simp [safeX] at hs
    | closingRooms x => simp [safeX] at hs

def Safe (us : List Use) : Prop := ∀ u ∈ us, safeX u.1 u.2.1 u.2.2 = true

/-- `Close`, if the namespaces are fine -/
theorem fine_shut {ends : Prog → Prog} (hb : Base held cl) (hp : Fine p held cl)
    (he : ∀ {held' cl' p'}, Closer c held' cl' → Fine p' held' cl' → Fine (ends p') held' cl') :
    Fine (shutProg c ends p) held cl := by
  refine ⟨fun l hc => ?_, hp⟩
  have hb' := hb.grow l
  have hn := age_new hc
  have hcl : ∀ x ∈ held, rank (c :: (l ++ cl)) x.1 < 3 + 2 * age (c :: (l ++ cl)) c := by
    intro x hx
    have hs := hb'.shut x hx
    rw [hn]
    rw [show rank (c :: (l ++ cl)) x.1 = rank (l ++ cl) x.1 from rank_keep [c] hs]
    have := (fits_open (r := .ns c) hb' (.inl rfl) hc).up x hx
    rcases this with h | ⟨_, _, _, _, h, _⟩
    · simpa only [rank, age_open hc] using h
    · cases h
  have hbc : Base held (c :: (l ++ cl)) := hb'.grow [c]
  refine ⟨⟨hbc, fun x hx => .inl (hcl x hx), fun b hx => ?_⟩, he ⟨⟨fun x hx => ?_, fun c' n b hx => ?_⟩, ?_, ?_, fun x hx => ?_⟩ ?_⟩
  · have := hcl _ hx; simp only [rank] at this; omega
  · rcases List.mem_cons.mp hx with rfl | hx
    · exact List.mem_cons_self
    · exact hbc.shut x hx
  · rcases List.mem_cons.mp hx with e | hx
    · cases e
    · exact List.mem_cons_of_mem _ (hbc.mine _ _ _ hx)
  · exact List.mem_cons_self
  · exact List.mem_cons_self
  · rcases List.mem_cons.mp hx with rfl | hx
    · simp only [rank]; omega
    · have := hcl x hx; omega
  · refine ⟨held, rfl, ?_⟩
    have := fine_grow (c :: l) hp
    simpa using this

mutual
theorem fine_calls : ∀ (cs : CbCalls) {own : Option (Nat × Nat)} {at_ : CbSite} {x : Ctx} {held : Held} {cl : List Nat}
    {p : Prog}, At own held cl at_ → Safe (callsUses cs at_ own x) → Fine p held cl → Fine (cs.prog p) held cl
  | .done, _, _, _, _, _, _, _, _, hp => by rw [CbCalls.prog]; exact hp
  | .call k d m fails es rest, own, at_, x, held, cl, p, h, hu, hp => by
    rw [CbCalls.prog]
    rw [callsUses] at hu
    have hs : safeX at_ k (aboutOf own d m) = true := hu (at_, k, aboutOf own d m) (by simp)
    have hr := fine_calls rest (x := x) h (fun u hx => hu u (by simp [hx])) hp
    refine fine_one h hs (fun hk l => ?_) hr
    split
    · rename_i hf
      have he : Safe (endsUses es d x) := fun u hx => hu u (by
        have : (fails && (decide (k = .emit) || decide (k = .roomEmit))) = true := by
          rcases hk with rfl | rfl <;> simp [hf]
        simp [this, hx])
      exact fine_shut ((h.base hs).grow l) (fine_grow l hr) (fun hc hp' => fine_ends es hc he hp')
    · exact fine_grow l hr

theorem fine_ends : ∀ (es : NsEnds) {c : Nat} {x : Ctx} {held : Held} {cl : List Nat} {p : Prog}, Closer c held cl →
    Safe (endsUses es c x) → Fine p held cl → Fine (es.prog c p) held cl
  | .done, _, _, _, _, _, _, _, hp => by rw [NsEnds.prog]; exact hp
  | .ns n rooms ns rest, c, x, held, cl, p, h, hu, hp => by
    rw [NsEnds.prog]
    rw [endsUses] at hu
    refine ⟨h.room, ?_⟩
    refine fine_calls rooms (own := some (c, n)) (at_ := .closingRooms x) (x := x) ⟨c, n, held, rfl, rfl, h⟩
      (fun u hx => hu u (by simp [hx])) ⟨held, rfl, ?_⟩
    exact fine_calls ns (own := some (c, n)) (at_ := .closing x) (x := x) ⟨c, n, rfl, h⟩
      (fun u hx => hu u (by simp [hx])) (fine_ends rest (x := x) h (fun u hx => hu u (by simp [hx])) hp)
end

theorem fine_close {es : NsEnds} {x : Ctx} (hb : Base held cl) (hu : Safe (endsUses es c x)) (hp : Fine p held cl) :
    Fine (shutProg c (es.prog c) p) held cl :=
  fine_shut hb hp (fun hc hp' => fine_ends es hc hu hp')

theorem fine_doing {a : Doing} {at_ : CbSite} (hat : at_ = .plain ∨ at_ = .queued) (h : ∀ x ∈ held, rank cl x.1 < 1)
    (hu : Safe (doingUses at_ a)) (hp : Fine p held cl) : Fine (a.prog p) held cl := by
  unfold Doing.prog
  unfold doingUses at hu
  split
  · rename_i hl
    rw [if_pos hl] at hu
    refine ⟨fits_low (k := 1) (by decide) h (by simp [rank]), ?_⟩
    refine fine_calls a.cs (own := none) (at_ := .loop) (x := .loop) (fun x hx => ?_)
      (fun u hx => hu u (List.mem_cons_of_mem _ hx)) ⟨held, rfl, hp⟩
    rcases List.mem_cons.mp hx with rfl | hx
    · simp [rank]
    · have := h x hx; omega
  · rename_i hl
    rw [if_neg hl] at hu
    refine fine_calls a.cs (own := none) (at_ := at_) (x := .free) ?_ hu hp
    rcases hat with rfl | rfl <;> exact h

theorem fine_doings {acts : List Doing} {at_ : CbSite} (hat : at_ = .plain ∨ at_ = .queued)
    (h : ∀ x ∈ held, rank cl x.1 < 1) (hu : Safe (acts.flatMap (doingUses at_))) (hp : Fine p held cl) :
    Fine (acts.foldr Doing.prog p) held cl := by
  induction acts with
  | nil => exact hp
  | cons a acts ih =>
    exact fine_doing hat h (fun u hx => hu u (by rw [List.flatMap_cons]; exact List.mem_append_left _ hx))
      (ih (fun u hx => hu u (by rw [List.flatMap_cons]; exact List.mem_append_right _ hx)))

theorem fine_pubs {ws : List Pub} {x : Ctx} (hb : Base held cl) (hu : Safe (ws.flatMap (pubUses x)))
    (hp : Fine p held cl) : Fine (ws.foldr Pub.prog p) held cl := by
  induction ws with
  | nil => exact hp
  | cons w ws ih =>
    have ih := ih (fun u hx => hu u (by rw [List.flatMap_cons]; exact List.mem_append_right _ hx))
    have hw : Safe (pubUses x w) := fun u hx => hu u (by rw [List.flatMap_cons]; exact List.mem_append_left _ hx)
    rw [List.foldr_cons]
    refine fine_write hb (fun l => ?_) ih
    split
    · rename_i hf
      rw [pubUses, if_pos hf] at hw
      exact fine_close (hb.grow l) hw (fine_grow l ih)
    · exact fine_grow l ih

theorem fine_gor {g : GorX} (hu : Safe (usesX g)) : Fine g.prog [] cl := by
  have nil : ∀ {k : Nat}, ∀ x ∈ ([] : Held), rank cl x.1 < k := fun x hx => by cases hx
  have one : ∀ {r : Res} {k : Nat}, rank cl r < k → ∀ x ∈ [(r, true)], rank cl x.1 < k := by
    intro r k h x hx
    rw [List.mem_singleton] at hx
    subst hx; exact h
  have fit : ∀ {r : Res}, Fits cl [] r := fun {r} => fits_low (k := 0) (by decide) nil (Nat.zero_le _)
  cases g with
  | plain acts => exact fine_doings (.inl rfl) nil hu rfl
  | queued c acts => exact ⟨fit, fine_doings (.inr rfl) (one (by simp [rank])) hu ⟨_, rfl, rfl⟩⟩
  | leave c n ks acts =>
    simp only [usesX] at hu
    have hk : ks = .done := by
      cases ks with
      | done => rfl
      | call k d m f es rest =>
        have := hu (.leaving, k, aboutOf (some (c, n)) d m) (by rw [callsUses]; simp)
        cases this
    subst hk
    refine fine_read fit ⟨fit, ?_⟩
    rw [CbCalls.prog]
    exact ⟨_, rfl, fine_touch fit (fine_doings (.inl rfl) nil (fun u hx => hu u (List.mem_append_right _ hx)) rfl)⟩
  | close c es => exact fine_close (base_low (k := 0) (by decide) nil) hu rfl
  | publish ws => exact ⟨fit, fine_pubs (base_low (k := 3) (by decide) (one (by simp [rank]))) hu ⟨_, rfl, rfl⟩⟩
  | loopPublish ws => exact ⟨fit, fine_pubs (base_low (k := 3) (by decide) (one (by simp [rank]))) hu ⟨_, rfl, rfl⟩⟩
  | onDisconnect fn =>
    exact ⟨fit, fine_calls fn (own := none) (at_ := .loop) (x := .loop) (one (by simp [rank])) hu ⟨_, rfl, rfl⟩⟩
  | serverClose cs =>
    refine ⟨fit, ?_⟩
    simp only [usesX] at hu
    induction cs with
    | nil => exact ⟨_, rfl, rfl⟩
    | cons y cs ih =>
      exact fine_close (x := .loop) (base_low (k := 3) (by decide) (one (by simp [rank])))
        (fun u hx => hu u (by rw [List.flatMap_cons]; exact List.mem_append_left _ hx))
        (ih (fun u hx => hu u (by rw [List.flatMap_cons]; exact List.mem_append_right _ hx)))

/-! ## the machine -/

structure Inv (s : LkSt) : Prop where
  fine : ∀ (i : Nat) (t : Thr), s.thr[i]? = some t → Fine t.todo t.held s.closed
  pend : ∀ (i : Nat) (t : Thr), s.thr[i]? = some t → t.pend = true → ∃ r p, t.todo = .lock r p
  /-- a lock is held for writing once -/
  alone : ∀ (i j : Nat) (t u : Thr) (r : Res), s.thr[i]? = some t → s.thr[j]? = some u → (r, true) ∈ t.held →
    (r, true) ∈ u.held → i = j

theorem set_at {α : Type} {l : List α} {i j : Nat} {a b : α} (h : (l.set i a)[j]? = some b) :
    (j = i ∧ b = a) ∨ (j ≠ i ∧ l[j]? = some b) := by
  rw [List.getElem?_set] at h
  split at h
  · split at h
    · cases h; exact .inl ⟨‹i = j›.symm, rfl⟩
    · cases h
  · exact .inr ⟨fun e => ‹¬ i = j› e.symm, h⟩

theorem go_inv {s s' : LkSt} {i : Nat} (hi : Inv s) (h : s.go i = some s') : Inv s' ∧ s'.work < s.work := by
  unfold LkSt.go at h
  split at h
  · cases h
  · rename_i t ht
    have ho := hi.fine i t ht
    have hpn := hi.pend i t ht
    have put : ∀ {u : Thr} (l : List Nat), Fine u.todo u.held (l ++ s.closed) →
        (u.pend = true → ∃ r p, u.todo = .lock r p) → u.work < t.work →
        (∀ r, (r, true) ∈ u.held → (r, true) ∈ t.held ∨ s.thr.any (·.holds r) = false) →
        Inv { s.put i u with closed := l ++ s.closed } ∧ LkSt.work { s.put i u with closed := l ++ s.closed } < s.work := by
      intro u l h1 h2 h3 h4
      refine ⟨⟨fun j v hj => ?_, fun j v hj => ?_, fun j k v w r hj hk hv hw => ?_⟩, ?_⟩
      · rcases lk_set hj with rfl | hj
        · exact h1
        · exact fine_grow l (hi.fine j v hj)
      · rcases lk_set hj with rfl | hj
        · exact h2
        · exact hi.pend j v hj
      · have none : ∀ {k : Nat} {w : Thr}, s.thr[k]? = some w → (r, true) ∈ w.held → s.thr.any (·.holds r) = false → False := by
          intro k w hk hw hn
          have : s.thr.any (·.holds r) = true := List.any_eq_true.mpr ⟨w, List.mem_of_getElem? hk, by
            unfold Thr.holds; rw [show w.held.contains (r, true) = true by simpa using hw]; rfl⟩
          rw [hn] at this; cases this
        rcases set_at hj with ⟨rfl, rfl⟩ | ⟨_, hj2⟩ <;> rcases set_at hk with ⟨rfl, rfl⟩ | ⟨_, hk2⟩
        · rfl
        · rcases h4 r hv with hv | hv
          · exact hi.alone _ _ _ _ r ht hk2 hv hw
          · exact (none hk2 hw hv).elim
        · rcases h4 r hw with hw | hw
          · exact hi.alone _ _ _ _ r hj2 ht hv hw
          · exact (none hj2 hv hw).elim
        · exact hi.alone _ _ _ _ r hj2 hk2 hv hw
      · have := lk_sum_set Thr.work (b := u) ht
        simp only [LkSt.work, LkSt.put]; omega
    have np : (∀ r p, t.todo ≠ .lock r p) → t.work = t.todo.size := by
      intro hn
      unfold Thr.work
      split
      · obtain ⟨r, p, e⟩ := hpn ‹_›; exact absurd e (hn r p)
      · rfl
    split at h
    · cases h
    · rename_i r p e
      rw [e] at ho
      split at h
      · split at h
        · cases h
        · rename_i hany
          cases h
          refine put [] ho.2 (fun h => by cases h) (by simp [Thr.work, Prog.size, *]) (fun r' hr' => ?_)
          rcases List.mem_cons.mp hr' with e' | hr'
          · cases e'; exact .inr (by simpa using hany)
          · exact .inl hr'
      · split at h
        · cases h
        · cases h
          exact put [] (by rw [e]; exact ho) (fun _ => ⟨r, p, e⟩) (by simp [Thr.work, Prog.size, *]) (fun r' hr' => .inl hr')
    · rename_i r p e
      rw [e] at ho np
      obtain ⟨h', eh, ho⟩ := ho
      cases h
      refine put [] ?_ (fun h => by cases h) (by rw [np (by simp)]; simp [Thr.work, Prog.size])
        (fun r' hr' => .inl (List.mem_of_mem_erase hr'))
      rw [eh]; simpa using ho
    · rename_i r p e
      rw [e] at ho np
      split at h
      · cases h
      · cases h
        refine put [] ho.2 (fun h => by cases h) (by rw [np (by simp)]; simp [Thr.work, Prog.size]) (fun r' hr' => ?_)
        rcases List.mem_cons.mp hr' with e' | hr'
        · cases e'
        · exact .inl hr'
    · rename_i r p e
      rw [e] at ho np
      obtain ⟨h', eh, ho⟩ := ho
      cases h
      refine put [] ?_ (fun h => by cases h) (by rw [np (by simp)]; simp [Thr.work, Prog.size])
        (fun r' hr' => .inl (List.mem_of_mem_erase hr'))
      rw [eh]; simpa using ho
    · rename_i c p q e
      rw [e] at ho np
      cases h
      refine put [] ?_ (fun h => by cases h) ?_ (fun r' hr' => .inl hr')
      · dsimp only
        split
        · exact ho.2
        · exact ho.1 [] ‹_›
      · rw [np (by simp)]
        simp only [Thr.work, Prog.size, Bool.false_eq_true, if_false]
        split <;> omega
    · rename_i c p q e
      rw [e] at ho np
      split at h
      · cases h
        exact put [] ho.2 (fun h => by cases h) (by rw [np (by simp)]; simp [Thr.work, Prog.size]; omega) (fun r' hr' => .inl hr')
      · cases h
        exact put [c] (ho.1 [] ‹_›) (fun h => by cases h)
          (by rw [np (by simp)]; simp [Thr.work, Prog.size]; omega) (fun r' hr' => .inl hr')

theorem rank_le {r : Res} : rank cl r ≤ 4 + 2 * cl.length := by
  cases r with
  | ns c => have := age_le (cl := cl) (c := c); simp only [rank]; omega
  | rooms c n => have := age_le (cl := cl) (c := c); simp only [rank]; omega
  | _ => simp only [rank]; omega

/-- if nobody can go on everybody is done -/
theorem all_done {s : LkSt} (hi : Inv s) (hno : ∀ i, s.go i = none) {i : Nat} {t : Thr} (ht : s.thr[i]? = some t) :
    t.todo = .done := by
  have busy : ∀ {j : Nat} {u : Thr} {r : Res}, s.thr[j]? = some u → u.holds r = true →
      ∃ b r' p, (r, b) ∈ u.held ∧ (u.todo = .lock r' p ∨ u.todo = .rlock r' p) ∧ Fits s.closed u.held r' ∧
        ∃ (k : Nat) (v : Thr), s.thr[k]? = some v ∧ v.holds r' = true := by
    intro j u r hu hh
    obtain ⟨b, hb⟩ := held_of hh
    have ho := hi.fine j u hu
    have hd : u.todo ≠ .done := by
      intro e; rw [e] at ho; have : u.held = [] := ho; rw [this] at hb; cases hb
    obtain ⟨r', p', hw, hx⟩ := waits hno hu hd
    refine ⟨b, r', p', hb, hw, ?_, hx⟩
    rcases hw with e | e <;> (rw [e] at ho; exact ho.1)
  have climb : ∀ (m : Nat) {r : Res}, (∃ (j : Nat) (u : Thr), s.thr[j]? = some u ∧ u.holds r = true) →
      5 + 2 * s.closed.length ≤ rank s.closed r + m → False := by
    intro m
    induction m with
    | zero => intro r _ h; have := rank_le (cl := s.closed) (r := r); omega
    | succ m ih =>
      rintro r ⟨j, u, hu, hh⟩ hm
      obtain ⟨b, r', p, hb, _, hf, hx⟩ := busy hu hh
      rcases hf.up _ hb with hup | ⟨c, n, m', e1, e2, hns⟩
      · exact ih hx (by dsimp only at hup; omega)
      · obtain ⟨k, v, hv, hvh⟩ := hx
        obtain ⟨b', r'', p', hb', _, hf', _⟩ := busy hv hvh
        subst e2
        have := hi.alone k j v u _ hv hu (hf'.base.mine _ _ _ hb') hns
        subst this
        rw [hv] at hu
        cases hu
        exact hf.fresh _ hb'
  by_cases hd : t.todo = .done
  · exact hd
  · obtain ⟨r, p, hw, hx⟩ := waits hno ht hd
    exact (climb (5 + 2 * s.closed.length) hx (by omega)).elim

theorem run_inv {s s' : LkSt} {ops : List XOp} (hi : Inv s) (hu : UsesX safeX ops) (h : s.runX ops = some s') : Inv s' := by
  induction ops generalizing s with
  | nil => cases h; exact hi
  | cons op ops ih =>
    simp only [LkSt.runX] at h
    split at h
    · rename_i t ht
      refine ih ?_ (fun g hg => hu g (List.mem_cons_of_mem _ hg)) h
      cases op with
      | go i => exact (go_inv hi ht).1
      | spawn g =>
        cases ht
        have hg := fine_gor (cl := s.closed) (hu g List.mem_cons_self)
        have look : ∀ {i : Nat} {t : Thr}, (s.thr ++ [{ todo := g.prog }])[i]? = some t →
            s.thr[i]? = some t ∨ t = { todo := g.prog } := by
          intro i t ht
          rw [List.getElem?_append] at ht
          split at ht
          · exact .inl ht
          · rw [List.getElem?_singleton] at ht
            split at ht
            · cases ht; exact .inr rfl
            · cases ht
        refine ⟨fun i t ht => ?_, fun i t ht hp => ?_, fun i j t u r ht hu h1 h2 => ?_⟩
        · rcases look ht with ht | rfl
          · exact hi.fine i t ht
          · exact hg
        · rcases look ht with ht | rfl
          · exact hi.pend i t ht hp
          · cases hp
        · rcases look ht with ht | rfl
          · rcases look hu with hu | rfl
            · exact hi.alone i j t u r ht hu h1 h2
            · cases h2
          · cases h1
    · cases h

theorem run_short {s s' : LkSt} {is : List Nat} (hi : Inv s) (h : s.runX (is.map .go) = some s') :
    is.length + s'.work ≤ s.work := by
  induction is generalizing s with
  | nil => cases h; simp
  | cons i is ih =>
    simp only [List.map_cons, LkSt.runX] at h
    split at h
    · rename_i t ht
      obtain ⟨h1, h2⟩ := go_inv hi ht
      have := ih h1 h
      simp only [List.length_cons]; omega
    · cases h

theorem run_end (n : Nat) : ∀ {s : LkSt}, s.work ≤ n → Inv s → ∃ (is : List Nat) (s' : LkSt),
    s.runX (is.map .go) = some s' ∧ ∀ (i : Nat) (t : Thr), s'.thr[i]? = some t → t.todo = .done := by
  induction n with
  | zero =>
    intro s hn hi
    refine ⟨[], s, rfl, fun i t ht => all_done hi (fun j => ?_) ht⟩
    cases hg : s.go j with
    | none => rfl
    | some s' => have := (go_inv hi hg).2; omega
  | succ n ih =>
    intro s hn hi
    by_cases hno : ∀ j, s.go j = none
    · exact ⟨[], s, rfl, fun i t ht => all_done hi hno ht⟩
    · obtain ⟨j, hj⟩ := Classical.not_forall.mp hno
      obtain ⟨s1, h1⟩ := Option.ne_none_iff_exists'.mp hj
      obtain ⟨h2, h3⟩ := go_inv hi h1
      obtain ⟨is, s', h4, h5⟩ := ih (s := s1) (by omega) h2
      exact ⟨j :: is, s', by simp only [List.map_cons, LkSt.runX, LkSt.stepX, h1]; exact h4, h5⟩

/-! ## knots -/

theorem knot_run {s s' : LkSt} {w : List Nat} {ops : List XOp} (hk : s.Knot w) (h : s.runX ops = some s') :
    s'.Knot w := by
  induction ops generalizing s with
  | nil => cases h; exact hk
  | cons op ops ih =>
    simp only [LkSt.runX] at h
    split at h
    · rename_i t ht
      have hs : ∀ i ∈ w, t.thr[i]? = s.thr[i]? := by
        intro i hi
        cases op with
        | spawn g =>
          cases ht
          obtain ⟨t, _, ht, _⟩ := hk i hi
          exact List.getElem?_append_left (List.getElem?_eq_some_iff.mp ht).1
        | go j =>
          refine go_other ht (fun e => ?_)
          subst e
          rw [LkSt.stepX, knot_go hk hi] at ht
          cases ht
      refine ih (fun i hi => ?_) h
      obtain ⟨x, r, hx, hw, j, hj, u, hu, hh⟩ := hk i hi
      exact ⟨x, r, (hs i hi).trans hx, hw, j, hj, u, (hs j hj).trans hu, hh⟩
    · cases h

theorem knot_stuck {s : LkSt} {w : List Nat} (hk : s.Knot w) {i : Nat} (hi : i ∈ w) : StuckX s i := by
  intro ops s' h
  obtain ⟨t, r, ht, hw, _⟩ := knot_run hk h i hi
  refine ⟨t, ht, fun e => ?_⟩
  unfold Thr.wants at hw
  rw [e] at hw
  cases hw

/-! ## a writer is alone -/

def Excl (s : LkSt) : Prop := ∀ (i j : Nat) (t u : Thr) (r : Res) (w : Bool), s.thr[i]? = some t → s.thr[j]? = some u →
  (r, true) ∈ t.held → (r, w) ∈ u.held → i = j

theorem go_excl {s s' : LkSt} {i : Nat} (hi : Excl s) (h : s.go i = some s') : Excl s' := by
  unfold LkSt.go at h
  split at h
  · cases h
  · rename_i t ht
    have put : ∀ {u : Thr} (l : List Nat),
        (∀ r w, (r, w) ∈ u.held → (r, w) ∈ t.held ∨
          (w = true ∧ s.thr.any (·.holds r) = false) ∨ (w = false ∧ s.thr.any (·.writes r) = false)) →
        Excl { s.put i u with closed := l } := by
      intro u l hu a b x y r w ha hb hx hy
      have nh : ∀ {k : Nat} {z : Thr} {w : Bool}, s.thr[k]? = some z → (r, w) ∈ z.held → s.thr.any (·.holds r) = false → False := by
        intro k z w hk hz hn
        have : s.thr.any (·.holds r) = true := List.any_eq_true.mpr ⟨z, List.mem_of_getElem? hk, by
          unfold Thr.holds; cases w <;> simp [hz]⟩
        rw [hn] at this; cases this
      have nw : ∀ {k : Nat} {z : Thr}, s.thr[k]? = some z → (r, true) ∈ z.held → s.thr.any (·.writes r) = false → False := by
        intro k z hk hz hn
        have : s.thr.any (·.writes r) = true := List.any_eq_true.mpr ⟨z, List.mem_of_getElem? hk, by
          unfold Thr.writes; simp [hz]⟩
        rw [hn] at this; cases this
      rcases set_at ha with ⟨rfl, rfl⟩ | ⟨_, ha2⟩ <;> rcases set_at hb with ⟨rfl, rfl⟩ | ⟨_, hb2⟩
      · rfl
      · rcases hu _ _ hx with hx | ⟨_, hx⟩ | ⟨e, _⟩
        · exact hi _ _ _ _ r w ht hb2 hx hy
        · exact (nh hb2 hy hx).elim
        · cases e
      · rcases hu _ _ hy with hy | ⟨_, hy⟩ | ⟨_, hy⟩
        · exact hi _ _ _ _ r w ha2 ht hx hy
        · exact (nh ha2 hx hy).elim
        · exact (nw ha2 hx hy).elim
      · exact hi _ _ _ _ r w ha2 hb2 hx hy
    split at h
    · cases h
    · split at h
      · split at h
        · cases h
        · rename_i hany
          cases h
          refine put _ (fun r' w hr' => ?_)
          rcases List.mem_cons.mp hr' with e' | hr'
          · cases e'; exact .inr (.inl ⟨rfl, by simpa using hany⟩)
          · exact .inl hr'
      · split at h
        · cases h
        · cases h; exact put _ (fun r' w hr' => .inl hr')
    · cases h; exact put _ (fun r' w hr' => .inl (List.mem_of_mem_erase hr'))
    · split at h
      · cases h
      · rename_i hany
        cases h
        refine put _ (fun r' w hr' => ?_)
        rcases List.mem_cons.mp hr' with e' | hr'
        · cases e'; exact .inr (.inr ⟨rfl, by simpa using hany⟩)
        · exact .inl hr'
    · cases h; exact put _ (fun r' w hr' => .inl (List.mem_of_mem_erase hr'))
    · cases h; exact put _ (fun r' w hr' => .inl hr')
    · split at h <;> cases h <;> exact put _ (fun r' w hr' => .inl hr')

theorem run_excl (ops : List XOp) : ∀ {s s' : LkSt}, Excl s → s.runX ops = some s' → Excl s' := by
  induction ops with
  | nil => intro s s' hs h; cases h; exact hs
  | cons op ops ih =>
    intro s s' hs h
    unfold LkSt.runX at h
    split at h
    · rename_i s1 h1
      refine ih ?_ h
      cases op with
      | go i => exact go_excl hs h1
      | spawn g =>
        cases h1
        intro i j t u r w hi hj ht hu
        have new : ∀ {k : Nat} {z : Thr} {x : Res × Bool}, (s.thr ++ [({ todo := g.prog } : Thr)])[k]? = some z → x ∈ z.held →
            s.thr[k]? = some z := by
          intro k z x hk hz
          rw [List.getElem?_append] at hk
          split at hk
          · exact hk
          · rw [List.getElem?_singleton] at hk
            split at hk
            · cases hk; cases hz
            · cases hk
        exact hs i j t u r w (new hi ht) (new hj hu) ht hu
    · cases h

end LockCalls
end Neffos
