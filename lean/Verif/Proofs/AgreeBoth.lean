import Verif.Proofs.AgreeMany
import Verif.Spec.Both
/-!
Helper lemmas for the agreement of the two sides: sessions in which both sides call.
-/
set_option autoImplicit false
namespace Neffos
open Neffos.Spec

variable {cfg x y cc sc : Cfg} {id : Bytes} {known : List KnownErr}

/-! ### Tokens -/

/-- a token that the calls of such a side have -/
structure SideTok (cl : Bool) (tok : Bytes) : Prop where
  is : Tok tok
  side : cl = true ↔ ∃ t, tok = 36 :: t

theorem sideTok_genWait (cl : Bool) (now : Int) : SideTok cl (genWait cl now) := by
  refine ⟨⟨plainToken_genWait cl now, genWait_ne_nil cl now⟩, ?_⟩
  cases cl with
  | true => exact ⟨fun _ => ⟨_, rfl⟩, fun _ => rfl⟩
  | false =>
    refine ⟨fun h => (by cases h), fun ⟨t, e⟩ => ?_⟩
    have := decimalInt_byte now 36 (by rw [show decimalInt now = 36 :: t from e]; simp)
    revert this
    decide

/-- a side waits for the answers to its own tokens -/
theorem SideTok.own {cl : Bool} {m : Message} (h : SideTok cl m.wait) : m.isWait cl = true := by
  unfold Message.isWait
  obtain ⟨⟨_, h1⟩, h2⟩ := h
  cases hm : m.wait with
  | nil => exact absurd hm h1
  | cons c t =>
    dsimp only
    split
    · rfl
    · split
      · rename_i hc
        exact h2.mpr ⟨t, by rw [hm, hc]; rfl⟩
      · rfl

theorem SideTok.other {cl : Bool} {m : Message} (h : SideTok cl m.wait) (hc : cl = true) : m.isWait false = false := by
  unfold Message.isWait
  obtain ⟨t, e⟩ := h.side.mp hc
  rw [e]
  simp [waitIsConfirmationPrefix, waitComesFromClientPrefix]

theorem SideTok.ne {cl : Bool} {tok : Bytes} (h : SideTok cl tok) (k : SideTok (!cl) tok) : False := by
  have := h.side.trans k.side.symm
  cases cl <;> simp at this

theorem SideTok.notCalm {cl : Bool} {tok : Bytes} {p : MsgType × Bytes} (h : SideTok cl tok)
    (hw : (deserializeMessage known p.1 p.2 false false).wait = tok) : ¬ CalmP p := by
  rintro ⟨t, e⟩
  rw [e, (decode_calm known p.1 t).1] at hw
  exact h.is.2 hw.symm

/-! ### Requests in both directions -/

/-- requests at work on the other side before the call completes on its own: `Z` are calls of `s`, `W` of `t` -/
structure Differ2 (x y : Cfg) (s t : St) (Z W : List (Pend × Option GoErr)) : Prop where
  mine : ∀ z ∈ Z, ∀ q, z.1.req = some q → MovesHere q z.2.isNone s t ∧ ∀ e, z.2 = some e → q.No y t e
  yours : ∀ z ∈ W, ∀ q, z.1.req = some q → MovesHere q z.2.isNone t s ∧ ∀ e, z.2 = some e → q.No x s e
  ns : ∀ n, (∀ z ∈ Z, ∀ q, z.1.req = some q → ¬ q.onNs n) → (∀ z ∈ W, ∀ q, z.1.req = some q → ¬ q.onNs n) →
    (InNs s n ↔ InNs t n)
  room : ∀ n r, (∀ z ∈ Z, ∀ q, z.1.req = some q → ¬ q.onRoom n r) → (∀ z ∈ W, ∀ q, z.1.req = some q → ¬ q.onRoom n r) →
    (InRoom s n r ↔ InRoom t n r)

variable {s t s' t' : St} {Z W Z' W' : List (Pend × Option GoErr)}

theorem Differ2.symm (h : Differ2 x y s t Z W) : Differ2 y x t s W Z :=
  ⟨h.yours, h.mine, fun n h1 h2 => (h.ns n h2 h1).symm, fun n r h1 h2 => (h.room n r h2 h1).symm⟩

theorem MovesHere.congr {q : Req} {acc : Bool} (h : MovesHere q acc s t) (hs : Agree s s') (ht : Agree t t') :
    MovesHere q acc s' t' :=
  ⟨fun n hn => (ht.1 n).symm.trans ((h.1 n hn).trans (Req.ns_congr (hs.1 n))),
    fun n r hn => (ht.2 n r).symm.trans ((h.2 n r hn).trans (Req.room_congr (hs.2 n r)))⟩

theorem Differ2.congr {l : List Obs} (h : Differ2 x y s t Z W) (hs : Agree s s') (hl : s'.log = s.log ++ l) :
    Differ2 x y s' t Z W := by
  refine ⟨fun z hz q hq => ?_, fun z hz q hq => ?_, fun n h1 h2 => ?_, fun n r h1 h2 => ?_⟩
  · obtain ⟨h1, h2⟩ := h.mine z hz q hq
    exact ⟨h1.congr hs (agree_refl t), h2⟩
  · obtain ⟨h1, h2⟩ := h.yours z hz q hq
    exact ⟨h1.congr (agree_refl t) hs, fun e he => (h2 e he).grows hl⟩
  · exact (hs.1 n).symm.trans (h.ns n h1 h2)
  · exact (hs.2 n r).symm.trans (h.room n r h1 h2)

theorem Differ2.mem (h : Differ2 x y s t Z W) (hz : ∀ z, z ∈ Z' ↔ z ∈ Z) (hw : ∀ z, z ∈ W' ↔ z ∈ W) :
    Differ2 x y s t Z' W' :=
  ⟨fun z k => h.mine z ((hz z).mp k), fun z k => h.yours z ((hw z).mp k),
    fun n k k' => h.ns n (fun z x => k z ((hz z).mpr x)) fun z x => k' z ((hw z).mpr x),
    fun n r k k' => h.room n r (fun z x => k z ((hz z).mpr x)) fun z x => k' z ((hw z).mpr x)⟩

/-- a request moves `s` where it is at work; other requests see nothing of it -/
theorem Moves.off {q q' : Req} {acc : Bool} (hm : Moves q acc s s') (hc : ¬ Clash q.about q'.about) :
    (∀ n, q'.onNs n → (InNs s' n ↔ InNs s n)) ∧ ∀ n r, q'.onRoom n r → (InRoom s' n r ↔ InRoom s n r) :=
  ⟨fun n hn => (hm.1 n).trans (Req.ns_off fun x => hc (clash_ns x hn)),
    fun n r hn => (hm.2 n r).trans (Req.room_off fun x => hc (clash_room x hn))⟩

/-- `s` handles one more request of `t` -/
theorem Differ2.add {p : Pend} {r : Option GoErr} {q : Req} {l : List Obs} (h : Differ2 x y s t Z W)
    (hp : p.req = some q) (hm : Moves q r.isNone s s') (hl : s'.log = s.log ++ l)
    (hno : ∀ e, r = some e → q.No x s' e)
    (hz : ∀ z ∈ Z, ∀ q', z.1.req = some q' → ¬ Clash q.about q'.about)
    (hw : ∀ z ∈ W, ∀ q', z.1.req = some q' → ¬ Clash q.about q'.about) : Differ2 x y s' t Z ((p, r) :: W) := by
  refine ⟨fun z hz' q' hq => ?_, fun z hz' q' hq => ?_, fun n h1 h2 => ?_, fun n r' h1 h2 => ?_⟩
  · obtain ⟨⟨h1, h2⟩, h3⟩ := h.mine z hz' q' hq
    obtain ⟨k1, k2⟩ := hm.off (hz z hz' q' hq)
    exact ⟨⟨fun n hn => (h1 n hn).trans (Req.ns_congr (k1 n hn).symm),
      fun n r hn => (h2 n r hn).trans (Req.room_congr (k2 n r hn).symm)⟩, h3⟩
  · rcases List.mem_cons.mp hz' with rfl | hz'
    · rw [hp] at hq
      cases hq
      refine ⟨⟨fun n hn => ?_, fun n r' hn => ?_⟩, hno⟩
      · exact (hm.1 n).trans (Req.ns_congr (h.ns n (fun z k q' e x => hz z k q' e (clash_ns hn x))
          fun z k q' e x => hw z k q' e (clash_ns hn x)))
      · exact (hm.2 n r').trans (Req.room_congr (h.room n r' (fun z k q' e x => hz z k q' e (clash_room hn x))
          fun z k q' e x => hw z k q' e (clash_room hn x)))
    · obtain ⟨⟨h1, h2⟩, h3⟩ := h.yours z hz' q' hq
      obtain ⟨k1, k2⟩ := hm.off (hw z hz' q' hq)
      exact ⟨⟨fun n hn => (k1 n hn).trans (h1 n hn), fun n r hn => (k2 n r hn).trans (h2 n r hn)⟩,
        fun e he => (h3 e he).grows hl⟩
  · refine ((hm.1 n).trans (Req.ns_off (h2 _ (List.mem_cons_self ..) q hp))).trans
      (h.ns n h1 fun z k => h2 z (List.mem_cons_of_mem _ k))
  · refine ((hm.2 n r').trans (Req.room_off (h2 _ (List.mem_cons_self ..) q hp))).trans
      (h.room n r' h1 fun z k => h2 z (List.mem_cons_of_mem _ k))

/-- a call of `s` completes -/
theorem Differ2.remove {p : Pend} {r : Option GoErr} {q : Req} {l : List Obs} (h : Differ2 x y s t ((p, r) :: Z) W)
    (hp : p.req = some q) (hm : Moves q r.isNone s s') (hl : s'.log = s.log ++ l)
    (hz : ∀ z ∈ Z, ∀ q', z.1.req = some q' → ¬ Clash q.about q'.about)
    (hw : ∀ z ∈ W, ∀ q', z.1.req = some q' → ¬ Clash q.about q'.about) : Differ2 x y s' t Z W := by
  obtain ⟨⟨hd1, hd2⟩, _⟩ := h.mine _ (List.mem_cons_self ..) q hp
  refine ⟨fun z hz' q' hq => ?_, fun z hz' q' hq => ?_, fun n h1 h2 => ?_, fun n r' h1 h2 => ?_⟩
  · obtain ⟨⟨h1, h2⟩, h3⟩ := h.mine z (List.mem_cons_of_mem _ hz') q' hq
    obtain ⟨k1, k2⟩ := hm.off (hz z hz' q' hq)
    exact ⟨⟨fun n hn => (h1 n hn).trans (Req.ns_congr (k1 n hn).symm),
      fun n r hn => (h2 n r hn).trans (Req.room_congr (k2 n r hn).symm)⟩, h3⟩
  · obtain ⟨⟨h1, h2⟩, h3⟩ := h.yours z hz' q' hq
    obtain ⟨k1, k2⟩ := hm.off (hw z hz' q' hq)
    exact ⟨⟨fun n hn => (k1 n hn).trans (h1 n hn), fun n r hn => (k2 n r hn).trans (h2 n r hn)⟩,
      fun e he => (h3 e he).grows hl⟩
  · by_cases hx : q.onNs n
    · exact (hm.1 n).trans (hd1 n hx).symm
    · refine ((hm.1 n).trans (Req.ns_off hx)).trans (h.ns n (fun z k q' e => ?_) h2)
      rcases List.mem_cons.mp k with rfl | k
      · rw [hp] at e; cases e; exact hx
      · exact h1 z k q' e
  · by_cases hx : q.onRoom n r'
    · exact (hm.2 n r').trans (hd2 n r' hx).symm
    · refine ((hm.2 n r').trans (Req.room_off hx)).trans (h.room n r' (fun z k q' e => ?_) h2)
      rcases List.mem_cons.mp k with rfl | k
      · rw [hp] at e; cases e; exact hx
      · exact h1 z k q' e

/-! ### The calls of one side -/

/-- what is known about a call in flight -/
structure Flying (cl : Bool) (s : St) (p : Pend) : Prop where
  waiting : mapGet s.waiting p.tok = some p.i
  tok : SideTok cl p.tok
  req : ∃ q, p.req = some q ∧ q.Safe ∧ Waits q p.k s ∧ about p.k = some q.about ∧ p.load = (.text, wireOf (q.msg p.tok))

/-- the calls of one side: not yet read by the other, answered by it, or no longer on the way -/
structure Half (cl : Bool) (known : List KnownErr) (s : St) (A : List Pend) (B : List (Pend × Option GoErr))
    (X : List (Pend × Option GoErr × Option Message)) : Prop where
  ready : ∀ p ∈ calls A B X, Flying cl s p
  atA : ∀ p ∈ A, AskIs s p none
  atB : ∀ z ∈ B, AskIs s z.1 none
  atX : ∀ z ∈ X, AskIs s z.1 z.2.2
  cover : ∀ (j : Nat) a, s.asks[j]? = some a → a.done = false → ∃ p ∈ calls A B X, p.i = j
  apart : (calls A B X).Pairwise Apart
  boxed : ∀ z ∈ X, ∀ m, z.2.2 = some m → Carries known z.2.1 m.err
  keys : ∀ tok i, mapGet s.waiting tok = some i → SideTok cl tok

variable {cl : Bool} {A : List Pend} {B : List (Pend × Option GoErr)} {X : List (Pend × Option GoErr × Option Message)}

theorem Half.askOf {p : Pend} (h : Half cl known s A B X) (hp : p ∈ calls A B X) : ∃ box, AskIs s p box := by
  simp only [calls, List.mem_append, List.mem_map] at hp
  rcases hp with hp | ⟨z, hp, rfl⟩ | ⟨z, hp, rfl⟩
  · exact ⟨_, h.atA p hp⟩
  · exact ⟨_, h.atB z hp⟩
  · exact ⟨_, h.atX z hp⟩

theorem Half.fresh {p : Pend} {tok : Bytes} (h : Half cl known s A B X) (hf : FreshTok s tok)
    (hp : p ∈ calls A B X) : p.tok ≠ tok := by
  obtain ⟨box, hb⟩ := h.askOf hp
  exact hf _ (List.mem_of_getElem? hb) rfl

/-- a call in flight that is about this clashes with nothing that is unclaimed -/
theorem Half.unclaimed {p : Pend} {q : Req} {x : Bytes × Option Bytes} (h : Half cl known s A B X) (hu : Unclaimed s x)
    (hp : p ∈ calls A B X) (hq : p.req = some q) : ¬ Clash x q.about := by
  obtain ⟨box, hb⟩ := h.askOf hp
  obtain ⟨q', h1, _, _, h2, _⟩ := (h.ready p hp).req
  rw [hq] at h1
  cases h1
  exact hu _ (List.mem_of_getElem? hb) rfl _ h2

/-- the Asks and their tokens stay, and what the calls rely on -/
theorem Half.frame (h : Half cl known s A B X) (hf : ∀ p ∈ calls A B X, ∀ q, p.req = some q → Waits q p.k s → Waits q p.k s')
    (ha : s'.asks = s.asks) (hw : s'.waiting = s.waiting) : Half cl known s' A B X := by
  refine ⟨fun p hp => ?_, fun p hp => ?_, fun p hp => ?_, fun p hp => ?_, by rw [ha]; exact h.cover, h.apart, h.boxed,
    by rw [hw]; exact h.keys⟩
  · obtain ⟨h1, h2, q, h3, h4, h5, h6⟩ := h.ready p hp
    exact ⟨by rw [hw]; exact h1, h2, q, h3, h4, hf p hp q h3 h5, h6⟩
  · unfold AskIs; rw [ha]; exact h.atA p hp
  · unfold AskIs; rw [ha]; exact h.atB p hp
  · unfold AskIs; rw [ha]; exact h.atX p hp

/-- membership, the Asks and their tokens stay -/
theorem Half.same (h : Half cl known s A B X) (hns : ∀ n, s'.namespace n = s.namespace n) (hr : ∀ i, s'.rooms i = s.rooms i)
    (ha : s'.asks = s.asks) (hw : s'.waiting = s.waiting) : Half cl known s' A B X :=
  h.frame (fun _ _ _ _ k => waits_congr k (hns _) fun obj _ e => by rw [hr]; exact e) ha hw

/-- the other side has answered a call -/
theorem Half.answered {a : Pend} (r : Option GoErr) (h : Half cl known s (a :: A) B X) : Half cl known s A (B ++ [(a, r)]) X := by
  have hp := calls_answered (a := a) (r := r) (A := A) (B := B) (X := X)
  refine ⟨fun p hp' => h.ready p (hp.mem_iff.mp hp'), fun p hp' => h.atA p (List.mem_cons_of_mem _ hp'), ?_, h.atX, ?_,
    ((hp.pairwise_iff fun h => h.symm).mpr h.apart), h.boxed, h.keys⟩
  · intro z hz
    rcases List.mem_append.mp hz with hz | hz
    · exact h.atB z hz
    · rw [List.mem_singleton.mp hz]; exact h.atA a (List.mem_cons_self ..)
  · intro j b hj hb
    obtain ⟨p, h1, h2⟩ := h.cover j b hj hb
    exact ⟨p, hp.mem_iff.mpr h1, h2⟩

/-- the other side could not answer a call -/
theorem Half.unanswered {a : Pend} (r : Option GoErr) (h : Half cl known s (a :: A) B X) :
    Half cl known s A B ((a, r, none) :: X) := by
  have hp := calls_lost (a := a) (r := r) (box := none) (A := A) (B := B) (X := X)
  refine ⟨fun p hp' => h.ready p (hp.mem_iff.mp hp'), fun p hp' => h.atA p (List.mem_cons_of_mem _ hp'), h.atB, ?_, ?_,
    ((hp.pairwise_iff fun h => h.symm).mpr h.apart), ?_, h.keys⟩
  · intro z hz
    rcases List.mem_cons.mp hz with rfl | hz
    · exact h.atA a (List.mem_cons_self ..)
    · exact h.atX z hz
  · intro j b hj hb
    obtain ⟨p, h1, h2⟩ := h.cover j b hj hb
    exact ⟨p, hp.mem_iff.mpr h1, h2⟩
  · intro z hz m h1
    rcases List.mem_cons.mp hz with rfl | hz
    · cases h1
    · exact h.boxed z hz m h1

/-- a call has its answer -/
theorem Half.box {a : Pend} {r : Option GoErr} {m : Message} (h : Half cl known s A ((a, r) :: B) X)
    (hm : Carries known r m.err) :
    Half cl known { s with asks := s.asks.set a.i ⟨a.tok, a.k, .table, some m, false⟩ } A B ((a, r, some m) :: X) := by
  have hperm := calls_boxed (a := a) (r := r) (box := some m) (A := A) (B := B) (X := X)
  have hmem : a ∈ calls A ((a, r) :: B) X := hperm.mem_iff.mp (calls_lost.mem_iff.mpr (List.mem_append_left _ (List.mem_cons_self ..)))
  have hat := h.atB _ (List.mem_cons_self ..)
  have hap : ∀ z ∈ calls A B X, Apart a z := by
    have := ((hperm.symm.trans calls_lost).pairwise_iff fun h => h.symm).mp h.apart
    simp only [calls, List.cons_append, List.pairwise_cons] at this
    exact this.1
  have hlt : a.i < s.asks.length := (List.getElem?_eq_some_iff.mp hat).1
  have keep : ∀ {z : Pend} {box : Option Message}, z ∈ calls A B X → AskIs s z box →
      AskIs { s with asks := s.asks.set a.i ⟨a.tok, a.k, .table, some m, false⟩ } z box := by
    intro z box hz hz'
    have := askIs_ne hat hz' (hap z hz)
    unfold AskIs
    simp only [List.getElem?_set, if_neg (Ne.symm this)]
    exact hz'
  refine ⟨fun z hz => ?_, ?_, ?_, ?_, ?_, (hperm.pairwise_iff fun h => h.symm).mpr h.apart, ?_, h.keys⟩
  · obtain ⟨h1, h2, q, h3, h4, h5, h6⟩ := h.ready z (hperm.mem_iff.mp hz)
    exact ⟨h1, h2, q, h3, h4, waits_congr h5 rfl fun _ _ e => e, h6⟩
  · intro z hz
    exact keep (List.mem_append_left _ hz) (h.atA z hz)
  · intro z hz
    exact keep (List.mem_append_right _ (List.mem_append_left _ (List.mem_map_of_mem hz))) (h.atB z (List.mem_cons_of_mem _ hz))
  · intro z hz
    rcases List.mem_cons.mp hz with rfl | hz
    · unfold AskIs; simp [hlt]
    · exact keep (List.mem_append_right _ (List.mem_append_right _ (List.mem_map_of_mem hz))) (h.atX z hz)
  · intro j b hj hb
    by_cases e : a.i = j
    · exact ⟨a, hperm.mem_iff.mpr hmem, e⟩
    · simp only [List.getElem?_set, if_neg e] at hj
      obtain ⟨z, h1, h2⟩ := h.cover j b hj hb
      exact ⟨z, hperm.mem_iff.mpr h1, h2⟩
  · intro z hz m' h1
    rcases List.mem_cons.mp hz with rfl | hz
    · simp only [Option.some.injEq] at h1
      rw [← h1]
      exact hm
    · exact h.boxed z hz m' h1

theorem Flying.kept {l : List Obs} {p : Pend} (h : Flying cl s p) (k : Kept s l s')
    (hw : mapGet s'.waiting p.tok = mapGet s.waiting p.tok) : Flying cl s' p :=
  let ⟨q, h3, h4, h5, h6⟩ := h.req
  ⟨by rw [hw]; exact h.waiting, h.tok, q, h3, h4, h5.kept k, h6⟩

/-- a call returned at once -/
theorem Half.notSent {tok : Bytes} {l : List Obs} (h : Half cl known s A B X) (hf : FreshTok s tok) (ht : SideTok cl tok)
    (k1 : Kept s l s') (k3 : AsksKept s tok s') : Half cl known s' A B X := by
  refine ⟨fun p hp => (h.ready p hp).kept k1 (k3.waiting _ (h.fresh hf hp)),
    fun p hp => k3.here _ _ (h.atA p hp), fun p hp => k3.here _ _ (h.atB p hp), fun p hp => k3.here _ _ (h.atX p hp),
    fun j a hj ha => ?_, h.apart, h.boxed, fun tok' i hi => ?_⟩
  · rcases k3.back j a hj with x | x
    · exact h.cover j a x ha
    · rw [x] at ha; cases ha
  · by_cases e : tok' = tok
    · rw [e]; exact ht
    · rw [k3.waiting _ e] at hi
      exact h.keys _ _ hi

theorem calls_snoc {p : Pend} : (calls (A ++ [p]) B X).Perm (p :: calls A B X) := by
  simp only [calls, List.append_assoc, List.cons_append, List.nil_append]
  exact List.perm_middle

/-- a call has written its request -/
theorem Half.sent {p : Pend} {l : List Obs} (h : Half cl known s A B X) (hf : FreshTok s p.tok) (ht : SideTok cl p.tok)
    (hi : p.i = s.asks.length) (k1 : Kept s l s') (k4 : s'.asks = s.asks ++ [⟨p.tok, p.k, .table, none, false⟩])
    (k5 : mapGet s'.waiting p.tok = some s.asks.length)
    (k6 : ∀ x, x ≠ p.tok → mapGet s'.waiting x = mapGet s.waiting x)
    (hr : Flying cl s' p)
    (hcl : ∀ p' ∈ calls A B X, ∀ q q', p.req = some q → p'.req = some q' → ¬ Clash q.about q'.about) :
    Half cl known s' (A ++ [p]) B X := by
  have here : ∀ {j : Nat} {a : AskRec}, s.asks[j]? = some a → s'.asks[j]? = some a := by
    intro j a ha
    have hlt : j < s.asks.length := (List.getElem?_eq_some_iff.mp ha).1
    rw [k4, List.getElem?_append_left hlt, ha]
  have hperm := calls_snoc (A := A) (B := B) (X := X) (p := p)
  refine ⟨fun z hz => ?_, fun z hz => ?_, fun z hz => here (h.atB z hz), fun z hz => here (h.atX z hz), fun j a hj ha => ?_,
    (hperm.pairwise_iff fun h => h.symm).mpr ?_, h.boxed, fun tok i hi => ?_⟩
  · rcases List.mem_cons.mp (hperm.mem_iff.mp hz) with rfl | hz
    · exact hr
    · exact (h.ready z hz).kept k1 (k6 _ (h.fresh hf hz))
  · rcases List.mem_append.mp hz with hz | hz
    · exact here (h.atA z hz)
    · rw [List.mem_singleton.mp hz]
      unfold AskIs
      rw [k4, hi]
      simp
  · rw [k4, List.getElem?_append] at hj
    split at hj
    · obtain ⟨z, h1, h2⟩ := h.cover j a hj ha
      exact ⟨z, hperm.mem_iff.mpr (List.mem_cons_of_mem _ h1), h2⟩
    · rename_i hlt
      refine ⟨p, hperm.mem_iff.mpr (List.mem_cons_self ..), ?_⟩
      have : j - s.asks.length = 0 := by
        cases hx : j - s.asks.length with
        | zero => rfl
        | succ n => rw [hx] at hj; simp at hj
      omega
  · rw [List.pairwise_cons]
    exact ⟨fun z hz => ⟨(h.fresh hf hz).symm, hcl z hz⟩, h.apart⟩
  · by_cases e : tok = p.tok
    · rw [e]; exact ht
    · rw [k6 _ e] at hi
      exact h.keys _ _ hi

/-! ### Both sides -/

/-- what the payloads in one direction are: requests of the calls of the one side, and answers to those of the other -/
inductive Cargo where
  | req (p : Pend)
  | rep (p : Pend) (r : Option GoErr)

def reqsOf : List Cargo → List Pend
  | [] => []
  | .req p :: l => p :: reqsOf l
  | .rep _ _ :: l => reqsOf l

def repsOf : List Cargo → List (Pend × Option GoErr)
  | [] => []
  | .req _ :: l => repsOf l
  | .rep p r :: l => (p, r) :: repsOf l

theorem reqsOf_append (a b : List Cargo) : reqsOf (a ++ b) = reqsOf a ++ reqsOf b := by
  induction a with
  | nil => rfl
  | cons x a ih => cases x <;> simp [reqsOf, ih]

theorem repsOf_append (a b : List Cargo) : repsOf (a ++ b) = repsOf a ++ repsOf b := by
  induction a with
  | nil => rfl
  | cons x a ih => cases x <;> simp [repsOf, ih]

/-- the payload is this item, for who decodes it with these errors -/
def Carry (known : List KnownErr) : Cargo → MsgType × Bytes → Prop
  | .req p, x => x = p.load
  | .rep p r, x => Reply known p.tok r x

/-- a side that uses its connection -/
structure SideOk (s : St) : Prop where
  acked : s.acked = true
  rd : s.rd = .idle ∨ ∃ m, AppMsg m ∧ s.rd = .gate m
  todo : s.todo = []
  ackAfter : s.ackAfter = false

theorem CKept.sideOk {l : List Obs} (h : CKept s l s') (hs : SideOk s) : SideOk s' := by
  refine ⟨by rw [h.acked]; exact hs.acked, ?_, by rw [h.todo]; exact hs.todo, by rw [h.ackAfter]; exact hs.ackAfter⟩
  rcases h.rd with x | x | x
  · rw [x]; exact hs.rd
  · exact .inl x
  · exact .inr x

theorem Kept.sideOk {l : List Obs} (h : Kept s l s') (hs : SideOk s) : SideOk s' :=
  ⟨by rw [h.acked]; exact hs.acked, by rw [h.rd]; exact hs.rd, by rw [h.todo]; exact hs.todo,
    by rw [h.ackAfter]; exact hs.ackAfter⟩

theorem Dropped.grows {l : List Obs} {tok : Bytes} (h : Dropped s tok) (hl : s'.log = s.log ++ l) : Dropped s' tok :=
  let ⟨bin, b, h1, h2⟩ := h
  ⟨bin, b, by rw [hl]; exact List.mem_append_left _ h1, h2⟩

/-- two sides `s` and `t`, with the payloads from `s` to `t` and from `t` to `s` -/
structure Both (x y : Cfg) (s t : St) (po pi : List (MsgType × Bytes)) (O I : List Cargo)
    (X Y : List (Pend × Option GoErr × Option Message)) : Prop where
  okS : SideOk s
  okT : SideOk t
  mine : Half x.isClient x.known s (reqsOf O) (repsOf I) X
  yours : Half y.isClient y.known t (reqsOf I) (repsOf O) Y
  cross : ∀ p ∈ calls (reqsOf O) (repsOf I) X, ∀ p' ∈ calls (reqsOf I) (repsOf O) Y, ∀ q q', p.req = some q →
    p'.req = some q' → ¬ Clash q.about q'.about
  out : Weave (Carry y.known) po O
  inn : Weave (Carry x.known) pi I
  lostS : ∀ z ∈ X, z.2.2 = none → Dropped t z.1.tok
  lostT : ∀ z ∈ Y, z.2.2 = none → Dropped s z.1.tok
  differ : Differ2 x y s t (handledBy (repsOf I) X) (handledBy (repsOf O) Y)

variable {po pi : List (MsgType × Bytes)} {O I : List Cargo} {Y : List (Pend × Option GoErr × Option Message)}

theorem Both.symm (h : Both x y s t po pi O I X Y) : Both y x t s pi po I O Y X :=
  ⟨h.okT, h.okS, h.yours, h.mine, fun p hp p' hp' q q' e e' k => h.cross p' hp' p hp q' q e' e k.symm, h.inn, h.out,
    h.lostT, h.lostS, h.differ.symm⟩

theorem both_calm {l : List Obs} (h : Both x y s t po pi O I X Y) (k : CKept s l s') (hl : CalmLog l) :
    Both x y s' t (po ++ pipe l) pi O I X Y :=
  ⟨k.sideOk h.okS, h.okT, h.mine.same k.ns k.rooms k.asks k.waiting, h.yours, h.cross, h.out.calms hl, h.inn, h.lostS,
    fun z hz hb => (h.lostT z hz hb).grows k.log, h.differ.congr k.agree k.log⟩

/-! ### A side reads a request -/

/-- no own Connect of its namespace holds up the request -/
theorem half_gate {q : Req} (hr : Reach x id s) (h : Half cl known s A B X)
    (hno : ∀ p ∈ calls A B X, ∀ q', p.req = some q' → ¬ Clash q.about q'.about) : gateBlocks s q.about.1 = false := by
  rw [gateBlocks_eq]
  cases hd : (gateOf s q.about.1).done with
  | true => rfl
  | false =>
    have hcount := (reach_gateOk hr q.about.1).2.1 hd
    have hp : pend s q.about.1 = 0 := by
      unfold pend
      rw [List.countP_eq_zero]
      intro a ha hpa
      simp only [pendOf, Bool.and_eq_true, Bool.not_eq_true'] at hpa
      obtain ⟨j, hj⟩ := List.getElem?_of_mem ha
      obtain ⟨p, h1, h2⟩ := h.cover j a hj hpa.1
      subst h2
      obtain ⟨box, hbx⟩ := h.askOf h1
      unfold AskIs at hbx
      rw [hj] at hbx
      cases hbx
      have hb2 := hpa.2
      dsimp only at hb2
      obtain ⟨q', e1, _, _, e2, _⟩ := (h.ready p h1).req
      cases hpk : p.k with
      | connect n obj =>
        rw [hpk] at hb2 e2
        simp only [decide_eq_true_eq] at hb2
        refine hno p h1 q' e1 ?_
        have e2 : (n, none) = q'.about := Option.some.inj e2
        rw [← e2, hb2]
        exact ⟨rfl, .inr (.inl rfl)⟩
      | _ => rw [hpk] at hb2; cases hb2
    dsimp only at hcount
    have : (gateOf s q.about.1).count = 0 := by omega
    rw [this]
    rfl

/-- a request that is handled leaves to the own calls what they rely on -/
theorem request_frame {q q' : Req} {k' : Cont} {tok : Bytes} {a' : AskRec} (hr : Reach x id s) (ht : Tok tok)
    (hi : Incoming x s .text (wireOf (q.msg tok)) (q.msg tok)) (hgb : gateBlocks s (q.msg tok).ns = false)
    (hth : q.There s) (ha' : a' ∈ s.asks) (hk' : a'.cont = k') (hw' : Waits q' k' s)
    (hcl : ¬ Clash q.about q'.about) (h : step x s (.recv .text (wireOf (q.msg tok))) = some s') (hc : s'.closed = false) :
    Waits q' k' s' := by
  have hne : q.about.2 = none → q'.about.1 ≠ q.about.1 := fun e x => hcl ⟨x.symm, .inl e⟩
  obtain ⟨f1, f2, f3, f4, f5, f6, f7⟩ := req_fields q tok
  have hw : Wanted (q.msg tok) := ⟨by rw [f1]; exact ht.2, f5⟩
  cases q with
  | connect ns =>
    obtain ⟨k1, k2, _⟩ := c15_incoming hi h rfl hw hc
    exact waits_congr hw' (by rw [k1, if_neg (fun x => hne rfl x.1)]) (fun obj _ x => by rw [k2]; exact x)
  | disconnect ns =>
    obtain ⟨obj, hobj⟩ := Option.ne_none_iff_exists'.mp hth
    cases hs : x.isClient with
    | true =>
      obtain ⟨k1, k2, _⟩ := c19_incoming_client hr hi h rfl hw hs hobj hc
      exact waits_congr hw' (by rw [k1]; exact if_neg (hne rfl)) (fun obj _ x => by
        rw [k2]; split
        · rfl
        · exact x)
    | false =>
      obtain ⟨k1, k2, _⟩ := c19_incoming_server hr hi h rfl hw hs hobj hc
      exact waits_congr hw' (by rw [k1, if_neg (fun x => hne rfl x.1)]) (fun obj _ x => by
        rw [k2]; split
        · rfl
        · exact x)
  | join ns room =>
    obtain ⟨obj, hobj⟩ := Option.ne_none_iff_exists'.mp hth
    obtain ⟨k1, k2, _⟩ := c17_incoming hr (.recv _ _ hi hgb h) rfl hw hobj hc
    refine waits_congr hw' (by unfold St.namespace; rw [k1]) (fun obj' e x => ?_)
    rw [List.eq_nil_iff_forall_not_mem]
    intro r hr'
    rcases (k2 _ _).mp hr' with y | ⟨rfl, _⟩
    · rw [x] at y; cases y
    · have h1 := ((reach_ok hr).2 ns obj' hobj).2
      have h2 := (reach_ok hr).1 a' ha'
      rw [hk', e] at h2
      have h3 : s.objs[obj']?.map (·.ns) = some q'.about.1 := h2.2.1
      rw [h1] at h3
      refine hcl ⟨Option.some.inj h3, .inr (.inl ?_)⟩
      cases q' with
      | connect ns => rfl
      | disconnect ns => rfl
      | join ns room => obtain ⟨_, _, y, _⟩ := hw'; rw [e] at y; cases y
      | leave ns room => obtain ⟨_, _, y, _⟩ := hw'; rw [e] at y; cases y
  | leave ns room =>
    obtain ⟨obj, hobj⟩ := Option.ne_none_iff_exists'.mp hth
    have key : s'.connected = s.connected ∧ ∀ i r, r ∈ s'.rooms i → r ∈ s.rooms i := by
      cases hs : x.isClient with
      | true =>
        obtain ⟨k1, k2, _⟩ := c18_incoming_client hr (.recv _ _ hi hgb h) rfl hw hs hobj hc
        exact ⟨k1, fun i r hx => ((k2 i r).mp hx).1⟩
      | false =>
        obtain ⟨k1, k2, _⟩ := c18_incoming_server hr (.recv _ _ hi hgb h) rfl hw hs hobj hc
        exact ⟨k1, fun i r hx => ((k2 i r).mp hx).1⟩
    refine waits_congr hw' (by unfold St.namespace; rw [key.1]) (fun obj' e x => ?_)
    rw [List.eq_nil_iff_forall_not_mem]
    intro r hr'
    have y := key.2 _ _ hr'
    rw [x] at y
    cases y

theorem side_incoming {q : Req} {tok : Bytes} (hn : x.allowNative = false) (hq : q.Safe) (ht : SideTok (!x.isClient) tok)
    (hk : ∀ tok i, mapGet s.waiting tok = some i → SideTok x.isClient tok) (ha : s.acked = true) :
    Incoming x s .text (wireOf (q.msg tok)) (q.msg tok) := by
  have hon : x.onlyNative = false := by simp [Cfg.onlyNative, hn]
  obtain ⟨f1, f2, f3, f4, f5, f6, _⟩ := req_fields q tok
  have hwait : mapGet s.waiting (q.msg tok).wait = none := by
    rw [f1]
    cases hx : mapGet s.waiting tok with
    | none => rfl
    | some i => exact ((hk tok i hx).ne ht).elim
  have h3 : x.isClient = true ∨ (q.msg tok).isWait x.isClient = false := by
    cases hs : x.isClient with
    | true => exact .inl rfl
    | false =>
      rw [hs] at ht
      rw [← f1] at ht
      exact .inr (ht.other rfl)
  refine ⟨wire_ne (by rw [f1]; exact ht.is.2), ha, ?_, ?_, hon, h3.imp id fun h => .inr (.inr h), h3.imp id .inr, .inl hwait⟩
  · rw [hn, hon]; exact req_decodes x.known hq ht.is
  · cases q <;> rfl

theorem msg_ns (q : Req) (tok : Bytes) : (q.msg tok).ns = q.about.1 := by cases q <;> rfl

theorem Reply.names {tok : Bytes} {r : Option GoErr} {p : MsgType × Bytes} (h : Reply known tok r p) : Names known tok p :=
  ⟨h.nonempty, h.wait, h.valid⟩

theorem recv_idle {typ : MsgType} {b : Bytes} (hs : step x s (.recv typ b) = some s') :
    s.rd = .idle ∧ s' = recv x s typ b := by
  obtain ⟨he, _⟩ := step_exec hs
  simp only [exec] at he
  split at he
  · rename_i hx
    cases he
    exact ⟨hx.1, rfl⟩
  · cases he

theorem both_request {a : Pend} {rest : List (MsgType × Bytes)} {I : List Cargo} (hcons : BothConsistent x y) (hn : x.allowNative = false)
    (hxy : y.isClient = !x.isClient) (hr : Reach x id s) (h : Both x y s t po (a.load :: rest) O (.req a :: I) X Y)
    (hin : Weave (Carry x.known) rest I) (hs : step x s (.recv a.load.1 a.load.2) = some s') (hc : s'.closed = false) :
    ∃ l O' Y', s'.log = s.log ++ l ∧ Both x y s' t (po ++ pipe l) rest O' I X Y' := by
  have hyours : Half y.isClient y.known t (a :: reqsOf I) (repsOf O) Y := h.yours
  have hmem : a ∈ calls (a :: reqsOf I) (repsOf O) Y := List.mem_append_left _ (List.mem_cons_self ..)
  obtain ⟨_, htok, q, hq, hsafe, hwaits, _, hload⟩ := hyours.ready a hmem
  rw [hload] at hs
  rw [hxy] at htok
  have hap : ∀ z ∈ calls (reqsOf I) (repsOf O) Y, Apart a z := by
    have := hyours.apart
    simp only [calls, List.cons_append, List.pairwise_cons] at this
    exact this.1
  have hnc : ∀ p ∈ calls (reqsOf O) (repsOf I) X, ∀ q', p.req = some q' → ¬ Clash q.about q'.about :=
    fun p hp q' e k => h.cross p hp a hmem q' q e hq k.symm
  have hncZ : ∀ z ∈ handledBy (repsOf I) X, ∀ q', z.1.req = some q' → ¬ Clash q.about q'.about :=
    fun z hz q' hq' => hnc z.1 (calls_of_handled hz) q' hq'
  have hncW : ∀ z ∈ handledBy (repsOf O) Y, ∀ q', z.1.req = some q' → ¬ Clash q.about q'.about :=
    fun z hz q' hq' => (hap z.1 (calls_of_handled hz)).2 q q' hq hq'
  have hth : q.There s := there_here hwaits (h.differ.ns _
    (fun z hz q' hq' hon => hncZ z hz q' hq' (clash_of_ns hon))
    (fun z hz q' hq' hon => hncW z hz q' hq' (clash_of_ns hon))).symm
  have hi := side_incoming (q := q) hn hsafe htok h.mine.keys h.okS.acked
  have hgb : gateBlocks s (q.msg a.tok).ns = false := by
    rw [msg_ns]
    exact half_gate hr h.mine hnc
  obtain ⟨k0, kr, r, l, k2, k3, k4, la, bin, b, ok, lb, k5, k6, k7, k8⟩ := side_handles hcons.1.client
    (fun log obj h e he => hcons.2.refuses _ _ _ _ _ (req_fields q a.tok).2.2.2.2.2.2 he) hr hsafe htok.is hi hgb hth hs hc
  have hdf := h.differ.add hq k3 k2 k4 hncZ hncW
  have hok : SideOk s' := ⟨k0, by rw [kr.rd]; exact h.okS.rd, by rw [kr.todo]; exact h.okS.todo,
    by rw [kr.ackAfter]; exact h.okS.ackAfter⟩
  have hwt : s'.waiting = s.waiting := by
    have e := (recv_idle hs).2
    have := openSame_steady.recv (cfg := x) s .text (wireOf (q.msg a.tok))
    rw [← e] at this
    exact this.waiting hc
  have hmine : Half x.isClient x.known s' (reqsOf O) (repsOf I) X :=
    h.mine.frame (fun p hp q' e k => by
      obtain ⟨box, hbx⟩ := h.mine.askOf hp
      exact request_frame hr htok.is hi hgb hth (List.mem_of_getElem? hbx) rfl k (hnc p hp q' e) hs hc) kr.asks hwt
  have hnames : ∀ known, Names known a.tok (if bin then .binary else .text, b) := fun known => (k8 known).names
  cases ok with
  | false =>
    refine ⟨l, O, (a, r, none) :: Y, k2, hok, h.okT, hmine, hyours.unanswered r, ?_, h.out.calms ?_, hin, h.lostS, ?_, hdf.mem (fun _ => Iff.rfl) ?_⟩
    · exact fun p hp p' hp' => h.cross p hp p' (calls_lost.mem_iff.mp hp')
    · rw [k5, pipe_append]; exact Calms.append k6.log k7.log
    · intro z hz h1
      rcases List.mem_cons.mp hz with rfl | hz
      · exact ⟨bin, b, by rw [k2, k5]; simp, hnames⟩
      · exact (h.lostT z hz h1).grows k2
    · intro z
      simp only [handledBy, List.mem_append, List.mem_cons, List.map_cons]
      constructor
      · rintro (h | h | h)
        · exact .inr (.inl h)
        · exact .inl h
        · exact .inr (.inr h)
      · rintro (h | h | h)
        · exact .inr (.inl h)
        · exact .inl h
        · exact .inr (.inr h)
  | true =>
    have e1 : reqsOf (O ++ [.rep a r]) = reqsOf O := by rw [reqsOf_append]; simp [reqsOf]
    have e2 : repsOf (O ++ [.rep a r]) = repsOf O ++ [(a, r)] := by rw [repsOf_append]; rfl
    refine ⟨l, O ++ [.rep a r], Y, k2, hok, h.okT, by rw [e1]; exact hmine, by rw [e2]; exact hyours.answered r, ?_, ?_, hin,
      h.lostS, fun z hz h1 => (h.lostT z hz h1).grows k2, hdf.mem (fun _ => Iff.rfl) ?_⟩
    · rw [e1, e2]
      exact fun p hp p' hp' => h.cross p hp p' (calls_answered.mem_iff.mp hp')
    · rw [k5, pipe_append]
      exact h.out.one k6.log k7.log (k8 y.known) (htok.notCalm (known := y.known) (k8 y.known).wait)
    · intro z
      rw [e2]
      simp only [handledBy, List.mem_append, List.mem_cons, List.not_mem_nil, or_false]
      constructor
      · rintro ((h | h) | h)
        · exact .inr (.inl h)
        · exact .inl h
        · exact .inr (.inr h)
      · rintro (h | h | h)
        · exact .inl (.inr h)
        · exact .inl (.inl h)
        · exact .inr h

/-! ### A side reads an answer -/

theorem both_answer {a : Pend} {r : Option GoErr} {p : MsgType × Bytes} {rest : List (MsgType × Bytes)} {I : List Cargo}
    (hn : x.allowNative = false) (hsw : x.isClient = true ∨ s.srvWaiting = [])
    (h : Both x y s t po (p :: rest) O (.rep a r :: I) X Y) (hp : Reply x.known a.tok r p)
    (hin : Weave (Carry x.known) rest I) (hs : step x s (.recv p.1 p.2) = some s') :
    ∃ X', s'.log = s.log ∧ Both x y s' t po rest O I X' Y := by
  have hmine : Half x.isClient x.known s (reqsOf O) ((a, r) :: repsOf I) X := h.mine
  have hperm := calls_boxed (a := a) (r := r) (box := some (deserializeMessage x.known p.1 p.2 false false))
    (A := reqsOf O) (B := repsOf I) (X := X)
  have hmem : a ∈ calls (reqsOf O) ((a, r) :: repsOf I) X :=
    hperm.mem_iff.mp (calls_lost.mem_iff.mpr (List.mem_append_left _ (List.mem_cons_self ..)))
  have fly := hmine.ready a hmem
  have hat := hmine.atB _ (List.mem_cons_self ..)
  have hon : x.onlyNative = false := by simp [Cfg.onlyNative, hn]
  have e : s' = { s with asks := s.asks.set a.i ⟨a.tok, a.k, .table, some (deserializeMessage x.known p.1 p.2 false false), false⟩ } := by
    rw [(recv_idle hs).2]
    have hwait := hp.wait
    have hvalid := hp.valid
    have hplain := hp.plain
    unfold recv handlePayload
    rw [if_neg hp.nonempty, if_pos h.okS.acked, hn, hon]
    generalize deserializeMessage x.known p.1 p.2 false false = m at hwait hvalid hplain ⊢
    have hiw : m.isWait x.isClient = true := SideTok.own (by rw [hwait]; exact fly.tok)
    unfold AskIs at hat
    dsimp only at hat
    unfold handleMessage
    rw [hvalid, hiw, hon, hplain, hwait, fly.waiting]
    rcases hsw with hsw | hsw
    · simp [deliver, hat, hsw]
    · simp [deliver, hat, hsw]
  subst e
  refine ⟨(a, r, some (deserializeMessage x.known p.1 p.2 false false)) :: X, rfl,
    ⟨h.okS.acked, h.okS.rd, h.okS.todo, h.okS.ackAfter⟩, h.okT, hmine.box hp.err, h.yours,
    fun z hz => h.cross z (hperm.mem_iff.mp hz), h.out, hin, ?_, h.lostT, ?_⟩
  · intro z hz h1
    rcases List.mem_cons.mp hz with rfl | hz
    · cases h1
    · exact h.lostS z hz h1
  · refine Differ2.congr (s := s) (l := []) (Differ2.mem h.differ ?_ fun _ => Iff.rfl) (agree_of (fun _ => rfl) fun _ _ _ => rfl) (by simp)
    intro z
    simp only [handledBy, repsOf, List.mem_append, List.mem_cons, List.map_cons]
    constructor
    · rintro (h | h | h)
      · exact .inl (.inr h)
      · exact .inl (.inl h)
      · exact .inr h
    · rintro ((h | h) | h)
      · exact .inr (.inl h)
      · exact .inl h
      · exact .inr (.inr h)

/-- a side reads what the other has sent -/
theorem both_recv {p : MsgType × Bytes} {rest : List (MsgType × Bytes)} (hcons : BothConsistent x y) (hn : x.allowNative = false)
    (hxy : y.isClient = !x.isClient) (hsw : x.isClient = true ∨ s.srvWaiting = []) (hr : Reach x id s)
    (h : Both x y s t po (p :: rest) O I X Y) (hs : step x s (.recv p.1 p.2) = some s') (hc : s'.closed = false) :
    ∃ l O' I' X' Y', s'.log = s.log ++ l ∧ Both x y s' t (po ++ pipe l) rest O' I' X' Y' := by
  by_cases hp : CalmP p
  · obtain ⟨l, k1, k2, _⟩ := calm_recv_held hcons.1.client hn hp h.okS.acked hs hc
    have h' : Both x y s t po rest O I X Y :=
      ⟨h.okS, h.okT, h.mine, h.yours, h.cross, h.out, h.inn.tail hp, h.lostS, h.lostT, h.differ⟩
    exact ⟨l, O, I, X, Y, k1.log, both_calm h' k1 k2⟩
  · obtain ⟨it, I', rfl, hit, hin⟩ := h.inn.head hp
    cases it with
    | req a =>
      cases (show p = a.load from hit)
      obtain ⟨l, O', Y', h1, h2⟩ := both_request hcons hn hxy hr h hin hs hc
      exact ⟨l, O', I', X, Y', h1, h2⟩
    | rep a r =>
      obtain ⟨X', h1, h2⟩ := both_answer hn hsw h hit hin hs
      exact ⟨[], O, I', X', Y, by rw [h1]; simp, by simpa [pipe] using h2⟩

/-! ### A side calls -/

theorem both_called {tok : Bytes} {z : Bytes × Option Bytes} (h : Both x y s t po pi O I X Y)
    (hf : FreshTok s tok) (hu : Unclaimed s z) (hv : Unclaimed t z) (htok : SideTok x.isClient tok)
    (hcall : Called z tok s s') :
    ∃ l O', s'.log = s.log ++ l ∧ Both x y s' t (po ++ pipe l) pi O' I X Y := by
  rcases hcall with ⟨l, k1, k2, k3⟩ | ⟨q, k, rfl, hab, hsafe, hw, l, l1, k1, k2, k3, k4, k5, k6⟩
  · exact ⟨l, O, k1.log, k1.sideOk h.okS, h.okT, h.mine.notSent hf htok k1 k3, h.yours, h.cross, h.out.calms k2, h.inn,
      h.lostS, fun z hz hb => (h.lostT z hz hb).grows k1.log, h.differ.congr k1.agree k1.log⟩
  · have e1 : ∀ p, reqsOf (O ++ [.req p]) = reqsOf O ++ [p] := fun p => by rw [reqsOf_append]; rfl
    have e2 : ∀ p, repsOf (O ++ [.req p]) = repsOf O := fun p => by rw [repsOf_append]; simp [repsOf]
    have hnc : ∀ p' ∈ calls (reqsOf O) (repsOf I) X, ∀ q', p'.req = some q' → ¬ Clash q.about q'.about :=
      fun p' hp' q' e' => h.mine.unclaimed hu hp' e'
    have hnc' : ∀ p' ∈ calls (reqsOf I) (repsOf O) Y, ∀ q', p'.req = some q' → ¬ Clash q.about q'.about :=
      fun p' hp' q' e' => h.yours.unclaimed hv hp' e'
    refine ⟨l, O ++ [.req ⟨s.asks.length, k, tok, some q, (.text, wireOf (q.msg tok))⟩], k1.log, k1.sideOk h.okS, h.okT, ?_,
      by rw [e2]; exact h.yours, ?_, ?_, h.inn, h.lostS, fun z hz hb => (h.lostT z hz hb).grows k1.log, ?_⟩
    · rw [e1]
      exact h.mine.sent (p := ⟨s.asks.length, k, tok, some q, (.text, wireOf (q.msg tok))⟩) hf htok rfl k1 k4 k5 k6
        ⟨k5, htok, q, rfl, hsafe, hw.kept k1, hab, rfl⟩ fun p' hp' q1 q' e e' => by cases e; exact hnc p' hp' q' e'
    · rw [e1, e2]
      intro p hp p' hp' q1 q' e e'
      rcases List.mem_cons.mp (calls_snoc.mem_iff.mp hp) with rfl | hp
      · cases e
        exact hnc' p' hp' q' e'
      · exact h.cross p hp p' hp' q1 q' e e'
    · rw [k2]
      refine h.out.one (l2 := []) k3 .nil rfl (htok.notCalm (known := []) ?_)
      dsimp only
      rw [req_decodes [] hsafe htok.is]
      exact (req_fields q tok).1
    · rw [e2]
      exact h.differ.congr k1.agree k1.log

/-! ### A call completes -/

/-- the call whose answer a goroutine finds, and what the others keep -/
theorem half_resume {i : Nat} (hok : SideOk s) (h : Half cl known s A B X) (hs : step x s (.resume i) = some s')
    (hc : s'.closed = false) (hr : Reach x id s) :
    ∃ X1 z X2 m, X = X1 ++ z :: X2 ∧ z.1.i = i ∧ z.2.2 = some m ∧
      s.asks[i]? = some ⟨z.1.tok, z.1.k, .table, some m, false⟩ ∧ (calls A B X).Perm (z.1 :: calls A B (X1 ++ X2)) ∧
      SideOk s' ∧ ((∀ p ∈ calls A B (X1 ++ X2), ∀ q, p.req = some q → Waits q p.k s → Waits q p.k s') →
        Half cl known s' A B (X1 ++ X2)) := by
  obtain ⟨a, ha, hdone, m, hb⟩ : ∃ a, s.asks[i]? = some a ∧ a.done = false ∧ ∃ m, a.box = some m := by
    obtain ⟨he, _⟩ := step_exec hs
    simp only [exec, resume] at he
    split at he
    · cases he
    · rename_i a ha
      split at he
      · cases he
      · split at he
        · cases he
        · rename_i hd _ m hb
          exact ⟨a, ha, by simpa using hd, m, hb⟩
  obtain ⟨p, hp, hpi⟩ := h.cover i a ha hdone
  subst hpi
  have hno : ∀ {z : Pend}, z.i = p.i → AskIs s z none → False := by
    intro z e hz
    unfold AskIs at hz
    rw [e, ha] at hz
    cases hz
    cases hb
  obtain ⟨z, hz, rfl⟩ : ∃ z ∈ X, z.1 = p := by
    simp only [calls, List.mem_append, List.mem_map] at hp
    rcases hp with hp | ⟨z, hp, rfl⟩ | ⟨z, hp, rfl⟩
    · exact (hno rfl (h.atA p hp)).elim
    · exact (hno rfl (h.atB z hp)).elim
    · exact ⟨z, hp, rfl⟩
  have hat := h.atX z hz
  have hae : a = ⟨z.1.tok, z.1.k, .table, z.2.2, false⟩ := by
    unfold AskIs at hat
    rw [ha] at hat
    exact Option.some.inj hat
  have hbox : z.2.2 = some m := by rw [hae] at hb; exact hb
  rw [hbox] at hae
  subst hae
  obtain ⟨X1, X2, rfl⟩ := List.append_of_mem hz
  have hpX : (X1 ++ z :: X2).Perm (z :: (X1 ++ X2)) := List.perm_middle
  have hperm : (calls A B (X1 ++ z :: X2)).Perm (z.1 :: calls A B (X1 ++ X2)) := by
    refine List.Perm.trans ?_ ((calls_lost (a := z.1) (r := z.2.1) (box := z.2.2) (A := A) (B := B) (X := X1 ++ X2)).trans ?_)
    · unfold calls
      exact ((hpX.map _).append_left _).append_left _
    · exact .refl _
  have hpw := (hperm.pairwise_iff fun h => h.symm).mp h.apart
  rw [List.pairwise_cons] at hpw
  obtain ⟨hap, hpw⟩ := hpw
  obtain ⟨e, _⟩ := step_resume ha rfl hs
  have hra := rdAsk_finish (cfg := x) (resumed s z.1.i ⟨z.1.tok, z.1.k, .table, some m, false⟩) z.1.k m m.err
  have hwt := openW_finish (cfg := x) (resumed s z.1.i ⟨z.1.tok, z.1.k, .table, some m, false⟩) z.1.k m m.err
  dsimp only at e
  rw [← e] at hra hwt
  have htake : takeAnswer s z.1.i ⟨z.1.tok, z.1.k, .table, some m, false⟩ =
      { s with asks := s.asks.set z.1.i ⟨z.1.tok, z.1.k, .table, none, false⟩ } := by
    unfold takeAnswer
    rcases hok.rd with x | ⟨m, _, x⟩ <;> rw [x]
  have hres : resumed s z.1.i ⟨z.1.tok, z.1.k, .table, some m, false⟩ =
      { s with asks := (s.asks.set z.1.i ⟨z.1.tok, z.1.k, .table, none, false⟩).modify z.1.i (fun a => { a with done := true }),
               waiting := mapDel s.waiting z.1.tok } := by
    unfold resumed forget endAsk
    rw [htake]
    simp
  have hwait := hwt.2 hc
  rw [hres] at hra hwait
  have hack : s'.acked = true := by
    rcases step_acked hr hs (.inl hok.acked) with x | x
    · exact x
    · rw [x] at hc; cases hc
  have hother : ∀ (j : Nat), j ≠ z.1.i → s'.asks[j]? = s.asks[j]? := by
    intro j hj
    rw [hra.asks]
    simp only [List.getElem?_modify, List.getElem?_set]
    simp [show ¬ z.1.i = j from fun e => hj e.symm]
  have hkeep : ∀ {w : Pend} {box : Option Message}, w ∈ calls A B (X1 ++ X2) → AskIs s w box → AskIs s' w box := by
    intro w box hw hw'
    unfold AskIs
    rw [hother _ (askIs_ne hat hw' (hap w hw))]
    exact hw'
  have hin : ∀ {w : Pend × Option GoErr × Option Message}, w ∈ X1 ++ X2 → w ∈ X1 ++ z :: X2 := fun {w} hw => by
    rcases List.mem_append.mp hw with hw | hw
    · exact List.mem_append_left _ hw
    · exact List.mem_append_right _ (List.mem_cons_of_mem _ hw)
  refine ⟨X1, z, X2, m, rfl, rfl, hbox, ha, hperm, ⟨hack, by rw [hra.rd]; exact hok.rd, by rw [hra.todo]; exact hok.todo,
    by rw [hra.ackAfter]; exact hok.ackAfter⟩, fun hwaits => ⟨fun p hp => ?_, fun p hp => ?_, fun p hp => ?_, fun p hp => ?_,
    fun j b hj hb => ?_, hpw, fun w hw => h.boxed w (hin hw), fun tok j hj => ?_⟩⟩
  · obtain ⟨h1, h2, q, h3, h4, h5, h6⟩ := h.ready p (hperm.mem_iff.mpr (List.mem_cons_of_mem _ hp))
    refine ⟨?_, h2, q, h3, h4, hwaits p hp q h3 h5, h6⟩
    rw [hwait]
    simp only [mapGet_mapDel]
    rw [if_neg (hap p hp).1.symm]
    exact h1
  · exact hkeep (List.mem_append_left _ hp) (h.atA p hp)
  · exact hkeep (List.mem_append_right _ (List.mem_append_left _ (List.mem_map_of_mem hp))) (h.atB p hp)
  · exact hkeep (List.mem_append_right _ (List.mem_append_right _ (List.mem_map_of_mem hp))) (h.atX p (hin hp))
  · by_cases e : j = z.1.i
    · subst e
      have hlt : z.1.i < s.asks.length := (List.getElem?_eq_some_iff.mp ha).1
      rw [hra.asks] at hj
      simp [hlt] at hj
      rw [← hj] at hb
      cases hb
    · rw [hother j e] at hj
      obtain ⟨w, h1, h2⟩ := h.cover j b hj hb
      rcases List.mem_cons.mp (hperm.mem_iff.mp h1) with rfl | h1
      · exact absurd h2.symm e
      · exact ⟨w, h1, h2⟩
  · rw [hwait] at hj
    simp only [mapGet_mapDel] at hj
    split at hj
    · cases hj
    · exact h.keys tok j hj

theorem both_resume {i : Nat} (hcons : BothConsistent x y) (hr : Reach x id s) (h : Both x y s t po pi O I X Y)
    (hs : step x s (.resume i) = some s') (hc : s'.closed = false) :
    (∃ l X', s'.log = s.log ++ l ∧ Both x y s' t (po ++ pipe l) pi O I X' Y) ∧
      ∃ a m q r, s.asks[i]? = some a ∧ a.box = some m ∧ Waits q a.cont s ∧ MovesHere q r.isNone s t ∧
        Carries x.known r m.err ∧ (∀ e, r = some e → q.No y t e) ∧ (∀ n, q.onNs n → (InNs s' n ↔ InNs t n)) ∧
        ∀ n r, q.onRoom n r → (InRoom s' n r ↔ InRoom t n r) := by
  obtain ⟨X1, z, X2, m, rfl, rfl, hbox, ha, hperm, hok, hhalf⟩ := half_resume h.okS h.mine hs hc hr
  have hpw := (hperm.pairwise_iff fun h => h.symm).mp h.mine.apart
  rw [List.pairwise_cons] at hpw
  obtain ⟨hap, hpw⟩ := hpw
  have hzm := hperm.mem_iff.mpr (List.mem_cons_self ..)
  obtain ⟨_, _, q, hq, _, hw, _, _⟩ := h.mine.ready _ hzm
  obtain ⟨k1, l, k2, k3⟩ := side_answer hcons.1.client hcons.1.accepts hr ha rfl hw rfl hs hc
  have hcar := h.mine.boxed z (List.mem_append_right _ (List.mem_cons_self ..)) m hbox
  rw [← carries_isNone hcar] at k1
  have hmemH : ∀ w, w ∈ handledBy (repsOf I) (X1 ++ z :: X2) ↔ w ∈ (z.1, z.2.1) :: handledBy (repsOf I) (X1 ++ X2) := by
    intro w
    simp only [handledBy, List.map_append, List.map_cons, List.mem_append, List.mem_cons]
    constructor
    · rintro (h | h | h | h)
      · exact .inr (.inl h)
      · exact .inr (.inr (.inl h))
      · exact .inl h
      · exact .inr (.inr (.inr h))
    · rintro (h | h | h | h)
      · exact .inr (.inr (.inl h))
      · exact .inl h
      · exact .inr (.inl h)
      · exact .inr (.inr (.inr h))
  have hZ : Differ2 x y s t ((z.1, z.2.1) :: handledBy (repsOf I) (X1 ++ X2)) (handledBy (repsOf O) Y) :=
    h.differ.mem (fun w => (hmemH w).symm) fun _ => Iff.rfl
  have hncZ : ∀ w ∈ handledBy (repsOf I) (X1 ++ X2), ∀ q', w.1.req = some q' → ¬ Clash q.about q'.about :=
    fun w hw q' hq' => (hap w.1 (calls_of_handled hw)).2 q q' hq hq'
  have hncW : ∀ w ∈ handledBy (repsOf O) Y, ∀ q', w.1.req = some q' → ¬ Clash q.about q'.about :=
    fun w hw q' hq' => h.cross _ hzm w.1 (calls_of_handled hw) q q' hq hq'
  have hdf := hZ.remove hq k1 k2 hncZ hncW
  refine ⟨⟨l, X1 ++ X2, k2, hok, h.okT, hhalf fun p hp q' e k => ?_, h.yours, fun p hp => h.cross p (hperm.mem_iff.mpr (List.mem_cons_of_mem _ hp)),
    h.out.calms k3, h.inn, fun w hw => h.lostS w ?_, fun w hw hb => (h.lostT w hw hb).grows k2, hdf⟩, _, m, q, z.2.1, ha, rfl, hw,
    (hZ.mine _ (List.mem_cons_self ..) q hq).1, hcar, (hZ.mine _ (List.mem_cons_self ..) q hq).2, fun n hn => ?_, fun n r hn => ?_⟩
  · obtain ⟨box, hbx⟩ := h.mine.askOf (hperm.mem_iff.mpr (List.mem_cons_of_mem _ hp))
    exact answer_frame hr ha hw rfl (List.mem_of_getElem? hbx) rfl k ((hap p hp).2 q q' hq e) hs hc
  · rcases List.mem_append.mp hw with hw | hw
    · exact List.mem_append_left _ hw
    · exact List.mem_append_right _ (List.mem_cons_of_mem _ hw)
  · exact hdf.ns n (fun w hw q' hq' k => hncZ w hw q' hq' (clash_ns hn k)) fun w hw q' hq' k => hncW w hw q' hq' (clash_ns hn k)
  · exact hdf.room n r (fun w hw q' hq' k => hncZ w hw q' hq' (clash_room hn k)) fun w hw q' hq' k => hncW w hw q' hq' (clash_room hn k)

/-! ### Steps of one side on its own -/

theorem both_wake (hcb : CbCalm x) (h : Both x y s t po pi O I X Y) (hs : step x s .wake = some s')
    (hc : s'.closed = false) : ∃ l, s'.log = s.log ++ l ∧ Both x y s' t (po ++ pipe l) pi O I X Y := by
  obtain ⟨he, _⟩ := step_exec hs
  simp only [exec, wakeReader] at he
  have hok := h.okS
  rcases hok.rd with e | ⟨m, hm, e⟩
  · rw [e] at he; cases he
  · simp only [e] at he
    split at he
    · have hrd := rd_afterGate (cfg := x) { s with rd := .idle } m
      have h1 : (afterGate x { s with rd := .idle } m).rd = .idle := hrd.rd
      have h2 : (afterGate x { s with rd := .idle } m).todo = [] := hrd.todo.trans hok.todo
      have h3 : (afterGate x { s with rd := .idle } m).ackAfter = false := hrd.ackAfter.trans hok.ackAfter
      rw [if_pos h1, h2] at he
      simp only [drain, h3, Bool.false_eq_true, if_false, Option.some.injEq] at he
      have he : s' = afterGate x { s with rd := .idle } m := by
        rw [← he]
        generalize afterGate x { s with rd := .idle } m = u at h2 h3
        cases u
        simp only at h2 h3
        subst h2 h3
        rfl
      subst he
      obtain ⟨l, k1, k2⟩ := calm_afterGate hcb hm.1 hm.2 hc
      have hk : CKept s l (afterGate x { s with rd := .idle } m) :=
        ⟨fun n => k1.ckept.ns n, fun n => k1.ckept.rooms n, .inr (.inl h1), k1.ckept.todo, k1.ckept.ackAfter,
          k1.ckept.acked, k1.ckept.log, k1.ckept.asks, k1.ckept.waiting⟩
      exact ⟨l, hk.log, both_calm h hk k2⟩
    · cases he

/-- what a side may do on its own when the other is as it is -/
def SideRequests (cl : Bool) (s t : St) : Op → Prop
  | .write m => AppMsg m
  | .ready _ => True
  | .close => True
  | .readErr _ => True
  | .wake => True
  | .resume _ => True
  | .connect ns now _ => MayCall cl s now ∧ (Unclaimed s (ns, none) ∧ Unclaimed t (ns, none)) ∧ SafeName ns
  | .disconnect obj now _ => MayCall cl s now ∧ (Unclaimed s (s.nsName obj, none) ∧ Unclaimed t (s.nsName obj, none)) ∧
      SafeName (s.nsName obj)
  | .join obj room now _ => MayCall cl s now ∧ (Unclaimed s (s.nsName obj, some room) ∧ Unclaimed t (s.nsName obj, some room)) ∧
      linked s obj = true ∧ SafeName (s.nsName obj) ∧ SafeName room
  | .leave obj room now _ => MayCall cl s now ∧ (Unclaimed s (s.nsName obj, some room) ∧ Unclaimed t (s.nsName obj, some room)) ∧
      linked s obj = true ∧ SafeName (s.nsName obj) ∧ SafeName room
  | _ => False

theorem both_step {op : Op} (hcons : BothConsistent x y) (hn : x.allowNative = false) (hr : Reach x id s)
    (ho : SideRequests x.isClient s t op) (h : Both x y s t po pi O I X Y) (hs : step x s op = some s') (hc : s'.closed = false) :
    ∃ l O' X', s'.log = s.log ++ l ∧ Both x y s' t (po ++ pipe l) pi O' I X' Y := by
  have hcb : CbCalm x := hcons.1.client
  have hon : x.onlyNative = false := by simp [Cfg.onlyNative, hn]
  have hexit : ∀ s : St, (readerExit x s).closed = true := fun s => closeConn_closed s
  cases op with
  | write m =>
    obtain ⟨he, _⟩ := step_exec hs
    simp only [exec] at he
    cases he
    obtain ⟨l, k1, k2⟩ := app_write ho hc
    exact ⟨l, O, X, k1.log, both_calm h k1.ckept k2⟩
  | ready e =>
    obtain ⟨he, _⟩ := step_exec hs
    simp only [exec] at he
    cases he
    have k1 : Same s [] (s.signalReady e) := by
      unfold St.signalReady
      split
      · exact .refl _
      · exact ⟨_, by simp; rfl⟩
    exact ⟨[], O, X, k1.log, both_calm h k1.ckept .nil⟩
  | connect ns now ex =>
    obtain ⟨⟨o1, o2, o3, o4⟩, ⟨o5, o6⟩, o7⟩ := ho
    obtain ⟨l, O', h1, h2⟩ := both_called h o4 o5 o6 (sideTok_genWait _ _) (side_connect (.inr ⟨o1, o2⟩) hon hcb o3 o7 hs hc)
    exact ⟨l, O', X, h1, h2⟩
  | disconnect obj now ex =>
    obtain ⟨⟨o1, o2, o3, o4⟩, ⟨o5, o6⟩, o7⟩ := ho
    obtain ⟨l, O', h1, h2⟩ := both_called h o4 o5 o6 (sideTok_genWait _ _) (side_disconnect hon o3 o7 hs hc)
    exact ⟨l, O', X, h1, h2⟩
  | join obj room now ex =>
    obtain ⟨⟨o1, o2, o3, o4⟩, ⟨o5, o6⟩, o7, o8, o9⟩ := ho
    obtain ⟨l, O', h1, h2⟩ := both_called h o4 o5 o6 (sideTok_genWait _ _) (side_join hon o3 o7 o8 o9 hs hc)
    exact ⟨l, O', X, h1, h2⟩
  | leave obj room now ex =>
    obtain ⟨⟨o1, o2, o3, o4⟩, ⟨o5, o6⟩, o7, o8, o9⟩ := ho
    obtain ⟨l, O', h1, h2⟩ := both_called h o4 o5 o6 (sideTok_genWait _ _) (side_leave hon o3 o7 o8 o9 hs hc)
    exact ⟨l, O', X, h1, h2⟩
  | resume i =>
    obtain ⟨⟨l, X', h1, h2⟩, _⟩ := both_resume hcons hr h hs hc
    exact ⟨l, O, X', h1, h2⟩
  | close =>
    obtain ⟨he, _⟩ := step_exec hs
    simp only [exec] at he
    cases he
    rw [closeConn_closed] at hc
    cases hc
  | readErr e =>
    obtain ⟨he, _⟩ := step_exec hs
    simp only [exec] at he
    split at he
    · cases he
      rw [hexit] at hc
      cases hc
    · cases he
  | wake =>
    obtain ⟨l, h1, h2⟩ := both_wake hcb h hs hc
    exact ⟨l, O, X, h1, h2⟩
  | ask => exact ho.elim
  | sendAck => exact ho.elim
  | recv => exact ho.elim
  | contReader => exact ho.elim
  | cancel => exact ho.elim
  | steal => exact ho.elim
  | stealErr => exact ho.elim
  | srvAsk => exact ho.elim
  | srvUnask => exact ho.elim

/-! ### The Asks of the server itself -/

/-- the tokens of the Asks of the server itself stay -/
def SrvSame (s t : St) : Prop := t.srvWaiting = s.srvWaiting

theorem srvSame_steady : Steady SrvSame where
  refl _ := rfl
  trans h k := Eq.trans k h
  emit _ _ := rfl
  ready _ _ := rfl
  hang _ := rfl
  del _ _ _ := rfl
  nsDel _ _ := rfl
  closed _ := rfl
  waiting _ _ := rfl
  unack _ _ := rfl
  newObj _ _ := rfl
  addRoom _ _ _ := rfl
  nsAdd _ _ _ := rfl
  rd _ _ := rfl
  todo _ _ _ := rfl
  box _ _ _ _ _ := rfl
  text _ _ := rfl
  binary _ _ := rfl
  setAcked _ := rfl
  ident _ _ := rfl

theorem srvSame_outer : Outer (fun _ => True) SrvSame where
  refl _ := rfl
  trans h k := Eq.trans k h
  emit _ _ := rfl
  ready _ _ := rfl
  hang _ := rfl
  del _ _ _ := rfl
  nsDel _ _ := rfl
  closed _ := rfl
  waiting _ _ := rfl
  unack _ _ := rfl
  newObj _ _ := rfl
  addRoom _ _ _ := rfl
  nsAdd _ _ _ := rfl
  wait _ _ := rfl
  gates _ _ := rfl
  newAsk _ _ := rfl
  endAsk _ _ _ := rfl

/-- what the server does in these sessions leaves them as they are -/
theorem srv_same {u : Sess} {op : Op} (ho : BothRequests u (.server op)) (hs : step x s op = some s') : SrvSame s s' := by
  have q := srvSame_outer
  obtain ⟨he, _⟩ := step_exec hs
  cases op with
  | write m => simp only [exec] at he; cases he; exact q.write _ _
  | ready e => simp only [exec] at he; cases he; exact srvSame_steady.signalReady _ _
  | connect ns now ex => simp only [exec] at he; cases he; exact q.connect _ _ _ _ trivial
  | disconnect obj now ex =>
    simp only [exec] at he
    split at he
    · cases he
      unfold disconnect
      dsimp only
      split
      · exact q.emit _ _
      · exact q.startAsk _ _ _ _ _ trivial
    · cases he
  | join obj room now ex =>
    simp only [exec] at he
    split at he
    · cases he
      unfold joinRoom
      dsimp only
      split
      · exact q.emit _ _
      · exact q.startAsk _ _ _ _ _ trivial
    · cases he
  | leave obj room now ex =>
    simp only [exec] at he
    split at he
    · cases he
      unfold leaveRoom
      dsimp only
      split
      · exact q.startAsk _ _ _ _ _ trivial
      · exact q.emit _ _
    · cases he
  | resume i =>
    obtain ⟨a, ha, m, hb⟩ : ∃ a, s.asks[i]? = some a ∧ ∃ m, a.box = some m := by
      simp only [exec, resume] at he
      split at he
      · cases he
      · rename_i a ha
        split at he
        · cases he
        · split at he
          · cases he
          · rename_i m hb
            exact ⟨a, ha, m, hb⟩
    obtain ⟨e, _⟩ := step_resume ha hb hs
    rw [e]
    refine q.trans (b := resumed s i a) ?_ (q.finish _ _ _ _)
    show (resumed s i a).srvWaiting = s.srvWaiting
    unfold resumed forget endAsk takeAnswer
    dsimp only
    split <;> (repeat' split) <;> rfl
  | close => simp only [exec] at he; cases he; exact q.closeConn _
  | readErr e =>
    simp only [exec] at he
    split at he
    · cases he; exact q.trans (srvSame_steady.signalReady _ _) (srvSame_steady.exit _)
    · cases he
  | wake => exact srvSame_steady.wake he
  | ask => exact (show False from ho).elim
  | sendAck => exact (show False from ho).elim
  | recv => exact (show False from ho).elim
  | contReader => exact (show False from ho).elim
  | cancel => exact (show False from ho).elim
  | steal => exact (show False from ho).elim
  | stealErr => exact (show False from ho).elim
  | srvAsk => exact (show False from ho).elim
  | srvUnask => exact (show False from ho).elim

/-! ### Sessions -/

/-- where a session is -/
inductive BPhase (cc sc : Cfg) (c d : St) (pu pd : List (MsgType × Bytes)) : Prop
  | greet : CliFresh c → SrvFresh d → d.asks = [] → d.rd = .idle →
      (c.log = [] ∧ pu = [] ∨ c.log ≠ [] ∧ pu = [(.text, b! "M")]) → Calms pd → BPhase cc sc c d pu pd
  | held : CliFresh c → SrvFresh d → d.asks = [] → d.rd = .ack → c.log ≠ [] → pu = [] → Calms pd → BPhase cc sc c d pu pd
  | acked (x : Bytes) (l1 l2 : List (MsgType × Bytes)) (O I : List Cargo) (X Y : List (Pend × Option GoErr × Option Message)) :
      CliFresh c → c.log ≠ [] → pu = [] → pd = l1 ++ (.text, 65 :: x) :: l2 → Calms l1 →
      Both cc sc { c with acked := true } d [] l2 O I X Y → BPhase cc sc c d pu pd
  | live (O I : List Cargo) (X Y : List (Pend × Option GoErr × Option Message)) : c.log ≠ [] →
      Both cc sc c d pu pd O I X Y → BPhase cc sc c d pu pd

theorem half_nil (h : ∀ tok i, mapGet s.waiting tok = some i → False) (ha : s.asks = []) : Half cl known s [] [] [] := by
  refine ⟨?_, ?_, ?_, ?_, ?_, .nil, ?_, fun tok i hi => (h tok i hi).elim⟩
  · intro p hp; cases hp
  · intro p hp; cases hp
  · intro p hp; cases hp
  · intro p hp; cases hp
  · intro j a hj; rw [ha] at hj; simp at hj
  · intro p hp; cases hp

theorem no_waiting (hr : Reach x id s) (ha : s.asks = []) (tok : Bytes) (i : Nat) (h : mapGet s.waiting tok = some i) : False := by
  obtain ⟨a, h1, _⟩ := (reach_all hr).2.table tok i h
  rw [ha] at h1
  simp at h1

/-- the server has acknowledged -/
theorem both_nil {c d : St} {id id' : Bytes} (hc : Reach cc id' c) (hd : Reach sc id d) (hf : CliFresh c) (hok : SrvOk d)
    (hcon : d.connected = []) (ha : d.asks = []) : Both cc sc { c with acked := true } d [] [] [] [] [] [] := by
  have hag : Agree { c with acked := true } d := agree_empty hf.connected hcon
  refine ⟨⟨rfl, .inl hf.rd, hf.todo, hf.ackAfter⟩, ⟨hok.acked, .inl hok.rd, hok.todo, hok.ackAfter⟩,
    half_nil (fun tok i h => no_waiting hc hf.asks tok i h) hf.asks, half_nil (no_waiting hd ha) ha, ?_, .nil, .nil, ?_, ?_,
    ⟨?_, ?_, fun n _ _ => hag.1 n, fun n r _ _ => hag.2 n r⟩⟩
  · intro p hp; cases hp
  · intro p hp; cases hp
  · intro p hp; cases hp
  · intro p hp; cases hp
  · intro p hp; cases hp

theorem ackReady_asks {d : St} {r : Option GoErr} (h : d.asks = []) : (ackReady sc d r).asks = [] := by
  rw [List.eq_nil_iff_forall_not_mem]
  intro a ha
  obtain ⟨a', h1, _⟩ := askKeep_steady.ackReady (cfg := sc) d r a ha
  rw [h] at h1
  cases h1

/-- the client reads the acknowledgement -/
theorem recv_acked_kept {c c' : St} {b : Bytes} (hf : CliFresh c) (hs : step cc c (.recv .text (65 :: b)) = some c') :
    CKept { c with acked := true } [] c' := by
  rw [(recv_idle hs).2]
  unfold recv handleACK
  rw [if_neg (by simp), if_neg (by simp [hf.acked])]
  simp only [show ((65 : UInt8) = 77) = False by decide, if_false, if_true, St.signalReady, hf.ready]
  exact ⟨fun _ => rfl, fun _ => rfl, .inl rfl, rfl, rfl, rfl, by simp, rfl, rfl⟩

/-- the client reads a message that went out before it -/
theorem recv_calm_kept {c c' : St} {p : MsgType × Bytes} (hp : CalmP p) (hf : CliFresh c) (hs : step cc c (.recv p.1 p.2) = some c') :
    CKept { c with acked := true } [] { c' with acked := true } := by
  rw [(recv_idle hs).2]
  obtain ⟨t, ht⟩ := hp
  unfold recv handleACK
  rw [ht, if_neg (by simp), if_neg (by simp [hf.acked])]
  simp only [show ((59 : UInt8) = 77) = False by decide, show ((59 : UInt8) = 65) = False by decide,
    show ((59 : UInt8) = 72) = False by decide, if_false]
  split <;> exact ⟨fun _ => rfl, fun _ => rfl, .inl rfl, rfl, rfl, rfl, by simp, rfl, rfl⟩

/-- what the client does before the handshake -/
theorem cli_fresh {u : Sess} {t : St} {op : Op} (hn : cc.allowNative = false) (ho : BothRequests u (.client op))
    (hf : CliFresh u.c) (hs : step cc u.c op = some t) (hc : t.closed = false) :
    u.c.log = [] ∧ CliFresh t ∧ t.log = u.c.log ++ [.sent false (b! "M") true] := by
  have hon : cc.onlyNative = false := by simp [Cfg.onlyNative, hn]
  have hexit : ∀ s : St, (readerExit cc s).closed = true := fun s => closeConn_closed s
  have hno : u.c.ready ≠ some none := by rw [hf.ready]; simp
  obtain ⟨he, _⟩ := step_exec hs
  cases op with
  | sendAck =>
    simp only [exec, hon, Bool.false_eq_true, if_false] at he
    have ht : t = (rawWrite cc u.c (b! "M") false).1 ∧ (rawWrite cc u.c (b! "M") false).2 = true := by
      rcases hw : rawWrite cc u.c (b! "M") false with ⟨w, v⟩
      rw [hw] at he
      cases v with
      | true => cases he; exact ⟨rfl, rfl⟩
      | false => cases he; rw [closeConn_closed] at hc; cases hc
    obtain ⟨rfl, hw⟩ := ht
    have hopen := rawWrite_open hc
    rw [hopen] at hw
    simp only at hw
    rw [hopen, hw]
    exact ⟨ho, ⟨hf.acked, hf.connected, hf.asks, hf.rd, hf.todo, hf.ackAfter, hf.ready⟩, rfl⟩
  | write m => exact absurd ho.1 hno
  | connect ns now ex => exact absurd ho.1.1 hno
  | disconnect obj now ex => exact absurd ho.1.1 hno
  | join obj room now ex => exact absurd ho.1.1 hno
  | leave obj room now ex => exact absurd ho.1.1 hno
  | resume i => simp [exec, resume, hf.asks] at he
  | wake => simp [exec, wakeReader, hf.rd] at he
  | close =>
    simp only [exec] at he
    cases he
    rw [closeConn_closed] at hc
    cases hc
  | readErr e =>
    simp only [exec] at he
    split at he
    · cases he
      rw [hexit] at hc
      cases hc
    · cases he
  | ask => exact (show False from ho).elim
  | recv => exact (show False from ho).elim
  | contReader => exact (show False from ho).elim
  | cancel => exact (show False from ho).elim
  | steal => exact (show False from ho).elim
  | stealErr => exact (show False from ho).elim
  | ready => exact (show False from ho).elim
  | srvAsk => exact (show False from ho).elim
  | srvUnask => exact (show False from ho).elim

/-- what the client does after the handshake -/
theorem cli_side {u : Sess} {op : Op} (hcl : cc.isClient = true) (ho : BothRequests u (.client op)) (hne : op ≠ .sendAck) :
    SideRequests cc.isClient u.c u.d op := by
  rw [hcl]
  cases op with
  | write m => exact ho.2
  | connect ns now ex => exact ho
  | disconnect obj now ex => exact ho
  | join obj room now ex => exact ho
  | leave obj room now ex => exact ho
  | resume i => trivial
  | wake => trivial
  | close => trivial
  | readErr e => trivial
  | sendAck => exact absurd rfl hne
  | ask => exact (show False from ho).elim
  | recv => exact (show False from ho).elim
  | contReader => exact (show False from ho).elim
  | cancel => exact (show False from ho).elim
  | steal => exact (show False from ho).elim
  | stealErr => exact (show False from ho).elim
  | ready => exact (show False from ho).elim
  | srvAsk => exact (show False from ho).elim
  | srvUnask => exact (show False from ho).elim

/-- what the server does before the handshake -/
theorem srv_fresh {u : Sess} {t : St} {op : Op} (hsc : sc.isClient = false) (ho : BothRequests u (.server op))
    (hf : SrvFresh u.d) (ha : u.d.asks = []) (hidle : u.d.rd = .idle ∨ u.d.rd = .ack)
    (hs : step sc u.d op = some t) (hc : t.closed = false) :
    (op = .wake ∧ u.d.rd = .ack ∧ ∃ r, t = ackReady sc u.d r) ∨
      ∃ l, Same u.d l t ∧ CalmLog l ∧ (l = [] ∨ ∃ m, op = .write m) := by
  have hexit : ∀ s : St, (readerExit sc s).closed = true := fun s => closeConn_closed s
  have hno : ∀ {now : Int}, ¬ MayCall false u.d now := fun k => by have := k.2.1; rw [hf.acked] at this; cases this
  have hsig : ∀ e, Same u.d [] (u.d.signalReady e) := by
    intro e
    unfold St.signalReady
    split
    · exact .refl _
    · exact ⟨_, by simp; rfl⟩
  obtain ⟨he, _⟩ := step_exec hs
  cases op with
  | write m =>
    simp only [exec] at he
    cases he
    obtain ⟨l, k1, k2⟩ := app_write ho hc
    exact .inr ⟨l, k1, k2, .inr ⟨m, rfl⟩⟩
  | ready e =>
    simp only [exec] at he
    cases he
    exact .inr ⟨[], hsig e, .nil, .inl rfl⟩
  | connect ns now ex =>
    simp only [exec] at he
    cases he
    have hm : Same u.d [] (u.d.markReady sc) := by
      unfold St.markReady
      rw [hsc]
      exact hsig none
    have hmk : (u.d.markReady sc).acked = false := by
      obtain ⟨r, e⟩ := hm
      rw [e]
      exact hf.acked
    refine .inr ⟨[], ?_, .nil, .inl rfl⟩
    unfold connect
    simp only [hmk, hsc, Bool.not_false, Bool.and_self, if_true]
    exact hm
  | disconnect obj now ex => exact absurd ho.1 hno
  | join obj room now ex => exact absurd ho.1 hno
  | leave obj room now ex => exact absurd ho.1 hno
  | resume i => simp [exec, resume, ha] at he
  | wake =>
    simp only [exec, wakeReader] at he
    split at he
    · rename_i m hrd
      rw [hrd] at hidle
      rcases hidle with k | k <;> cases k
    · rename_i hrd
      split at he
      · cases he
      · cases he
        exact .inl ⟨rfl, hrd, _, rfl⟩
    · cases he
  | close =>
    simp only [exec] at he
    cases he
    rw [closeConn_closed] at hc
    cases hc
  | readErr e =>
    simp only [exec] at he
    split at he
    · cases he
      rw [hexit] at hc
      cases hc
    · cases he
  | ask => exact (show False from ho).elim
  | sendAck => exact (show False from ho).elim
  | recv => exact (show False from ho).elim
  | contReader => exact (show False from ho).elim
  | cancel => exact (show False from ho).elim
  | steal => exact (show False from ho).elim
  | stealErr => exact (show False from ho).elim
  | srvAsk => exact (show False from ho).elim
  | srvUnask => exact (show False from ho).elim

/-- what the server does after the handshake -/
theorem srv_side {u : Sess} {op : Op} (hsc : sc.isClient = false) (ho : BothRequests u (.server op)) (hack : u.d.acked = true) :
    SideRequests sc.isClient u.d u.c op := by
  rw [hsc]
  cases op with
  | write m => exact ho
  | ready e => trivial
  | connect ns now ex =>
    rcases ho with ho | ⟨o1, o2, o3⟩
    · rw [hack] at ho; cases ho
    · exact ⟨o1, ⟨o2.2, o2.1⟩, o3⟩
  | disconnect obj now ex => exact ⟨ho.1, ⟨ho.2.1.2, ho.2.1.1⟩, ho.2.2⟩
  | join obj room now ex => exact ⟨ho.1, ⟨ho.2.1.2, ho.2.1.1⟩, ho.2.2⟩
  | leave obj room now ex => exact ⟨ho.1, ⟨ho.2.1.2, ho.2.1.1⟩, ho.2.2⟩
  | resume i => trivial
  | wake => trivial
  | close => trivial
  | readErr e => trivial
  | sendAck => exact (show False from ho).elim
  | ask => exact (show False from ho).elim
  | recv => exact (show False from ho).elim
  | contReader => exact (show False from ho).elim
  | cancel => exact (show False from ho).elim
  | steal => exact (show False from ho).elim
  | stealErr => exact (show False from ho).elim
  | srvAsk => exact (show False from ho).elim
  | srvUnask => exact (show False from ho).elim

/-- the client does something on its own -/
theorem both_cli {u : Sess} {t : St} {op : Op} (hcons : BothConsistent cc sc) (hn : cc.allowNative = false) (hcl : cc.isClient = true)
    (hr : Reach cc id u.c) {pu pd : List (MsgType × Bytes)} (ho : BothRequests u (.client op)) (h : BPhase cc sc u.c u.d pu pd)
    (hs : step cc u.c op = some t) (hc : t.closed = false) :
    ∃ l, t.log = u.c.log ++ l ∧ BPhase cc sc t u.d (pu ++ pipe l) pd := by
  cases h with
  | greet h1 h2 h3 h4 h5 h6 =>
    obtain ⟨k1, k2, k3⟩ := cli_fresh hn ho h1 hs hc
    rcases h5 with ⟨_, rfl⟩ | ⟨h5, _⟩
    · exact ⟨_, k3, .greet k2 h2 h3 h4 (.inr ⟨by rw [k3]; simp, rfl⟩) h6⟩
    · exact absurd k1 h5
  | held h1 h2 h3 h4 h5 h6 h7 => exact absurd (cli_fresh hn ho h1 hs hc).1 h5
  | acked b l1 l2 O I X Y h1 h2 => exact absurd (cli_fresh hn ho h1 hs hc).1 h2
  | live O I X Y h1 h2 =>
    have hne : op ≠ .sendAck := by
      rintro rfl
      exact absurd ho h1
    obtain ⟨l, O', X', k1, k2⟩ := both_step hcons hn hr (cli_side hcl ho hne) h2 hs hc
    exact ⟨l, k1, .live O' I X' Y (by rw [k1]; simp [h1]) k2⟩

theorem BothConsistent.symm (h : BothConsistent cc sc) : BothConsistent sc cc := ⟨h.2, h.1⟩

/-- the server does something on its own -/
theorem both_srv {u : Sess} {t : St} {op : Op} (hcons : BothConsistent cc sc) (hn : sc.allowNative = false) (hsc : sc.isClient = false)
    {id' : Bytes} (hrc : Reach cc id' u.c) (hr : Reach sc id u.d) {pu pd : List (MsgType × Bytes)}
    (ho : BothRequests u (.server op)) (h : BPhase cc sc u.c u.d pu pd)
    (hs : step sc u.d op = some t) (hc : t.closed = false) :
    ∃ l, t.log = u.d.log ++ l ∧ BPhase cc sc u.c t pu (pd ++ pipe l) := by
  have hr' : Reach sc id t := .step hr hs
  cases h with
  | greet h1 h2 h3 h4 h5 h6 =>
    rcases srv_fresh hsc ho h2 h3 (.inl h4) hs hc with ⟨_, k, _⟩ | ⟨l, k1, k2, _⟩
    · rw [h4] at k; cases k
    · exact ⟨l, k1.log, .greet h1 (h2.same k1) (by rw [k1.asks]; exact h3) (by rw [k1.kept.rd]; exact h4) h5 (h6.append k2)⟩
  | held h1 h2 h3 h4 h5 h6 h7 =>
    rcases srv_fresh hsc ho h2 h3 (.inr h4) hs hc with ⟨_, _, r, rfl⟩ | ⟨l, k1, k2, _⟩
    · obtain ⟨_, k2, k3, k4⟩ := ackReady_phase h2 hc
      exact ⟨_, k4, .acked u.d.id pd [] [] [] [] [] h1 h5 h6 rfl h7 (both_nil hrc hr' h1 k2 k3 (ackReady_asks h3))⟩
    · exact ⟨l, k1.log, .held h1 (h2.same k1) (by rw [k1.asks]; exact h3) (by rw [k1.kept.rd]; exact h4) h5 h6 (h7.append k2)⟩
  | acked b l1 l2 O I X Y h1 h2 h3 h4 h5 h6 =>
    obtain ⟨l, I', Y', k1, k2⟩ := both_step hcons.symm hn hr (t := { u.c with acked := true }) (srv_side hsc ho h6.okT.acked) h6.symm hs hc
    exact ⟨l, k1, .acked b l1 (l2 ++ pipe l) O I' X Y' h1 h2 h3 (by rw [h4]; simp) h5 k2.symm⟩
  | live O I X Y h1 h2 =>
    obtain ⟨l, I', Y', k1, k2⟩ := both_step hcons.symm hn hr (srv_side hsc ho h2.okT.acked) h2.symm hs hc
    exact ⟨l, k1, .live O I' X Y' h1 k2.symm⟩

/-- the server reads -/
theorem both_up {c d t : St} {p : MsgType × Bytes} {rest pd : List (MsgType × Bytes)} (hcons : BothConsistent cc sc)
    (hn : sc.allowNative = false) (hcl : cc.isClient = true) (hsc : sc.isClient = false) (hsw : d.srvWaiting = [])
    {id' : Bytes} (hrc : Reach cc id' c) (hr : Reach sc id d) (h : BPhase cc sc c d (p :: rest) pd)
    (hs : step sc d (.recv p.1 p.2) = some t) (hc : t.closed = false) :
    ∃ l, t.log = d.log ++ l ∧ BPhase cc sc c t rest (pd ++ pipe l) := by
  have hr' : Reach sc id t := .step hr hs
  cases h with
  | greet h1 h2 h3 h4 h5 h6 =>
    rcases h5 with ⟨_, h5⟩ | ⟨h5, h7⟩
    · cases h5
    · cases h7
      have hr2 := closed_of_prims (reach_prims hr hs) hc
      have e := (recv_idle hs).2
      rw [recv_ack_M hr2 h2.acked] at e
      cases hrd : d.ready with
      | none =>
        rw [hrd] at e
        refine ⟨[], by rw [e]; simp, ?_⟩
        simp only [pipe, List.append_nil]
        rw [e]
        exact .held h1 ⟨h2.acked, h2.connected, h2.todo, h2.ackAfter, h2.gates, h2.text, h2.binary⟩ h3 rfl h5 rfl h6
      | some r =>
        rw [hrd] at e
        dsimp only at e
        subst e
        obtain ⟨k1, k2, k3, k4⟩ := ackReady_phase h2 hc
        exact ⟨_, k4, .acked d.id pd [] [] [] [] [] h1 h5 rfl rfl h6 (both_nil hrc hr' h1 k2 k3 (ackReady_asks h3))⟩
  | held h1 h2 h3 h4 h5 h6 => cases h6
  | acked b l1 l2 O I X Y h1 h2 h3 => cases h3
  | live O I X Y h1 h2 =>
    obtain ⟨l, I', O', Y', X', k1, k2⟩ := both_recv hcons.symm hn (by rw [hcl, hsc]; rfl) (.inr hsw) hr h2.symm hs hc
    exact ⟨l, k1, .live O' I' X' Y' h1 k2.symm⟩

/-- the client reads -/
theorem both_down {c d t : St} {p : MsgType × Bytes} {rest pu : List (MsgType × Bytes)} (hcons : BothConsistent cc sc)
    (hn : cc.allowNative = false) (hcl : cc.isClient = true) (hsc : sc.isClient = false)
    (hr : Reach cc id c) (h : BPhase cc sc c d pu (p :: rest))
    (hs : step cc c (.recv p.1 p.2) = some t) (hc : t.closed = false) :
    ∃ l, t.log = c.log ++ l ∧ BPhase cc sc t d (pu ++ pipe l) rest := by
  cases h with
  | greet h1 h2 h3 h4 h5 h6 =>
    obtain ⟨k1, k2⟩ := calm_recv_fresh (h6 p (List.mem_cons_self ..)) h1 hs
    refine ⟨[], by rw [k2]; simp, ?_⟩
    simp only [pipe, List.append_nil]
    exact .greet k1 h2 h3 h4 (by rw [k2]; exact h5) fun z hz => h6 z (List.mem_cons_of_mem _ hz)
  | held h1 h2 h3 h4 h5 h6 h7 =>
    obtain ⟨k1, k2⟩ := calm_recv_fresh (h7 p (List.mem_cons_self ..)) h1 hs
    refine ⟨[], by rw [k2]; simp, ?_⟩
    simp only [pipe, List.append_nil]
    exact .held k1 h2 h3 h4 (by rw [k2]; exact h5) h6 fun z hz => h7 z (List.mem_cons_of_mem _ hz)
  | acked b l1 l2 O I X Y h1 h2 h3 h4 h5 h6 =>
    cases l1 with
    | cons y l1 =>
      simp only [List.cons_append, List.cons.injEq] at h4
      obtain ⟨rfl, rfl⟩ := h4
      obtain ⟨k1, k2⟩ := calm_recv_fresh (h5 p (List.mem_cons_self ..)) h1 hs
      have hb := both_calm h6 (recv_calm_kept (h5 p (List.mem_cons_self ..)) h1 hs) .nil
      refine ⟨[], by rw [k2]; simp, ?_⟩
      rw [h3]
      exact .acked b l1 l2 O I X Y k1 (by rw [k2]; exact h2) rfl rfl (fun z hz => h5 z (List.mem_cons_of_mem _ hz)) hb
    | nil =>
      simp only [List.nil_append, List.cons.injEq] at h4
      obtain ⟨rfl, rfl⟩ := h4
      have k := recv_acked_kept h1 hs
      have hb := both_calm h6 k .nil
      refine ⟨[], by rw [k.log], ?_⟩
      rw [h3]
      exact .live O I X Y (by rw [k.log]; simpa using h2) hb
  | live O I X Y h1 h2 =>
    obtain ⟨l, O', I', X', Y', k1, k2⟩ := both_recv hcons hn (by rw [hcl, hsc]; rfl) (.inl hcl) hr h2 hs hc
    exact ⟨l, k1, .live O' I' X' Y' (by rw [k1]; simp [h1]) k2⟩

structure BothInv (cc sc : Cfg) (id : Bytes) (s : Sess) : Prop where
  rc : Reach cc [] s.c
  rd : Reach sc id s.d
  up : s.up ≤ (pipe s.c.log).length
  down : s.down ≤ (pipe s.d.log).length
  srv : s.d.srvWaiting = []
  phase : s.c.closed = true ∨ s.d.closed = true ∨
    BPhase cc sc s.c s.d ((pipe s.c.log).drop s.up) ((pipe s.d.log).drop s.down)

theorem both_inv {ops : List SessOp} {s : Sess} (hcons : BothConsistent cc sc) (hnc : cc.allowNative = false)
    (hns : sc.allowNative = false) (hcl : cc.isClient = true) (hsc : sc.isClient = false)
    (h : BothRun cc sc id ops s) : BothInv cc sc id s := by
  have honc : cc.onlyNative = false := by simp [Cfg.onlyNative, hnc]
  have hons : sc.onlyNative = false := by simp [Cfg.onlyNative, hns]
  induction h with
  | init =>
    refine ⟨.init, .init, Nat.zero_le _, Nat.zero_le _, ?_, .inr (.inr ?_)⟩
    · simp only [newSess, newConn_eq hons]
    · simp only [newSess, newConn_eq honc, newConn_eq hons]
      exact .greet ⟨rfl, rfl, rfl, rfl, rfl, rfl, rfl⟩ ⟨rfl, rfl, rfl, rfl, rfl, rfl, rfl⟩ rfl rfl (.inl ⟨rfl, rfl⟩) .nil
  | @step ops s s' op hrun ho hstep ih =>
    have drop_app : ∀ {a b : List (MsgType × Bytes)} {n : Nat}, n ≤ a.length → (a ++ b).drop n = a.drop n ++ b :=
      fun {a b n} hn => by rw [List.drop_append, Nat.sub_eq_zero_of_le hn]; rfl
    cases op with
    | client op =>
      simp only [sstep] at hstep
      split at hstep
      · cases hstep
      · obtain ⟨t, ht, rfl⟩ := Option.map_eq_some_iff.mp hstep
        obtain ⟨l, hl⟩ := log_grows ih.rc ht
        refine ⟨.step ih.rc ht, ih.rd, ?_, ih.down, ih.srv, ?_⟩
        · simp only [hl, pipe_append, List.length_append]; exact Nat.le_trans ih.up (Nat.le_add_right ..)
        · cases hc : t.closed with
          | true => exact .inl rfl
          | false =>
            have hc0 := closed_of_prims (reach_prims ih.rc ht) hc
            rcases ih.phase with x | x | x
            · rw [hc0] at x; cases x
            · exact .inr (.inl x)
            · obtain ⟨l', hl', hp⟩ := both_cli hcons hnc hcl ih.rc ho x ht hc
              refine .inr (.inr ?_)
              simp only [hl', pipe_append, drop_app ih.up]
              exact hp
    | server op =>
      simp only [sstep] at hstep
      split at hstep
      · cases hstep
      · obtain ⟨t, ht, rfl⟩ := Option.map_eq_some_iff.mp hstep
        obtain ⟨l, hl⟩ := log_grows ih.rd ht
        refine ⟨ih.rc, .step ih.rd ht, ih.up, ?_, (srv_same ho ht).trans ih.srv, ?_⟩
        · simp only [hl, pipe_append, List.length_append]; exact Nat.le_trans ih.down (Nat.le_add_right ..)
        · cases hc : t.closed with
          | true => exact .inr (.inl rfl)
          | false =>
            have hc0 := closed_of_prims (reach_prims ih.rd ht) hc
            rcases ih.phase with x | x | x
            · exact .inl x
            · rw [hc0] at x; cases x
            · obtain ⟨l', hl', hp⟩ := both_srv hcons hns hsc ih.rc ih.rd ho x ht hc
              refine .inr (.inr ?_)
              simp only [hl', pipe_append, drop_app ih.down]
              exact hp
    | up =>
      simp only [sstep] at hstep
      split at hstep
      · cases hstep
      · rename_i ty b hb
        obtain ⟨t, ht, rfl⟩ := Option.map_eq_some_iff.mp hstep
        obtain ⟨l, hl⟩ := log_grows ih.rd ht
        have hlt : s.up < (pipe s.c.log).length := (List.getElem?_eq_some_iff.mp hb).1
        have hsv : SrvSame s.d t := by
          rw [(recv_idle ht).2]
          exact srvSame_steady.recv _ _ _
        refine ⟨ih.rc, .step ih.rd ht, hlt, ?_, hsv.trans ih.srv, ?_⟩
        · simp only [hl, pipe_append, List.length_append]; exact Nat.le_trans ih.down (Nat.le_add_right ..)
        · cases hc : t.closed with
          | true => exact .inr (.inl rfl)
          | false =>
            have hc0 := closed_of_prims (reach_prims ih.rd ht) hc
            rcases ih.phase with x | x | x
            · exact .inl x
            · rw [hc0] at x; cases x
            · rw [List.drop_eq_getElem_cons hlt, (List.getElem?_eq_some_iff.mp hb).2] at x
              obtain ⟨l', hl', hp⟩ := both_up hcons hns hcl hsc ih.srv ih.rc ih.rd x ht hc
              refine .inr (.inr ?_)
              simp only [hl', pipe_append, drop_app ih.down]
              exact hp
    | down =>
      simp only [sstep] at hstep
      split at hstep
      · cases hstep
      · rename_i ty b hb
        obtain ⟨t, ht, rfl⟩ := Option.map_eq_some_iff.mp hstep
        obtain ⟨l, hl⟩ := log_grows ih.rc ht
        have hlt : s.down < (pipe s.d.log).length := (List.getElem?_eq_some_iff.mp hb).1
        refine ⟨.step ih.rc ht, ih.rd, ?_, hlt, ih.srv, ?_⟩
        · simp only [hl, pipe_append, List.length_append]; exact Nat.le_trans ih.up (Nat.le_add_right ..)
        · cases hc : t.closed with
          | true => exact .inl rfl
          | false =>
            have hc0 := closed_of_prims (reach_prims ih.rc ht) hc
            rcases ih.phase with x | x | x
            · rw [hc0] at x; cases x
            · exact .inr (.inl x)
            · rw [List.drop_eq_getElem_cons hlt, (List.getElem?_eq_some_iff.mp hb).2] at x
              obtain ⟨l', hl', hp⟩ := both_down hcons hnc hcl hsc ih.rc x ht hc
              refine .inr (.inr ?_)
              simp only [hl', pipe_append, drop_app ih.up]
              exact hp
    | upAsk i => exact (show False from ho).elim
    | downAsk i => exact (show False from ho).elim

theorem Half.notNs {n : Bytes} (h : Half cl known s A B X) (hn : ∀ a ∈ s.asks, a.done = false → about a.cont ≠ some (n, none)) :
    ∀ z ∈ handledBy B X, ∀ q, z.1.req = some q → ¬ q.onNs n := by
  intro z hz q hq hon
  have hp := calls_of_handled (A := A) hz
  obtain ⟨box, hb⟩ := h.askOf hp
  obtain ⟨_, _, q', hq', _, _, k, _⟩ := h.ready _ hp
  rw [hq] at hq'
  cases hq'
  refine hn _ (List.mem_of_getElem? hb) rfl ?_
  rw [k, onNs_about hon]

theorem Half.notRoom {n r : Bytes} (h : Half cl known s A B X) (hn : Unclaimed s (n, some r)) :
    ∀ z ∈ handledBy B X, ∀ q, z.1.req = some q → ¬ q.onRoom n r := by
  intro z hz q hq hon
  have hp := calls_of_handled (A := A) hz
  obtain ⟨box, hb⟩ := h.askOf hp
  obtain ⟨_, _, q', hq', _, _, k, _⟩ := h.ready _ hp
  rw [hq] at hq'
  cases hq'
  exact hn _ (List.mem_of_getElem? hb) rfl _ k (onRoom_clash hon)

theorem Both.agree_ns {n : Bytes} (h : Both x y s t po pi O I X Y)
    (hs : ∀ a ∈ s.asks, a.done = false → about a.cont ≠ some (n, none))
    (ht : ∀ a ∈ t.asks, a.done = false → about a.cont ≠ some (n, none)) : InNs s n ↔ InNs t n :=
  h.differ.ns n (h.mine.notNs hs) (h.yours.notNs ht)

theorem Both.agree_room {n r : Bytes} (h : Both x y s t po pi O I X Y)
    (hs : Unclaimed s (n, some r)) (ht : Unclaimed t (n, some r)) : InRoom s n r ↔ InRoom t n r :=
  h.differ.room n r (h.mine.notRoom hs) (h.yours.notRoom ht)

end Neffos
