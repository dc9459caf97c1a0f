import Verif.Spec.AskFate
import Verif.Props.AskRace
import Verif.Props.Places
import Verif.Proofs.AgreeBoth
/-!
Helper for C97: invariants of the tables of Asks, and runs that bring an Ask or the reader on.
-/
set_option autoImplicit false
namespace Neffos.AskFate
open Spec

variable {cl : Bool} {s s' : ASt}

theorem arun_cons {op : AOp} {ops : List AOp} {u : ASt} (h : s.step cl op = some u) :
    s.run cl (op :: ops) = u.run cl ops := by
  simp only [ASt.run, h]

/-! ## More invariants -/

/-- the reader refers to an Ask that exists -/
def RdInAsk (s : ASt) : Prop := ∀ i k, s.rd = .inAsk i k → ∃ a, s.asks[i]? = some a

theorem rdInAsk_step {op : AOp} (hv : RdInAsk s) (h : ANext cl s op s') : RdInAsk s' := by
  have k := (anext_keep h).asks
  have go : s'.rd = s.rd → RdInAsk s' := by
    intro e i n hr
    rw [e] at hr
    obtain ⟨a, ha⟩ := hv i n hr
    obtain ⟨a', ha', _⟩ := k i a ha
    exact ⟨a', ha'⟩
  cases h
  case callCb srv k' hr hc =>
    intro i n hi
    cases hi
    exact ⟨{ srv := srv }, by simp⟩
  all_goals first
    | exact go rfl
    | (intro i n hi; cases hi)

/-- the Ask has its token, and has not returned -/
def Tokened : APc → Prop
  | .reg | .write | .wait | .forget _ => True
  | _ => False

/-- the tokens are readings of the clock -/
def ClockTok (cl : Bool) (a : AskT) : Prop := Tokened a.pc → ∃ now, a.tok = genWait (cl && !a.srv) now

theorem clockTok_step {op : AOp} (hv : ∀ (i : Nat) (a : AskT), s.asks[i]? = some a → ClockTok cl a)
    (h : ANext cl s op s') : ∀ (i : Nat) (a : AskT), s'.asks[i]? = some a → ClockTok cl a := by
  have upd : ∀ {j : Nat} {b b' : AskT}, s.asks[j]? = some b → (ClockTok cl b → ClockTok cl b') →
      ∀ (i : Nat) (a : AskT), (s.asks.set j b')[i]? = some a → ClockTok cl a := by
    intro j b b' hj hx i a ha
    rcases getElem?_set_some hj ha with ⟨_, rfl⟩ | ⟨_, ha⟩
    · exact hx (hv j b hj)
    · exact hv i a ha
  have app : ∀ srv (i : Nat) (a : AskT), (s.asks ++ [{ srv := srv }])[i]? = some a → ClockTok cl a := by
    intro srv i a ha
    by_cases hl : i < s.asks.length
    · rw [List.getElem?_append_left hl] at ha
      exact hv i a ha
    · rw [List.getElem?_append_right (by omega)] at ha
      have := List.mem_of_getElem? ha
      rw [List.mem_singleton] at this
      subst this
      exact fun hx => hx.elim
  cases h
  case call srv _ => exact app srv
  case callCb srv _ _ _ => exact app srv
  case tok j b n o hj hp => exact upd hj (fun _ _ => ⟨n, rfl⟩)
  all_goals first
    | exact hv
    | (apply upd
       · assumption
       · intro h hx
         first
           | exact hx.elim
           | exact h hx
           | exact h (by simp only [*, Tokened]))

theorem close_mono {op : AOp} (h : ANext cl s op s') (hc : s.cl = .net ∨ s.cl = .done) :
    s'.cl = .net ∨ s'.cl = .done := by
  cases h
  case dead => 
    show (if s.cl = .open then ClPc.fire else s.cl) = _ ∨ _
    rw [if_neg (by rintro e; rw [e] at hc; rcases hc with hc | hc <;> cases hc)]
    exact hc
  case close hx => rw [hx] at hc; rcases hc with hc | hc <;> cases hc
  case closeFire hx => rw [hx] at hc; rcases hc with hc | hc <;> cases hc
  case closeClear hx => rw [hx] at hc; rcases hc with hc | hc <;> cases hc
  case closeNet hx => exact .inr rfl
  all_goals exact hc

theorem net_step {op : AOp} (hv : s.netClosed = true → s.cl = .done) (h : ANext cl s op s') :
    s'.netClosed = true → s'.cl = .done := by
  cases h
  case dead hr hn =>
    intro _
    show (if s.cl = .open then ClPc.fire else s.cl) = _
    rw [if_neg (by rintro e; rw [hv hn] at e; cases e)]
    exact hv hn
  case close hx => intro hn; rw [hv hn] at hx; cases hx
  case closeFire hx => intro hn; rw [hv hn] at hx; cases hx
  case closeClear hx => intro hn; rw [hv hn] at hx; cases hx
  case closeNet hx => exact fun _ => rfl
  all_goals exact hv

theorem pos_step {op : AOp} (hv : s.pos ≤ s.arr.length) (h : ANext cl s op s') : s'.pos ≤ s'.arr.length := by
  cases h
  case arrive => show s.pos ≤ (s.arr ++ _).length; rw [List.length_append]; exact Nat.le_add_right_of_le hv
  case read hp => exact hp
  case helpR hp => exact hp
  all_goals exact hv

/-- an Ask that only waits for the next message has no entry to delete -/
def ForgetOwn (a : AskT) : Prop := ∀ g, a.pc = .forget g → a.next = false

theorem forgetOwn_step {op : AOp} (hi : AInv s) (hv : ∀ (i : Nat) (a : AskT), s.asks[i]? = some a → ForgetOwn a)
    (h : ANext cl s op s') : ∀ (i : Nat) (a : AskT), s'.asks[i]? = some a → ForgetOwn a := by
  have upd : ∀ {j : Nat} {b b' : AskT}, s.asks[j]? = some b → (ForgetOwn b → ForgetOwn b') →
      ∀ (i : Nat) (a : AskT), (s.asks.set j b')[i]? = some a → ForgetOwn a := by
    intro j b b' hj hx i a ha
    rcases getElem?_set_some hj ha with ⟨_, rfl⟩ | ⟨_, ha⟩
    · exact hx (hv j b hj)
    · exact hv i a ha
  have app : ∀ srv (i : Nat) (a : AskT), (s.asks ++ [{ srv := srv }])[i]? = some a → ForgetOwn a := by
    intro srv i a ha
    by_cases hl : i < s.asks.length
    · rw [List.getElem?_append_left hl] at ha
      exact hv i a ha
    · rw [List.getElem?_append_right (by omega)] at ha
      have := List.mem_of_getElem? ha
      rw [List.mem_singleton] at this
      subst this
      intro g hx
      cases hx
  cases h
  case call srv _ => exact app srv
  case callCb srv _ _ _ => exact app srv
  case take j b n o g hj hp hn hb => exact upd hj (fun _ _ _ => hn)
  case srvSend j k b hr hj hp =>
    obtain ⟨t, hl, _⟩ := hi.rdS j k hr
    obtain ⟨c, hc, hn, _⟩ := hl.ex
    rw [hj] at hc; cases hc
    exact upd hj (fun _ _ _ => hn)
  case other m j b hc hw hj hp =>
    obtain ⟨c, hc, hn, _⟩ := (hi.stab _ _ hw).ex
    rw [hj] at hc; cases hc
    exact upd hj (fun _ _ _ => hn)
  all_goals first
    | exact hv
    | (apply upd
       · assumption
       · intro h g hx
         first
           | (cases hx; done)
           | exact h g hx)

/-- after Close emptied the table, no Ask that it lists waits -/
def LateTab (s : ASt) : Prop := s.cl = .net ∨ s.cl = .done → ∀ t i (a : AskT), mapGet s.waiting t = some i →
  s.asks[i]? = some a → a.pc ≠ .wait

/-- another Ask of the same kind has the token -/
def Taken (s : ASt) (i : Nat) (srv : Bool) (t : Bytes) : Prop :=
  ∃ j b, j ≠ i ∧ s.asks[j]? = some b ∧ b.tok = t ∧ b.srv = srv ∧ b.next = false ∧ b.pc.reg' = true

theorem Taken.keep {i : Nat} {srv : Bool} {t : Bytes} (h : Taken s i srv t) (k : AKeep s s') : Taken s' i srv t := by
  obtain ⟨j, b, h1, h2, h3, h4, h5, h6⟩ := h
  obtain ⟨b', k1, k2, k3⟩ := k.asks j b h2
  obtain ⟨k4, k5, k6⟩ := k3 h6
  exact ⟨j, b', h1, k1, k5.trans h3, k2.trans h4, k6.trans h5, k4⟩

/-- an Ask that may get an answer -/
def Open (a : AskT) : Prop := a.next = false ∧ (a.pc = .write ∨ a.pc = .wait)

/-- a Conn.Ask that may get an answer is in the table, unless that was emptied or another one took its token -/
def ConnTab (s : ASt) : Prop := ∀ (i : Nat) (a : AskT), s.asks[i]? = some a → a.srv = false → Open a →
  mapGet s.waiting a.tok = some i ∨ (s.cl = .net ∨ s.cl = .done) ∨ Taken s i false a.tok

/-- the same for a Server.Ask -/
def ServTab (s : ASt) : Prop := ∀ (i : Nat) (a : AskT), s.asks[i]? = some a → a.srv = true → Open a →
  mapGet s.srvWaiting a.tok = some i ∨ Taken s i true a.tok

theorem connTab_step {op : AOp} (hf : ∀ (i : Nat) (a : AskT), s.asks[i]? = some a → ForgetOwn a) (hv : ConnTab s) (h : ANext cl s op s') : ConnTab s' := by
  have hk := anext_keep h
  have hm := close_mono h
  -- an Ask that was open before with this token
  have old : ∀ {i : Nat} {a a' : AskT}, s.asks[i]? = some a → a'.tok = a.tok → a.srv = false → Open a →
      (mapGet s.waiting a.tok = some i → mapGet s'.waiting a.tok = some i ∨ (s'.cl = .net ∨ s'.cl = .done) ∨
        Taken s' i false a.tok) → mapGet s'.waiting a'.tok = some i ∨ (s'.cl = .net ∨ s'.cl = .done) ∨
        Taken s' i false a'.tok := by
    intro i a a' ha ht hs ho hx
    rw [ht]
    rcases hv i a ha hs ho with h | h | h
    · exact hx h
    · exact .inr (.inl (hm h))
    · exact .inr (.inr (h.keep hk))
  have upd : ∀ {j : Nat} {b b' : AskT}, s.asks[j]? = some b → s'.asks = s.asks.set j b' → s'.waiting = s.waiting →
      (b'.srv = false → Open b' → b'.tok = b.tok ∧ b.srv = false ∧ Open b) → ConnTab s' := by
    intro j b b' hj e1 e2 hx i a ha hs ho
    rw [e1] at ha
    rcases getElem?_set_some hj ha with ⟨rfl, rfl⟩ | ⟨_, ha⟩
    · obtain ⟨h1, h2, h3⟩ := hx hs ho
      exact old hj h1 h2 h3 (fun h => .inl (by rw [e2]; exact h))
    · exact old ha rfl hs ho (fun h => .inl (by rw [e2]; exact h))
  have same : s'.asks = s.asks → s'.waiting = s.waiting → ConnTab s' := by
    intro e1 e2 i a ha hs ho
    rw [e1] at ha
    exact old ha rfl hs ho (fun h => .inl (by rw [e2]; exact h))
  have app : ∀ srv, s'.asks = s.asks ++ [{ srv := srv }] → s'.waiting = s.waiting → ConnTab s' := by
    intro srv e1 e2 i a ha hs ho
    rw [e1] at ha
    by_cases hl : i < s.asks.length
    · rw [List.getElem?_append_left hl] at ha
      exact old ha rfl hs ho (fun h => .inl (by rw [e2]; exact h))
    · rw [List.getElem?_append_right (by omega)] at ha
      have := List.mem_of_getElem? ha
      rw [List.mem_singleton] at this
      subst this
      rcases ho.2 with hx | hx <;> cases hx
  cases h
  case call srv _ => exact app srv rfl rfl
  case callCb srv _ _ _ => exact app srv rfl rfl
  case closeClear hc =>
    intro i a ha hs ho
    exact .inr (.inl (.inl rfl))
  case regC j b n o hj hp hs hn =>
    intro i a ha hs' ho
    change (s.asks.set j _)[i]? = some a at ha
    rcases getElem?_set_some hj ha with ⟨rfl, rfl⟩ | ⟨hne, ha'⟩
    · exact .inl (by show mapGet (mapSet s.waiting b.tok i) b.tok = some i; rw [mapGet_mapSet, if_pos rfl])
    · refine old ha' rfl hs' ho (fun h => ?_)
      by_cases e : a.tok = b.tok
      · refine .inr (.inr ⟨j, { b with pc := .write }, fun e => hne e.symm, put_get hj, e.symm, hs, hn, rfl⟩)
      · exact .inl (by show mapGet (mapSet s.waiting b.tok j) a.tok = some i; rw [mapGet_mapSet, if_neg e]; exact h)
  case regN j b n o hj hp hs hn =>
    exact upd hj rfl rfl (fun _ ho => by have := ho.1; simp only [hn] at this; cases this)
  case forgetC j b n o g hj hp hs =>
    intro i a ha hs' ho
    change (s.asks.set j _)[i]? = some a at ha
    rcases getElem?_set_some hj ha with ⟨rfl, rfl⟩ | ⟨hne, ha'⟩
    · rcases ho.2 with hx | hx <;> cases hx
    · refine old ha' rfl hs' ho (fun h => ?_)
      by_cases e : a.tok = b.tok
      · exact .inr (.inr ⟨j, { b with pc := .done (.answer g) }, fun e => hne e.symm, put_get hj, e.symm, hs,
          hf j b hj g hp, rfl⟩)
      · exact .inl (by show mapGet (mapDel s.waiting b.tok) a.tok = some i; rw [mapGet_mapDel, if_neg e]; exact h)
  all_goals first
    | exact same rfl rfl
    | (apply upd
       · assumption
       · rfl
       · rfl
       · intro hs ho
         first
           | (rcases ho.2 with hx | hx <;> cases hx; done)
           | exact ⟨rfl, hs, ho⟩
           | (refine ⟨rfl, hs, ho.1, ?_⟩; simp only [*]; done)
           | (refine ⟨rfl, hs, ho.1, ?_⟩; simp only [*, true_or, or_true]; done)
           | (simp_all; done))

theorem servTab_step {op : AOp} (hi : AInv s) (hf : ∀ (i : Nat) (a : AskT), s.asks[i]? = some a → ForgetOwn a) (hv : ServTab s) (h : ANext cl s op s') : ServTab s' := by
  have hk := anext_keep h
  -- an Ask that was open before with this token
  have old : ∀ {i : Nat} {a a' : AskT}, s.asks[i]? = some a → a'.tok = a.tok → a.srv = true → Open a →
      (mapGet s.srvWaiting a.tok = some i → mapGet s'.srvWaiting a.tok = some i ∨
        Taken s' i true a.tok) → mapGet s'.srvWaiting a'.tok = some i ∨
        Taken s' i true a'.tok := by
    intro i a a' ha ht hs ho hx
    rw [ht]
    rcases hv i a ha hs ho with h | h
    · exact hx h
    · exact .inr (h.keep hk)
  have upd : ∀ {j : Nat} {b b' : AskT}, s.asks[j]? = some b → s'.asks = s.asks.set j b' → s'.srvWaiting = s.srvWaiting →
      (b'.srv = true → Open b' → b'.tok = b.tok ∧ b.srv = true ∧ Open b) → ServTab s' := by
    intro j b b' hj e1 e2 hx i a ha hs ho
    rw [e1] at ha
    rcases getElem?_set_some hj ha with ⟨rfl, rfl⟩ | ⟨_, ha⟩
    · obtain ⟨h1, h2, h3⟩ := hx hs ho
      exact old hj h1 h2 h3 (fun h => .inl (by rw [e2]; exact h))
    · exact old ha rfl hs ho (fun h => .inl (by rw [e2]; exact h))
  have same : s'.asks = s.asks → s'.srvWaiting = s.srvWaiting → ServTab s' := by
    intro e1 e2 i a ha hs ho
    rw [e1] at ha
    exact old ha rfl hs ho (fun h => .inl (by rw [e2]; exact h))
  have app : ∀ srv, s'.asks = s.asks ++ [{ srv := srv }] → s'.srvWaiting = s.srvWaiting → ServTab s' := by
    intro srv e1 e2 i a ha hs ho
    rw [e1] at ha
    by_cases hl : i < s.asks.length
    · rw [List.getElem?_append_left hl] at ha
      exact old ha rfl hs ho (fun h => .inl (by rw [e2]; exact h))
    · rw [List.getElem?_append_right (by omega)] at ha
      have := List.mem_of_getElem? ha
      rw [List.mem_singleton] at this
      subst this
      rcases ho.2 with hx | hx <;> cases hx
  cases h
  case call srv _ => exact app srv rfl rfl
  case callCb srv _ _ _ => exact app srv rfl rfl
  case regS j b n o hj hp hs =>
    intro i a ha hs' ho
    change (s.asks.set j _)[i]? = some a at ha
    rcases getElem?_set_some hj ha with ⟨rfl, rfl⟩ | ⟨hne, ha'⟩
    · exact .inl (by show mapGet (mapSet s.srvWaiting b.tok i) b.tok = some i; rw [mapGet_mapSet, if_pos rfl])
    · refine old ha' rfl hs' ho (fun h => ?_)
      by_cases e : a.tok = b.tok
      · refine .inr (⟨j, { b with pc := .write }, fun e => hne e.symm, put_get hj, e.symm, hs, (hi.each j b hj).srv hs, rfl⟩)
      · exact .inl (by show mapGet (mapSet s.srvWaiting b.tok j) a.tok = some i; rw [mapGet_mapSet, if_neg e]; exact h)
  case forgetS j b n o g hj hp hs =>
    intro i a ha hs' ho
    change (s.asks.set j _)[i]? = some a at ha
    rcases getElem?_set_some hj ha with ⟨rfl, rfl⟩ | ⟨hne, ha'⟩
    · rcases ho.2 with hx | hx <;> cases hx
    · refine old ha' rfl hs' ho (fun h => ?_)
      by_cases e : a.tok = b.tok
      · exact .inr (⟨j, { b with pc := .done (.answer g) }, fun e => hne e.symm, put_get hj, e.symm, hs,
          hf j b hj g hp, rfl⟩)
      · exact .inl (by show mapGet (mapDel s.srvWaiting b.tok) a.tok = some i; rw [mapGet_mapDel, if_neg e]; exact h)
  all_goals first
    | exact same rfl rfl
    | (apply upd
       · assumption
       · rfl
       · rfl
       · intro hs ho
         first
           | (rcases ho.2 with hx | hx <;> cases hx; done)
           | exact ⟨rfl, hs, ho⟩
           | (refine ⟨rfl, hs, ho.1, ?_⟩; simp only [*]; done)
           | (refine ⟨rfl, hs, ho.1, ?_⟩; simp only [*, true_or, or_true]; done)
           | (simp_all; done))

theorem lateTab_step {op : AOp} (hi : AInv s) (hv : LateTab s) (h : ANext cl s op s') : LateTab s' := by
  have upd : ∀ {j : Nat} {b b' : AskT}, s.asks[j]? = some b → s'.asks = s.asks.set j b' → s'.cl = s.cl →
      (∀ t i, mapGet s'.waiting t = some i → mapGet s.waiting t = some i) →
      (b.pc ≠ .wait → b'.pc ≠ .wait) → LateTab s' := by
    intro j b b' hj e1 e2 e3 hx hc t i a ht ha
    rw [e1] at ha
    rw [e2] at hc
    rcases getElem?_set_some hj ha with ⟨rfl, rfl⟩ | ⟨_, ha⟩
    · exact hx (hv hc t i b (e3 t i ht) hj)
    · exact hv hc t i a (e3 t i ht) ha
  have same : s'.asks = s.asks → s'.waiting = s.waiting → (s'.cl = .net ∨ s'.cl = .done → s.cl = .net ∨ s.cl = .done) →
      LateTab s' := by
    intro e1 e2 e3 hc t i a ht ha
    rw [e1] at ha
    rw [e2] at ht
    exact hv (e3 hc) t i a ht ha
  have app : ∀ srv, s'.asks = s.asks ++ [{ srv := srv }] → s'.waiting = s.waiting → s'.cl = s.cl → LateTab s' := by
    intro srv e1 e2 e3 hc t i a ht ha
    rw [e1] at ha
    rw [e2] at ht
    rw [e3] at hc
    by_cases hl : i < s.asks.length
    · rw [List.getElem?_append_left hl] at ha
      exact hv hc t i a ht ha
    · obtain ⟨c, hc, _⟩ := (hi.tab t i ht).ex
      exact absurd (List.getElem?_eq_some_iff.mp hc).1 hl
  cases h
  case call srv _ => exact app srv rfl rfl rfl
  case callCb srv _ _ _ => exact app srv rfl rfl rfl
  case closeClear hc =>
    intro _ t i a ht
    cases ht
  case closeNet hc => exact same rfl rfl (fun _ => .inl hc)
  case closeFire hc => exact same rfl rfl (fun h => by rcases h with h | h <;> cases h)
  case close hc => exact same rfl rfl (fun h => by rcases h with h | h <;> cases h)
  case dead hr hn =>
    refine same rfl rfl (fun h => ?_)
    change (if s.cl = .open then ClPc.fire else s.cl) = _ ∨ (if s.cl = .open then ClPc.fire else s.cl) = _ at h
    split at h
    · rcases h with h | h <;> cases h
    · exact h
  case regC j b n o hj hp hs hn =>
    intro hc t i a ht ha
    change (s.asks.set j _)[i]? = some a at ha
    rcases getElem?_set_some hj ha with ⟨rfl, rfl⟩ | ⟨hne, ha⟩
    · intro e; cases e
    · change mapGet (mapSet s.waiting b.tok j) t = some i at ht
      rw [mapGet_mapSet] at ht
      split at ht
      · cases ht; exact absurd rfl hne
      · exact hv hc t i a ht ha
  case forgetC j b n o g hj hp hs =>
    refine upd hj rfl rfl (fun t i ht => ?_) (fun _ e => by cases e)
    change mapGet (mapDel s.waiting b.tok) t = some i at ht
    rw [mapGet_mapDel] at ht
    split at ht
    · cases ht
    · exact ht
  case write j b n o hj hp hs =>
    intro hc t i a ht ha
    change (s.asks.set j _)[i]? = some a at ha
    rcases getElem?_set_some hj ha with ⟨rfl, rfl⟩ | ⟨hne, ha⟩
    · obtain ⟨c, hc', _, _, hs', _⟩ := (hi.tab t i ht).ex
      rw [hj] at hc'; cases hc'
      rcases hs with hs | hs
      · rw [hs] at hs'; cases hs'
      · rcases hc with hc | hc <;> (change s.cl = _ at hc; simp [ASt.closed, hc] at hs)
    · exact hv hc t i a ht ha
  all_goals first
    | exact same rfl rfl id
    | (apply upd
       · assumption
       · rfl
       · rfl
       · exact fun _ _ h => h
       · first
         | (intro _ e; cases e; done)
         | exact id)

/-! ## All of them -/

structure FInv (cl : Bool) (s : ASt) : Prop where
  inv : AInv s
  rdAsk : RdInAsk s
  tok : ∀ (i : Nat) (a : AskT), s.asks[i]? = some a → ClockTok cl a
  net : s.netClosed = true → s.cl = .done
  pos : s.pos ≤ s.arr.length
  own : ∀ (i : Nat) (a : AskT), s.asks[i]? = some a → ForgetOwn a
  conn : ConnTab s
  serv : ServTab s
  late : LateTab s

theorem areach_finv (h : AReach cl s) : FInv cl s := by
  refine areach_ind (P := FInv cl) ⟨⟨(by simp), (by simp [mapGet]), (by simp [mapGet]), (by simp), (by simp)⟩,
    fun _ _ h => (by cases h), by simp, (by intro h; cases h), Nat.le_refl _, by simp, by simp [ConnTab],
    by simp [ServTab], by simp [LateTab]⟩
    (fun s op s' h h' => ⟨ainv_step h.inv h', rdInAsk_step h.rdAsk h', clockTok_step h.tok h', net_step h.net h',
      pos_step h.pos h', forgetOwn_step h.inv h.own h', connTab_step h.own h.conn h',
      servTab_step h.inv h.own h.serv h', lateTab_step h.inv h.late h'⟩) h

/-- there are no Server.Asks on a client -/
theorem client_asks (h : AReach true s) : ∀ (i : Nat) (a : AskT), s.asks[i]? = some a → a.srv = false := by
  refine areach_ind (P := fun s => ∀ (i : Nat) (a : AskT), s.asks[i]? = some a → a.srv = false) (by simp)
    (fun s op s' hv h => ?_) h
  have upd : ∀ {j : Nat} {b b' : AskT}, s.asks[j]? = some b → b'.srv = b.srv →
      ∀ (i : Nat) (a : AskT), (s.asks.set j b')[i]? = some a → a.srv = false := by
    intro j b b' hj hx i a ha
    rcases getElem?_set_some hj ha with ⟨_, rfl⟩ | ⟨_, ha⟩
    · exact hx.trans (hv j b hj)
    · exact hv i a ha
  have app : ∀ srv, (srv && true) = false → ∀ (i : Nat) (a : AskT), (s.asks ++ [{ srv := srv }])[i]? = some a →
      a.srv = false := by
    intro srv hs i a ha
    by_cases hl : i < s.asks.length
    · rw [List.getElem?_append_left hl] at ha
      exact hv i a ha
    · rw [List.getElem?_append_right (by omega)] at ha
      have := List.mem_of_getElem? ha
      rw [List.mem_singleton] at this
      subst this
      simpa using hs
  cases h
  case call srv hs => exact app srv hs
  case callCb srv _ _ hs => exact app srv hs
  all_goals first
    | exact hv
    | (apply upd
       · assumption
       · rfl)

theorem client_tab (h : AReach true s) (t : Bytes) : mapGet s.srvWaiting t = none := by
  cases hm : mapGet s.srvWaiting t with
  | none => rfl
  | some i =>
    obtain ⟨a, ha, _, _, hs, _⟩ := ((areach_inv h).stab t i hm).ex
    rw [client_asks h i a ha] at hs
    cases hs

/-! ## Getting a goroutine on -/

/-- the goroutine of the Ask can get to its end without the reader -/
def Ends (cl : Bool) (s : ASt) (i : Nat) : Prop :=
  ∃ ops t b r, s.run cl ops = some t ∧ t.asks[i]? = some b ∧ b.pc = .done r ∧ t.rd = s.rd

theorem Ends.step {i : Nat} {op : AOp} (h : s.step cl op = some s') (hr : s'.rd = s.rd) (he : Ends cl s' i) :
    Ends cl s i := by
  obtain ⟨ops, t, b, r, h1, h2, h3, h4⟩ := he
  exact ⟨op :: ops, t, b, r, (arun_cons h).trans h1, h2, h3, h4.trans hr⟩

theorem ends_now {i : Nat} {a : AskT} {r : ARes} (ha : s.asks[i]? = some a) (hp : a.pc = .done r) : Ends cl s i :=
  ⟨[], s, a, r, rfl, ha, hp, rfl⟩

theorem ends_wait {i : Nat} {a : AskT} (ha : s.asks[i]? = some a) (hp : a.pc = .wait) : Ends cl s i := by
  have h0 : s.step cl (.ctx i) = some (s.put i { a with pc := .done (if !a.srv && s.closed then .writeErr else .ctxErr) }) := by
    simp [ASt.step, ASt.ctxStep, ha, hp]
  exact Ends.step h0 rfl (ends_now (put_get ha) rfl)

theorem ends_write {i : Nat} {a : AskT} (ha : s.asks[i]? = some a) (hp : a.pc = .write) : Ends cl s i := by
  cases hs : a.srv with
  | true =>
    have h0 : s.step cl (.ask i 0 true) = some (s.put i { a with pc := .wait }) := by
      simp [ASt.step, ASt.askStep, ha, hp, hs]
    exact Ends.step h0 rfl (ends_wait (put_get ha) rfl)
  | false =>
    have h0 : s.step cl (.ask i 0 false) = some (s.put i { a with pc := .done .writeErr }) := by
      simp [ASt.step, ASt.askStep, ha, hp, hs]
    exact Ends.step h0 rfl (ends_now (put_get ha) rfl)

theorem ends_reg {i : Nat} {a : AskT} (ha : s.asks[i]? = some a) (hp : a.pc = .reg) : Ends cl s i := by
  cases hs : a.srv with
  | true =>
    have h0 : s.step cl (.ask i 0 true) =
        some ({ s with srvWaiting := mapSet s.srvWaiting a.tok i }.put i { a with pc := .write }) := by
      simp [ASt.step, ASt.askStep, ha, hp, hs]
    exact Ends.step h0 rfl (ends_write (put_get ha) rfl)
  | false =>
    cases hn : a.next with
    | true =>
      have h0 : s.step cl (.ask i 0 true) = some (s.put i { a with help := .reading, pc := .write }) := by
        simp [ASt.step, ASt.askStep, ha, hp, hs, hn]
      exact Ends.step h0 rfl (ends_write (put_get ha) rfl)
    | false =>
      have h0 : s.step cl (.ask i 0 true) =
          some ({ s with waiting := mapSet s.waiting a.tok i }.put i { a with pc := .write }) := by
        simp [ASt.step, ASt.askStep, ha, hp, hs, hn]
      exact Ends.step h0 rfl (ends_write (put_get ha) rfl)

theorem ends_tok {i : Nat} {a : AskT} (ha : s.asks[i]? = some a) (hp : a.pc = .tok) : Ends cl s i := by
  have h0 : s.step cl (.ask i 0 true) = some (s.put i { a with tok := genWait (cl && !a.srv) 0, pc := .reg }) := by
    simp [ASt.step, ASt.askStep, ha, hp]
  exact Ends.step h0 rfl (ends_reg (put_get ha) rfl)

theorem ends_check {i : Nat} {a : AskT} (ha : s.asks[i]? = some a) (hp : a.pc = .check) : Ends cl s i := by
  cases hc : s.closed with
  | true =>
    have h0 : s.step cl (.ask i 0 false) = some (s.put i { a with pc := .done .closedErr }) := by
      simp [ASt.step, ASt.askStep, ha, hp, hc]
    exact Ends.step h0 rfl (ends_now (put_get ha) rfl)
  | false =>
    have h0 : s.step cl (.ask i 0 false) = some (s.put i { a with pc := .done .ctxErr }) := by
      simp [ASt.step, ASt.askStep, ha, hp, hc]
    exact Ends.step h0 rfl (ends_now (put_get ha) rfl)

theorem ends_flag {i : Nat} {a : AskT} (ha : s.asks[i]? = some a) (hp : a.pc = .flag) : Ends cl s i := by
  cases hs : a.srv with
  | true =>
    have h0 : s.step cl (.ask i 0 true) = some (s.put i { a with pc := .tok }) := by
      simp [ASt.step, ASt.askStep, ha, hp, hs]
    exact Ends.step h0 rfl (ends_tok (put_get ha) rfl)
  | false =>
    have h0 : s.step cl (.ask i 0 true) = some (s.put i { a with next := s.inside, pc := .check }) := by
      simp [ASt.step, ASt.askStep, ha, hp, hs]
    exact Ends.step h0 rfl (ends_check (put_get ha) rfl)

theorem ends_forget {i : Nat} {a : AskT} {g : Got} (ha : s.asks[i]? = some a) (hp : a.pc = .forget g) :
    Ends cl s i := by
  cases hs : a.srv with
  | true =>
    have h0 : s.step cl (.ask i 0 true) =
        some ({ s with srvWaiting := mapDel s.srvWaiting a.tok }.put i { a with pc := .done (.answer g) }) := by
      simp [ASt.step, ASt.askStep, ha, hp, hs]
    exact Ends.step h0 rfl (ends_now (put_get ha) rfl)
  | false =>
    have h0 : s.step cl (.ask i 0 true) =
        some ({ s with waiting := mapDel s.waiting a.tok }.put i { a with pc := .done (.answer g) }) := by
      simp [ASt.step, ASt.askStep, ha, hp, hs]
    exact Ends.step h0 rfl (ends_now (put_get ha) rfl)

theorem ends {i : Nat} {a : AskT} (ha : s.asks[i]? = some a) : Ends cl s i := by
  cases hp : a.pc with
  | flag => exact ends_flag ha hp
  | check => exact ends_check ha hp
  | tok => exact ends_tok ha hp
  | reg => exact ends_reg ha hp
  | write => exact ends_write ha hp
  | wait => exact ends_wait ha hp
  | forget g => exact ends_forget ha hp
  | done r => exact ends_now ha hp

/-! ## The reader -/

/-- some message -/
def noMsg : Message := { event := [] }

/-- what a reader that is lost waits for -/
def AtDeaf (s : ASt) : Prop :=
  s.rd = .dead ∨ ∃ i k a, s.asks[i]? = some a ∧ PastReceiving s a ∧
    (s.rd = .srvSend i k ∨ s.rd = .connSend i k ∧ a.box ≠ none)

theorem moves_of_ends {i k : Nat} (hr : s.rd = .inAsk i k) (h : Ends cl s i) : ¬ ReaderStuck cl s := by
  obtain ⟨ops, t, b, r, h1, h2, h3, h4⟩ := h
  intro hx
  have h5 : t.step cl .reader = some { t with rd := .handler k } := by
    simp [ASt.step, ASt.readerStep, h4, hr, h2, h3]
  have := hx (ops ++ [.reader]) _ (by rw [arun_append h1]; exact (arun_cons h5))
  rw [hr] at this
  cases this

theorem deaf_of_stuck (hf : FInv cl s) (hx : ReaderStuck cl s) : AtDeaf s := by
  have one : ∀ {u : ASt}, s.step cl .reader = some u → u.rd = s.rd := fun h => hx [.reader] _ (arun_cons h)
  cases hr : s.rd with
  | dead => exact .inl hr
  | idle =>
    exfalso
    cases hn : s.netClosed with
    | true =>
      have h0 : s.step cl .reader = some { s with rd := .dead, cl := if s.cl = .open then .fire else s.cl } := by
        simp [ASt.step, ASt.readerStep, hr, hn]
      have := one h0
      rw [hr] at this; cases this
    | false =>
      have h0 : s.step cl (.arrive noMsg) = some { s with arr := s.arr ++ [noMsg] } := rfl
      have h1 : ({ s with arr := s.arr ++ [noMsg] } : ASt).step cl .reader =
          some { s with arr := s.arr ++ [noMsg], rd := .got s.pos, pos := s.pos + 1 } := by
        have : s.pos < (s.arr ++ [noMsg]).length := by
          rw [List.length_append]; exact Nat.lt_succ_of_le hf.pos
        simp only [ASt.step, ASt.readerStep, hr, hn]
        rw [if_neg (by simp), if_pos this]
      have := hx [.arrive noMsg, .reader] _ ((arun_cons h0).trans (arun_cons h1))
      rw [hr] at this; cases this
  | got k =>
    have h0 : s.step cl .reader = some { s with inside := true, rd := .srvLook k } := by
      simp [ASt.step, ASt.readerStep, hr]
    have := one h0
    rw [hr] at this; cases this
  | srvLook k =>
    cases hi : s.srvAsk cl k with
    | some i =>
      have h0 : s.step cl .reader = some { s with rd := .srvSend i k } := by
        simp [ASt.step, ASt.readerStep, hr, hi]
      have := one h0
      rw [hr] at this; cases this
    | none =>
      have h0 : s.step cl .reader = some { s with rd := .connLook k } := by
        simp [ASt.step, ASt.readerStep, hr, hi]
      have := one h0
      rw [hr] at this; cases this
  | connLook k =>
    cases hi : s.connAsk cl k with
    | some i =>
      have h0 : s.step cl .reader = some { s with rd := .connSend i k } := by
        simp [ASt.step, ASt.readerStep, hr, hi]
      have := one h0
      rw [hr] at this; cases this
    | none =>
      have h0 : s.step cl .reader = some { s with rd := .handler k } := by
        simp [ASt.step, ASt.readerStep, hr, hi]
      have := one h0
      rw [hr] at this; cases this
  | handler k =>
    have h0 : s.step cl .reader = some { s with rd := .clear } := by
      simp [ASt.step, ASt.readerStep, hr]
    have := one h0
    rw [hr] at this; cases this
  | clear =>
    have h0 : s.step cl .reader = some { s with inside := false, rd := .idle } := by
      simp [ASt.step, ASt.readerStep, hr]
    have := one h0
    rw [hr] at this; cases this
  | inAsk i k =>
    obtain ⟨a, ha⟩ := hf.rdAsk i k hr
    exact absurd hx (moves_of_ends hr (ends ha))
  | srvSend i k =>
    obtain ⟨t, hl, _⟩ := hf.inv.rdS i k hr
    obtain ⟨a, ha, _, _, hs, hp⟩ := hl.ex
    have send : ∀ {u : ASt} {b : AskT}, u.rd = .srvSend i k → u.asks[i]? = some b → b.pc = .wait →
        u.step cl .reader = some ({ u with rd := .clear }.put i { b with pc := .forget (.msg k) }) := by
      intro u b h1 h2 h3
      simp [ASt.step, ASt.readerStep, h1, h2, h3]
    refine .inr ⟨i, k, a, ha, ?_, .inl hr⟩
    cases hp' : a.pc with
    | wait =>
      have := one (send hr ha hp')
      rw [hr] at this; cases this
    | write =>
      have h0 : s.step cl (.ask i 0 true) = some (s.put i { a with pc := .wait }) := by
        simp [ASt.step, ASt.askStep, ha, hp', hs]
      have h1 := send (u := s.put i { a with pc := .wait }) hr (put_get ha) rfl
      have := hx [.ask i 0 true, .reader] _ ((arun_cons h0).trans (arun_cons h1))
      rw [hr] at this; cases this
    | forget g => exact .inl ⟨g, hp'⟩
    | done r => exact .inr (.inl ⟨r, hp'⟩)
    | flag => rw [hp'] at hp; cases hp
    | check => rw [hp'] at hp; cases hp
    | tok => rw [hp'] at hp; cases hp
    | reg => rw [hp'] at hp; cases hp
  | connSend i k =>
    obtain ⟨t, hl, _⟩ := hf.inv.rdC i k hr
    obtain ⟨a, ha, hn, _, hs, hp⟩ := hl.ex
    have send : ∀ {u : ASt} {b : AskT}, u.rd = .connSend i k → u.asks[i]? = some b → b.box = none →
        u.step cl .reader = some ({ u with rd := .clear }.put i { b with box := some (.msg k) }) := by
      intro u b h1 h2 h3
      simp [ASt.step, ASt.readerStep, h1, h2, h3]
    have take : ∀ {u : ASt} {b : AskT} {g : Got}, u.asks[i]? = some b → b.pc = .wait → b.next = false →
        b.box = some g → u.step cl (.ask i 0 true) = some (u.put i { b with box := none, pc := .forget g }) := by
      intro u b g h1 h2 h3 h4
      simp [ASt.step, ASt.askStep, h1, h2, h3, h4]
    cases hb : a.box with
    | none =>
      have := one (send hr ha hb)
      rw [hr] at this; cases this
    | some g =>
      refine .inr ⟨i, k, a, ha, ?_, .inr ⟨hr, by rw [hb]; simp⟩⟩
      cases hp' : a.pc with
      | wait =>
        have h0 := take ha hp' hn hb
        have h1 := send (u := s.put i { a with box := none, pc := .forget g }) hr (put_get ha) rfl
        have := hx [.ask i 0 true, .reader] _ ((arun_cons h0).trans (arun_cons h1))
        rw [hr] at this; cases this
      | write =>
        cases hc : s.closed with
        | true => exact .inr (.inr ⟨hp', hs, hc⟩)
        | false =>
          exfalso
          have h0 : s.step cl (.ask i 0 true) = some (s.put i { a with pc := .wait }) := by
            simp [ASt.step, ASt.askStep, ha, hp', hs, hc]
          have h1 := take (u := s.put i { a with pc := .wait }) (put_get ha) rfl hn hb
          have h2 := send (u := (s.put i { a with pc := .wait }).put i { a with box := none, pc := .forget g }) hr
            (put_get (put_get ha)) rfl
          have := hx [.ask i 0 true, .ask i 0 true, .reader] _ ((arun_cons h0).trans ((arun_cons h1).trans (arun_cons h2)))
          rw [hr] at this; cases this
      | forget g => exact .inl ⟨g, hp'⟩
      | done r => exact .inr (.inl ⟨r, hp'⟩)
      | flag => rw [hp'] at hp; cases hp
      | check => rw [hp'] at hp; cases hp
      | tok => rw [hp'] at hp; cases hp
      | reg => rw [hp'] at hp; cases hp

theorem past_keep {i : Nat} {a : AskT} {op : AOp} (hi : AInv s) (ha : s.asks[i]? = some a) (hn : a.next = false)
    (hq : PastReceiving s a) (h : ANext cl s op s') :
    ∃ a', s'.asks[i]? = some a' ∧ PastReceiving s' a' ∧ (a.box ≠ none → a'.box ≠ none) := by
  have hc : s.closed = true → s'.closed = true := closed_stays h
  have hk : PastReceiving s' a := hq.imp id (·.imp id (fun h => ⟨h.1, h.2.1, hc h.2.2⟩))
  have nw : a.pc ≠ .wait := by
    intro e
    rcases hq with ⟨g, h⟩ | ⟨g, h⟩ | ⟨h, _⟩ <;> rw [e] at h <;> cases h
  have np : a.pc ≠ .flag ∧ a.pc ≠ .check ∧ a.pc ≠ .tok ∧ a.pc ≠ .reg := by
    rcases hq with ⟨g, h⟩ | ⟨g, h⟩ | ⟨h, _⟩ <;> rw [h] <;> exact ⟨by simp, by simp, by simp, by simp⟩
  have nh : a.help = .none := by
    cases hh : a.help with
    | none => rfl
    | _ => exact absurd (((hi.each i a ha).help (by rw [hh]; simp)).1) (by rw [hn]; simp)
  have same : s'.asks[i]? = some a → ∃ a', s'.asks[i]? = some a' ∧ PastReceiving s' a' ∧ (a.box ≠ none → a'.box ≠ none) :=
    fun h => ⟨a, h, hk, id⟩
  have app : ∀ srv, s'.asks = s.asks ++ [{ srv := srv }] → s'.asks[i]? = some a := by
    intro srv e
    rw [e, List.getElem?_append_left (List.getElem?_eq_some_iff.mp ha).1]; exact ha
  have upd : ∀ {j : Nat} {b b' : AskT}, s.asks[j]? = some b → s'.asks = s.asks.set j b' →
      (b = a → PastReceiving s' b' ∧ (a.box ≠ none → b'.box ≠ none)) →
      ∃ a', s'.asks[i]? = some a' ∧ PastReceiving s' a' ∧ (a.box ≠ none → a'.box ≠ none) := by
    intro j b b' hj e hx
    by_cases hij : j = i
    · subst hij
      rw [ha] at hj; cases hj
      have hg : s'.asks[j]? = some b' := by
        rw [e, List.getElem?_set, if_pos rfl, if_pos (List.getElem?_eq_some_iff.mp ha).1]
      exact ⟨b', hg, hx rfl⟩
    · exact same (by rw [e, List.getElem?_set, if_neg hij]; exact ha)
  cases h
  case call srv _ => exact same (app srv rfl)
  case callCb srv _ _ _ => exact same (app srv rfl)
  case flagS hj hp _ => exact upd hj rfl (fun e => by subst e; exact absurd hp np.1)
  case flagC hj hp _ => exact upd hj rfl (fun e => by subst e; exact absurd hp np.1)
  case check hj hp _ _ => exact upd hj rfl (fun e => by subst e; exact absurd hp np.2.1)
  case checkF hj hp _ _ => exact upd hj rfl (fun e => by subst e; exact absurd hp np.2.1)
  case tok hj hp => exact upd hj rfl (fun e => by subst e; exact absurd hp np.2.2.1)
  case regS hj hp _ => exact upd hj rfl (fun e => by subst e; exact absurd hp np.2.2.2)
  case regN hj hp _ _ => exact upd hj rfl (fun e => by subst e; exact absurd hp np.2.2.2)
  case regC hj hp _ _ => exact upd hj rfl (fun e => by subst e; exact absurd hp np.2.2.2)
  case write hj hp hx =>
    refine upd hj rfl (fun e => ?_)
    subst e
    rcases hq with ⟨g, h⟩ | ⟨g, h⟩ | ⟨_, h1, h2⟩
    · rw [hp] at h; cases h
    · rw [hp] at h; cases h
    · rcases hx with hx | hx
      · rw [h1] at hx; cases hx
      · rw [h2] at hx; cases hx
  case writeF hj hp _ => exact upd hj rfl (fun e => by subst e; exact ⟨.inr (.inl ⟨_, rfl⟩), id⟩)
  case forgetS hj hp _ => exact upd hj rfl (fun e => by subst e; exact ⟨.inr (.inl ⟨_, rfl⟩), id⟩)
  case forgetC hj hp _ => exact upd hj rfl (fun e => by subst e; exact ⟨.inr (.inl ⟨_, rfl⟩), id⟩)
  case takeN hj hp _ _ => exact upd hj rfl (fun e => by subst e; exact absurd hp nw)
  case take hj hp _ _ => exact upd hj rfl (fun e => by subst e; exact absurd hp nw)
  case ctx hj hp => exact upd hj rfl (fun e => by subst e; exact absurd hp nw)
  case helpE hj hh _ => exact upd hj rfl (fun e => by subst e; rw [nh] at hh; cases hh)
  case helpR hj hh _ _ => exact upd hj rfl (fun e => by subst e; rw [nh] at hh; cases hh)
  case helpS hj hh _ => exact upd hj rfl (fun e => by subst e; rw [nh] at hh; cases hh)
  case srvSend hr' hj hp => exact upd hj rfl (fun e => by subst e; exact absurd hp nw)
  case other hj hp => exact upd hj rfl (fun e => by subst e; exact absurd hp nw)
  case connSend hr' hj hb =>
    refine upd hj rfl (fun e => ⟨?_, fun _ => by simp⟩)
    subst e
    exact hq.imp id (·.imp id (fun h => ⟨h.1, h.2.1, hc h.2.2⟩))
  all_goals exact same ha

theorem atDeaf_step {op : AOp} (hi : AInv s) (hd : AtDeaf s) (h : ANext cl s op s') : AtDeaf s' ∧ s'.rd = s.rd := by
  rcases hd with hr | ⟨i, k, a, ha, hq, hr⟩
  · have : s'.rd = s.rd := by cases h <;> first | rfl | simp_all
    exact ⟨.inl (this.trans hr), this⟩
  · have hn : a.next = false := by
      rcases hr with hr | ⟨hr, _⟩
      · obtain ⟨t, hl, _⟩ := hi.rdS i k hr
        obtain ⟨c, hc, hn, _⟩ := hl.ex
        rw [ha] at hc; cases hc; exact hn
      · obtain ⟨t, hl, _⟩ := hi.rdC i k hr
        obtain ⟨c, hc, hn, _⟩ := hl.ex
        rw [ha] at hc; cases hc; exact hn
    have nw : a.pc ≠ .wait := by
      intro e
      rcases hq with ⟨g, h⟩ | ⟨g, h⟩ | ⟨h, _⟩ <;> rw [e] at h <;> cases h
    have he : s'.rd = s.rd := by
      cases h
      case srvSend j n b hr' hj hp =>
        rcases hr with hr | ⟨hr, _⟩
        · rw [hr'] at hr; cases hr
          rw [ha] at hj; cases hj
          exact absurd hp nw
        · rw [hr'] at hr; cases hr
      case connSend j n b hr' hj hb =>
        rcases hr with hr | ⟨hr, hx⟩
        · rw [hr'] at hr; cases hr
        · rw [hr'] at hr; cases hr
          rw [ha] at hj; cases hj
          exact absurd hb hx
      all_goals first
        | rfl
        | (rcases hr with hr | ⟨hr, _⟩ <;> simp_all)
    obtain ⟨a', h1, h2, h3⟩ := past_keep hi ha hn hq h
    refine ⟨.inr ⟨i, k, a', h1, h2, ?_⟩, he⟩
    rcases hr with hr | ⟨hr, hb⟩
    · exact .inl (he.trans hr)
    · exact .inr ⟨he.trans hr, h3 hb⟩

theorem stuck_of_deaf (hi : AInv s) (hd : AtDeaf s) : ReaderStuck cl s := by
  intro ops t h
  have : AInv t ∧ AtDeaf t ∧ t.rd = s.rd := by
    refine arun_ind (P := fun t => AInv t ∧ AtDeaf t ∧ t.rd = s.rd) ⟨hi, hd, rfl⟩ ?_ h
    rintro u op u' ⟨h1, h2, h3⟩ hx
    obtain ⟨h4, h5⟩ := atDeaf_step h1 h2 hx
    exact ⟨ainv_step h1 hx, h4, h5.trans h3⟩
  exact this.2.2

/-! ## Answers -/

theorem may_cons {i : Nat} {op : AOp} (h : s.step cl op = some s') (ho : op ≠ .ctx i) (hm : MayReturn cl s' i) :
    MayReturn cl s i := by
  obtain ⟨ops, t, b, g, h1, h2, h3, h4⟩ := hm
  refine ⟨op :: ops, t, b, g, ?_, (arun_cons h).trans h2, h3, h4⟩
  simp only [List.mem_cons, not_or]
  exact ⟨fun e => ho e.symm, h1⟩

theorem may_done {i : Nat} {a : AskT} {g : Got} (ha : s.asks[i]? = some a) (hp : a.pc = .done (.answer g)) :
    MayReturn cl s i := ⟨[], s, a, g, by simp, rfl, ha, hp⟩

theorem may_forget {i : Nat} {a : AskT} {g : Got} (ha : s.asks[i]? = some a) (hp : a.pc = .forget g) :
    MayReturn cl s i := by
  cases hs : a.srv with
  | true =>
    have h0 : s.step cl (.ask i 0 true) =
        some ({ s with srvWaiting := mapDel s.srvWaiting a.tok }.put i { a with pc := .done (.answer g) }) := by
      simp [ASt.step, ASt.askStep, ha, hp, hs]
    exact may_cons h0 (by simp) (may_done (put_get ha) rfl)
  | false =>
    have h0 : s.step cl (.ask i 0 true) =
        some ({ s with waiting := mapDel s.waiting a.tok }.put i { a with pc := .done (.answer g) }) := by
      simp [ASt.step, ASt.askStep, ha, hp, hs]
    exact may_cons h0 (by simp) (may_done (put_get ha) rfl)

theorem may_box {i : Nat} {a : AskT} {g : Got} (ha : s.asks[i]? = some a) (hp : a.pc = .wait) (hb : a.box = some g) :
    MayReturn cl s i := by
  cases hn : a.next with
  | true =>
    have h0 : s.step cl (.ask i 0 true) = some (s.put i { a with box := none, pc := .done (.answer g) }) := by
      simp [ASt.step, ASt.askStep, ha, hp, hb, hn]
    exact may_cons h0 (by simp) (may_done (put_get ha) rfl)
  | false =>
    have h0 : s.step cl (.ask i 0 true) = some (s.put i { a with box := none, pc := .forget g }) := by
      simp [ASt.step, ASt.askStep, ha, hp, hb, hn]
    exact may_cons h0 (by simp) (may_forget (put_get ha) rfl)

theorem may_connSend {i k : Nat} {a : AskT} (hr : s.rd = .connSend i k) (ha : s.asks[i]? = some a)
    (hp : a.pc = .wait) : MayReturn cl s i := by
  cases hb : a.box with
  | some g => exact may_box ha hp hb
  | none =>
    have h0 : s.step cl .reader = some ({ s with rd := .clear }.put i { a with box := some (.msg k) }) := by
      simp [ASt.step, ASt.readerStep, hr, ha, hb]
    exact may_cons h0 (by simp) (may_box (put_get ha) hp rfl)

theorem may_listed {i : Nat} {a : AskT} (hf : FInv cl s) (hq : AllRead s) (ha : s.asks[i]? = some a)
    (hp : a.pc = .wait) (hs : a.srv = false) (ht : mapGet s.waiting a.tok = some i)
    (hx : mapGet s.srvWaiting a.tok = none) : MayReturn cl s i := by
  obtain ⟨hr, hpos⟩ := hq
  have hnet : s.netClosed = false := by
    cases hn : s.netClosed with
    | false => rfl
    | true => exact absurd hp (hf.late (.inr (hf.net hn)) _ _ _ ht ha)
  obtain ⟨now, hw⟩ := hf.tok i a ha (by rw [hp]; trivial)
  have hw' : ({ wait := a.tok } : Message).isWait cl = true := by
    apply SideTok.own
    show SideTok cl a.tok
    rw [hw, hs, Bool.not_false, Bool.and_true]
    exact sideTok_genWait cl now
  generalize hm : ({ wait := a.tok } : Message) = m at hw'
  have hmw : m.wait = a.tok := by rw [← hm]
  have hk : (s.arr ++ [m])[s.pos]? = some m := by
    rw [hpos, List.getElem?_append_right (Nat.le_refl _), Nat.sub_self]; rfl
  have h0 : s.step cl (.arrive m) = some { s with arr := s.arr ++ [m] } := rfl
  refine may_cons h0 (by simp) ?_
  have h1 : ({ s with arr := s.arr ++ [m] } : ASt).step cl .reader =
      some { s with arr := s.arr ++ [m], rd := .got s.pos, pos := s.pos + 1 } := by
    have : s.pos < (s.arr ++ [m]).length := by
      rw [List.length_append]; exact Nat.lt_succ_of_le hf.pos
    simp only [ASt.step, ASt.readerStep, hr, hnet]
    rw [if_neg (by simp), if_pos this]
  refine may_cons h1 (by simp) ?_
  have h2 : ({ s with arr := s.arr ++ [m], rd := .got s.pos, pos := s.pos + 1 } : ASt).step cl .reader =
      some { s with arr := s.arr ++ [m], rd := .srvLook s.pos, pos := s.pos + 1, inside := true } := rfl
  refine may_cons h2 (by simp) ?_
  have h3 : ({ s with arr := s.arr ++ [m], rd := .srvLook s.pos, pos := s.pos + 1, inside := true } : ASt).step cl .reader =
      some { s with arr := s.arr ++ [m], rd := .connLook s.pos, pos := s.pos + 1, inside := true } := by
    simp only [ASt.step, ASt.readerStep, ASt.srvAsk, hk, hmw, hx, ite_self]
  refine may_cons h3 (by simp) ?_
  have h4 : ({ s with arr := s.arr ++ [m], rd := .connLook s.pos, pos := s.pos + 1, inside := true } : ASt).step cl .reader =
      some { s with arr := s.arr ++ [m], rd := .connSend i s.pos, pos := s.pos + 1, inside := true } := by
    simp only [ASt.step, ASt.readerStep, ASt.connAsk, hk, hmw, ht, hw', if_true]
  refine may_cons h4 (by simp) ?_
  exact may_connSend (s := { s with arr := s.arr ++ [m], rd := .connSend i s.pos, pos := s.pos + 1, inside := true })
    rfl ha hp

theorem not_may_conn {i : Nat} {a : AskT} (hi : AInv s) (ha : s.asks[i]? = some a) (hp : a.pc = .wait)
    (hs : a.srv = false) (hn : a.next = false) (hb : a.box = none) (ht : mapGet s.waiting a.tok ≠ some i)
    (hr : ∀ k, s.rd ≠ .connSend i k) : ¬ MayReturn cl s i := by
  rintro ⟨ops, t, b, g, h1, h2, h3, h4⟩
  have hl : Lost i a s := ⟨ha, fun t e => ?_, hr⟩
  · have := (lost_run hi hl hp hb hn hs h1 h2).2.ask
    rw [h3] at this; cases this
    rw [hp] at h4; cases h4
  · obtain ⟨c, hc, _, hk, _⟩ := (hi.tab t i e).ex
    rw [ha] at hc; cases hc
    exact ht (hk ▸ e)

/-- a Server.Ask that nobody can answer any more -/
structure SLost (i : Nat) (a : AskT) (s : ASt) : Prop where
  ask : s.asks[i]? = some a
  tab : ∀ t, mapGet s.srvWaiting t ≠ some i
  rd : ∀ k, s.rd ≠ .srvSend i k

theorem slost_step {op : AOp} {i : Nat} {a : AskT} (hi : AInv s) (h : SLost i a s) (hp : a.pc = .wait)
    (hb : a.box = none) (hn : a.next = false) (hs : a.srv = true) (hc : op ≠ .ctx i) (h' : ANext cl s op s') :
    SLost i a s' := by
  have nh : a.help = .none := by
    cases hh : a.help with
    | none => rfl
    | _ => exact absurd (((hi.each i a h.ask).help (by rw [hh]; simp)).1) (by rw [hn]; simp)
  have upd : ∀ {j : Nat} {b b' : AskT}, s.asks[j]? = some b → s'.asks = s.asks.set j b' →
      (∀ t k, mapGet s'.srvWaiting t = some k → mapGet s.srvWaiting t = some k ∨ k = j) →
      (∀ k, s'.rd = .srvSend i k → s.rd = .srvSend i k) → (b = a → j ≠ i) → SLost i a s' := by
    intro j b b' hj e1 e2 e3 hx
    have hne : j ≠ i := by
      intro e
      subst e
      rw [h.ask] at hj; cases hj
      exact hx rfl rfl
    refine ⟨by rw [e1, List.getElem?_set, if_neg hne]; exact h.ask, fun t ht => ?_, fun k hk => h.rd k (e3 k hk)⟩
    rcases e2 t i ht with h1 | h1
    · exact h.tab t h1
    · exact hne h1.symm
  have same : s.asks <+: s'.asks → s'.srvWaiting = s.srvWaiting → (∀ k, s'.rd = .srvSend i k → s.rd = .srvSend i k) →
      SLost i a s' := by
    rintro ⟨l, hl⟩ e1 e2
    refine ⟨?_, fun t ht => h.tab t (by rw [← e1]; exact ht), fun k hk => h.rd k (e2 k hk)⟩
    rw [← hl, List.getElem?_append_left (List.getElem?_eq_some_iff.mp h.ask).1]; exact h.ask
  have npc : ∀ {j : Nat} {b : AskT}, s.asks[j]? = some b → b.pc ≠ .wait → b = a → j ≠ i := by
    rintro j b _ hx rfl
    exact absurd hp hx
  cases h'
  case call => exact same (List.prefix_append _ _) rfl (fun _ e => e)
  case callCb => exact same (List.prefix_append _ _) rfl (fun _ e => by cases e)
  case srvYes k j hr hj =>
    refine same (List.prefix_refl _) rfl (fun n e => ?_)
    cases e
    unfold ASt.srvAsk at hj
    split at hj
    · cases hj
    · split at hj
      · exact absurd hj (h.tab _)
      · cases hj
  case regS j b n o hj hpj hsj =>
    refine upd hj rfl (fun t k ht => ?_) (fun _ e => e) (npc hj (by rw [hpj]; simp))
    change mapGet (mapSet s.srvWaiting b.tok j) t = some k at ht
    rw [mapGet_mapSet] at ht
    split at ht
    · cases ht; exact .inr rfl
    · exact .inl ht
  case forgetS j b n o g hj hpj hsj =>
    refine upd hj rfl (fun t k ht => ?_) (fun _ e => e) (npc hj (by rw [hpj]; simp))
    change mapGet (mapDel s.srvWaiting b.tok) t = some k at ht
    rw [mapGet_mapDel] at ht
    split at ht
    · cases ht
    · exact .inl ht
  case takeN hj hpj hnj hbj => exact upd hj rfl (fun _ _ e => .inl e) (fun _ e => e) (fun e => by subst e; rw [hb] at hbj; cases hbj)
  case take hj hpj hnj hbj => exact upd hj rfl (fun _ _ e => .inl e) (fun _ e => e) (fun e => by subst e; rw [hb] at hbj; cases hbj)
  case ctx hj hpj => exact upd hj rfl (fun _ _ e => .inl e) (fun _ e => e) (fun _ e => by subst e; exact hc rfl)
  case helpE hj hh _ => exact upd hj rfl (fun _ _ e => .inl e) (fun _ e => e) (fun e => by subst e; rw [nh] at hh; cases hh)
  case helpR hj hh _ _ => exact upd hj rfl (fun _ _ e => .inl e) (fun _ e => e) (fun e => by subst e; rw [nh] at hh; cases hh)
  case helpS hj hh _ => exact upd hj rfl (fun _ _ e => .inl e) (fun _ e => e) (fun e => by subst e; rw [nh] at hh; cases hh)
  case srvSend j k b hr hj hpj =>
    refine upd hj rfl (fun _ _ e => .inl e) (fun _ e => by cases e) (fun _ e => ?_)
    subst e
    exact h.rd k hr
  case connSend j k b hr hj hbj =>
    refine upd hj rfl (fun _ _ e => .inl e) (fun _ e => by cases e) (fun _ e => ?_)
    subst e
    obtain ⟨t, hl, _⟩ := hi.rdC j k hr
    obtain ⟨c, hc, _, _, hs', _⟩ := hl.ex
    rw [h.ask] at hc; cases hc
    rw [hs] at hs'; cases hs'
  case other m j b hc' hw hj hpj =>
    refine upd hj rfl (fun _ _ e => .inl e) (fun _ e => e) (fun _ e => ?_)
    subst e
    exact h.tab _ hw
  all_goals first
    | exact same (List.prefix_refl _) rfl (fun _ e => e)
    | exact same (List.prefix_refl _) rfl (fun _ e => by cases e)
    | (apply upd
       · assumption
       · rfl
       · exact fun _ _ e => .inl e
       · exact fun _ e => e
       · rename_i hj hpj
         exact npc (by assumption) (by simp_all))

theorem slost_run {ops : List AOp} {i : Nat} {a : AskT} (hi : AInv s) (h : SLost i a s) (hp : a.pc = .wait)
    (hb : a.box = none) (hn : a.next = false) (hs : a.srv = true) (hc : .ctx i ∉ ops)
    (h' : s.run cl ops = some s') : SLost i a s' := by
  induction ops generalizing s with
  | nil => cases h'; exact h
  | cons op ops ih =>
    simp only [ASt.run] at h'
    split at h'
    · rename_i t ht
      have hx := anext_of_step ht
      exact ih (ainv_step hi hx) (slost_step hi h hp hb hn hs (fun e => hc (e ▸ List.mem_cons_self ..)) hx)
        (fun e => hc (List.mem_cons_of_mem _ e)) h'
    · cases h'

theorem not_may_srv {i : Nat} {a : AskT} (hi : AInv s) (ht : TidyAsk a) (ha : s.asks[i]? = some a) (hp : a.pc = .wait)
    (hs : a.srv = true) (hw : mapGet s.srvWaiting a.tok ≠ some i) (hr : ∀ k, s.rd ≠ .srvSend i k) :
    ¬ MayReturn cl s i := by
  rintro ⟨ops, t, b, g, h1, h2, h3, h4⟩
  have hl : SLost i a s := ⟨ha, fun t e => ?_, hr⟩
  · have := (slost_run hi hl hp (ht.srv hs) ((hi.each i a ha).srv hs) hs h1 h2).ask
    rw [h3] at this; cases this
    rw [hp] at h4; cases h4
  · obtain ⟨c, hc, _, hk, _⟩ := (hi.stab t i e).ex
    rw [ha] at hc; cases hc
    exact hw (hk ▸ e)

theorem may_srvSend {i k : Nat} {a : AskT} (hr : s.rd = .srvSend i k) (ha : s.asks[i]? = some a)
    (hp : a.pc = .wait) : MayReturn cl s i := by
  have h0 : s.step cl .reader = some ({ s with rd := .clear }.put i { a with pc := .forget (.msg k) }) := by
    simp [ASt.step, ASt.readerStep, hr, ha, hp]
  exact may_cons h0 (by simp) (may_forget (put_get ha) rfl)

theorem may_other {i : Nat} {a : AskT} (hf : FInv false s) (ha : s.asks[i]? = some a)
    (hp : a.pc = .wait) (ht : mapGet s.srvWaiting a.tok = some i) : MayReturn false s i := by
  obtain ⟨now, hw⟩ := hf.tok i a ha (by rw [hp]; trivial)
  have hw' : ({ wait := a.tok } : Message).isWait false = true := by
    apply SideTok.own
    show SideTok false a.tok
    rw [hw, Bool.false_and]
    exact sideTok_genWait false now
  have h0 : s.step false (.other { wait := a.tok }) =
      some (s.put i { a with pc := .forget (.other { wait := a.tok }) }) := by
    simp only [ASt.step, ASt.otherStep, ht, ha, hw', hp]
    simp
  exact may_cons h0 (by simp) (may_forget (put_get ha) rfl)

theorem may_next {i : Nat} {a : AskT} (hf : FInv cl s) (hh : AHelp a) (ha : s.asks[i]? = some a) (hp : a.pc = .wait)
    (hn : a.next = true) : MayReturn cl s i := by
  have send : ∀ {u : ASt} {b : AskT} {g : Got}, u.asks[i]? = some b → b.pc = .wait → b.help = .got g → b.box = none →
      MayReturn cl u i := by
    intro u b g h1 h2 h3 h4
    have h0 : u.step cl (.help i) = some (u.put i { b with box := some g, help := .ended }) := by
      simp [ASt.step, ASt.helpStep, h1, h3, h4]
    exact may_cons h0 (by simp) (may_box (put_get h1) h2 rfl)
  rcases hh.run hn (.inr hp) with ⟨h | ⟨g, h⟩, hb⟩ | ⟨g, hb⟩
  · cases hnet : s.netClosed with
    | true =>
      have h0 : s.step cl (.help i) = some (s.put i { a with help := .got .readErr }) := by
        simp [ASt.step, ASt.helpStep, ha, h, hnet]
      exact may_cons h0 (by simp) (send (put_get ha) hp rfl hb)
    | false =>
      have h0 : s.step cl (.arrive noMsg) = some { s with arr := s.arr ++ [noMsg] } := rfl
      refine may_cons h0 (by simp) ?_
      have hlt : s.pos < (s.arr ++ [noMsg]).length := by
        rw [List.length_append]; exact Nat.lt_succ_of_le hf.pos
      have h1 : ({ s with arr := s.arr ++ [noMsg] } : ASt).step cl (.help i) =
          some (({ s with arr := s.arr ++ [noMsg], pos := s.pos + 1 } : ASt).put i { a with help := .got (.msg s.pos) }) := by
        simp only [ASt.step, ASt.helpStep, ha, h, hnet]
        rw [if_neg (by simp), if_pos hlt]
      exact may_cons h1 (by simp) (send (put_get (s := { s with arr := s.arr ++ [noMsg], pos := s.pos + 1 }) ha) hp rfl hb)
  · exact send ha hp h hb
  · exact may_box ha hp hb

end Neffos.AskFate
