import Verif.Proofs.Utf8
/-!
# C67, C68: reading from a socket
-/
set_option autoImplicit false
namespace Neffos
open Neffos.Spec

/-! ## C67 -/

theorem readData_beat (lib : SocketLib) (now : Nat) {i : Item} (rest : List Item) (h : Frame.Beat i.frame) :
    readData lib 0 ⟨now, none, i :: rest⟩ = readData lib 0 ⟨max now i.time, none, rest⟩ := by
  obtain ⟨time, f⟩ := i
  cases f <;> simp only [Frame.Beat] at h <;> cases lib <;>
    simp [readData, gobwasRead, gorillaRead, gorillaMsg, setDeadline, past, Frame.next]

theorem readLoop_beat (lib : SocketLib) (pauses : List Nat) (now : Nat) {i : Item} (rest : List Item)
    (h : Frame.Beat i.frame) :
    readLoop lib 0 pauses ⟨now, none, i :: rest⟩ = readLoop lib 0 pauses ⟨max now i.time, none, rest⟩ := by
  cases pauses with
  | nil => rfl
  | cons p ps => simp only [readLoop, readData_beat lib now rest h]

theorem readData_data (lib : SocketLib) (now time : Nat) (binary : Bool) (b : Bytes) (rest : List Item)
    (h : Frame.Readable lib (.data binary b)) :
    readData lib 0 ⟨now, none, ⟨time, .data binary b⟩ :: rest⟩ =
      some (.ok (b, if binary then .binary else .text), ⟨max now time, none, rest⟩) := by
  cases lib <;> cases binary <;>
    simp_all [readData, gobwasRead, gorillaRead, gorillaMsg, setDeadline, past, Frame.next, Frame.Readable, msgTypeOf, ← validUTF8_iff]

theorem readLoop_append (lib : SocketLib) (pre rest : List Item) :
    ∀ (pauses : List Nat) (now : Nat), (∀ i ∈ pre, Frame.Alive i.frame) → (∀ i ∈ pre, Frame.Readable lib i.frame) →
    ∃ now', readLoop lib 0 pauses ⟨now, none, pre ++ rest⟩ =
      ((messagesIn pre).take pauses.length).map delivered ++
        readLoop lib 0 (pauses.drop (messagesIn pre).length) ⟨now', none, rest⟩ := by
  induction pre with
  | nil => intro pauses now _ _; exact ⟨now, by simp [messagesIn]⟩
  | cons i pre ih =>
    intro pauses now ha hr
    obtain ⟨time, f⟩ := i
    have ha' : ∀ i ∈ pre, Frame.Alive i.frame := fun i hi => ha i (List.mem_cons_of_mem _ hi)
    have hr' : ∀ i ∈ pre, Frame.Readable lib i.frame := fun i hi => hr i (List.mem_cons_of_mem _ hi)
    have hf := ha ⟨time, f⟩ List.mem_cons_self
    have hrd := hr ⟨time, f⟩ List.mem_cons_self
    cases f with
    | data binary b =>
      cases pauses with
      | nil => exact ⟨now, by simp [readLoop]⟩
      | cons p ps =>
        obtain ⟨now', h⟩ := ih ps (max now time + p) ha' hr'
        refine ⟨now', ?_⟩
        simp only [List.cons_append, readLoop, readData_data lib now time binary b _ hrd, messagesIn, List.length_cons,
          List.take_succ_cons, List.map_cons, List.drop_succ_cons, h, delivered]
    | ping =>
      rw [List.cons_append, readLoop_beat lib pauses now _ (by trivial)]
      exact ih pauses _ ha' hr'
    | pong =>
      rw [List.cons_append, readLoop_beat lib pauses now _ (by trivial)]
      exact ih pauses _ ha' hr'
    | close => exact absurd hf (by simp [Frame.Alive])
    | fail e => exact absurd hf (by simp [Frame.Alive])

/-- C67 while the peer is there and the text is readable: without a timeout the reader gets the messages that came, in
order, each once, with their type, whatever pings and pongs come between and however long handling takes. -/
theorem c67_fifo_partial (lib : SocketLib) (items : List Item) (pauses : List Nat) (now : Nat)
    (ha : ∀ i ∈ items, Frame.Alive i.frame) (hr : ∀ i ∈ items, Frame.Readable lib i.frame) :
    readLoop lib 0 pauses ⟨now, none, items⟩ = ((messagesIn items).take pauses.length).map delivered := by
  obtain ⟨now', h⟩ := readLoop_append lib items [] pauses now ha hr
  rw [List.append_nil] at h
  rw [h]
  cases pauses.drop (messagesIn items).length with
  | nil => simp [readLoop]
  | cons p ps => cases lib <;> simp [readLoop, readData, gobwasRead, gorillaRead, gorillaMsg, setDeadline]

/-- C67, gorilla: text of any bytes is read. -/
theorem c67_gorilla (items : List Item) (pauses : List Nat) (now : Nat) (ha : ∀ i ∈ items, Frame.Alive i.frame) :
    readLoop .gorilla 0 pauses ⟨now, none, items⟩ = ((messagesIn items).take pauses.length).map delivered :=
  c67_fifo_partial .gorilla items pauses now ha (fun i _ => by cases i.frame <;> trivial)

/-- C67, the end: after the messages before it, a close frame, a failure or, with gobwas, text that is not UTF-8
ends the reading with an error, and nothing that comes later is read. -/
theorem c67_end (lib : SocketLib) (pre rest : List Item) (bad : Item) (pauses : List Nat) (now : Nat)
    (ha : ∀ i ∈ pre, Frame.Alive i.frame) (hr : ∀ i ∈ pre, Frame.Readable lib i.frame)
    (hbad : ¬ (Frame.Alive bad.frame ∧ Frame.Readable lib bad.frame)) (hp : (messagesIn pre).length < pauses.length) :
    ∃ e, readLoop lib 0 pauses ⟨now, none, pre ++ bad :: rest⟩ = (messagesIn pre).map delivered ++ [.error e] ∧
      (bad.frame = .close ∨ bad.frame = .fail .eof → lib = .gobwas → e = .unexpectedEOF) ∧
      (∀ x, bad.frame = .fail x → x ≠ .eof → e = x) ∧
      (∀ b, bad.frame = .data false b → e = errInvalidUTF8) := by
  obtain ⟨now', h⟩ := readLoop_append lib pre (bad :: rest) pauses now ha hr
  rw [List.take_of_length_le (by omega)] at h
  obtain ⟨p, ps, hd⟩ : ∃ p ps, pauses.drop (messagesIn pre).length = p :: ps := by
    cases hd : pauses.drop (messagesIn pre).length with
    | nil => rw [List.drop_eq_nil_iff] at hd; omega
    | cons p ps => exact ⟨p, ps, rfl⟩
  rw [hd] at h
  obtain ⟨time, f⟩ := bad
  simp only at hbad ⊢
  rw [h]
  cases f with
  | data binary b =>
    cases lib <;> cases binary <;> simp [Frame.Alive, Frame.Readable, ← validUTF8_iff] at hbad
    exact ⟨errInvalidUTF8, by
      simp [readLoop, readData, gobwasRead, setDeadline, past, Frame.next, hbad]⟩
  | ping => exact absurd ⟨trivial, by cases lib <;> trivial⟩ hbad
  | pong => exact absurd ⟨trivial, by cases lib <;> trivial⟩ hbad
  | close =>
    cases lib
    · exact ⟨.unexpectedEOF, by simp [readLoop, readData, gobwasRead, setDeadline, past, Frame.next]⟩
    · exact ⟨errGorillaClose, by simp [readLoop, readData, gorillaRead, gorillaMsg, setDeadline, past]⟩
  | fail x =>
    cases lib
    · exact ⟨if x = .eof then .unexpectedEOF else x, by
        by_cases hx : x = .eof <;> simp [readLoop, readData, gobwasRead, setDeadline, past, Frame.next, hx]⟩
    · exact ⟨if x = .eof then errGorillaClose else x, by
        by_cases hx : x = .eof <;> simp [readLoop, readData, gorillaRead, gorillaMsg, setDeadline, past, hx]⟩

/-- C67, the text that gobwas reads: exactly UTF-8 text. -/
theorem c67_utf8 (b : Bytes) : validUTF8 b = true ↔ Utf8 b := validUTF8_iff

/-- the payload of an event with one byte that is no UTF-8 text, sent as text -/
def rawText : Bytes := (serializeMessage { ns := b! "ns", event := b! "ev", body := [0xff] }).getD []

/-- C67 fails: with gobwas an event whose body is not UTF-8 text, emitted as usual, ends the connection of
its receiver; the next event is not read. -/
theorem c67_utf8_refuted :
    messagesIn [⟨0, .data false rawText⟩, ⟨1, .data true [1]⟩] = [(.text, rawText), (.binary, [1])] ∧
    readLoop .gobwas 0 [0, 0] ⟨0, none, [⟨0, .data false rawText⟩, ⟨1, .data true [1]⟩]⟩ = [.error errInvalidUTF8] ∧
    readLoop .gorilla 0 [0, 0] ⟨0, none, [⟨0, .data false rawText⟩, ⟨1, .data true [1]⟩]⟩ =
      [.ok (rawText, .text), .ok ([1], .binary)] := by
  refine ⟨rfl, ?_, ?_⟩
  · obtain ⟨e, h, _, _, hb⟩ := c67_end .gobwas [] [⟨1, .data true [1]⟩] ⟨0, .data false rawText⟩ [0, 0] 0 (by simp) (by simp)
      (fun h => absurd h.2 (by simp only [Frame.Readable, ← validUTF8_iff]; decide +kernel)) (by simp [messagesIn])
    rw [hb rawText rfl] at h
    exact h
  · exact c67_gorilla _ [0, 0] 0 (by simp [Frame.Alive])

example : readLoop .gobwas 0 [3, 0, 7] ⟨5, none,
    [⟨0, .ping⟩, ⟨1, .data false (b! "é")⟩, ⟨2, .pong⟩, ⟨90, .ping⟩, ⟨91, .data true [0xff]⟩]⟩ =
    [.ok (b! "é", .text), .ok ([0xff], .binary)] := by
  rw [c67_fifo_partial]
  · rfl
  · simp [Frame.Alive]
  · simp [Frame.Readable, ← validUTF8_iff]; decide +kernel

/-! ## C68 -/

theorem noGap_cons {t start a : Nat} {times : List Nat} :
    NoGap t start (a :: times) ↔ a ≤ start + t ∧ ∀ (i x y : Nat), (a :: times)[i]? = some x → times[i]? = some y → y ≤ max start x + t := by
  constructor
  · intro h
    refine ⟨by simpa using h 0 start a rfl rfl, fun i x y hx hy => h (i + 1) x y (by simpa using hx) (by simpa using hy)⟩
  · rintro ⟨h0, h⟩ i x y hx hy
    cases i with
    | zero => simp at hx hy; subst hx hy; simpa using h0
    | succ i => exact h i x y (by simpa using hx) (by simpa using hy)

theorem inOrder_tail {a : Nat} {times : List Nat} (h : TimesUp (a :: times)) : TimesUp times :=
  fun i j x y hij hx hy => h (i + 1) (j + 1) x y (by omega) (by simpa using hx) (by simpa using hy)

theorem inOrder_head {a x : Nat} {times : List Nat} (h : TimesUp (a :: times)) (hx : x ∈ times) : a ≤ x := by
  obtain ⟨i, hi⟩ := List.mem_iff_getElem?.mp hx
  exact h 0 (i + 1) a x (by omega) rfl (by simpa using hi)

/-- moving the start to the time at which the first frame was read -/
theorem noGap_move {t start a : Nat} {times : List Nat} (h : TimesUp (a :: times)) (ha : a ≤ start + t) :
    NoGap t start (a :: times) ↔ NoGap t (max start a) times := by
  rw [noGap_cons]
  constructor
  · rintro ⟨_, hg⟩ i x y hx hy
    cases i with
    | zero =>
      have := hg 0 a y rfl hy
      simp at hx
      omega
    | succ i =>
      have hx' : times[i]? = some x := by simpa using hx
      have := hg (i + 1) x y (by simpa using hx') hy
      have := inOrder_head h (List.mem_of_getElem? hx')
      omega
  · intro hg
    refine ⟨ha, fun i x y hx hy => ?_⟩
    cases i with
    | zero =>
      simp at hx
      have := hg 0 (max start a) y rfl hy
      omega
    | succ i =>
      have hx' : times[i]? = some x := by simpa using hx
      have := hg (i + 1) x y (by simpa using hx') hy
      have := inOrder_head h (List.mem_of_getElem? hx')
      omega

/-- C68, gobwas: with a timeout the next message is read exactly when no two frames in a row, pings and pongs
included, are further apart than the timeout; otherwise the call fails with a timeout. -/
theorem c68_gobwas {t : Nat} (ht : 0 < t) (beats : List Item) (time : Nat) (binary : Bool) (b : Bytes) (rest : List Item)
    (hb : ∀ i ∈ beats, Frame.Beat i.frame) (hr : Frame.Readable .gobwas (.data binary b)) :
    ∀ (now : Nat) (dl : Option Nat), TimesUp (beats.map (·.time) ++ [time]) →
    (NoGap t now (beats.map (·.time) ++ [time]) ∧
      (readData .gobwas t ⟨now, dl, beats ++ ⟨time, .data binary b⟩ :: rest⟩).map (·.1) =
        some (.ok (b, if binary then .binary else .text))) ∨
    (¬ NoGap t now (beats.map (·.time) ++ [time]) ∧
      (readData .gobwas t ⟨now, dl, beats ++ ⟨time, .data binary b⟩ :: rest⟩).map (·.1) = some (.error errIOTimeout)) := by
  induction beats with
  | nil =>
    intro now dl _
    simp only [List.map_nil, List.nil_append, noGap_cons]
    by_cases h : time ≤ now + t
    · refine .inl ⟨⟨h, by simp⟩, ?_⟩
      have : ¬ now + t < max now time := by omega
      cases binary
      · simp [readData, gobwasRead, setDeadline, past, Frame.next, msgTypeOf, show validUTF8 b = true from validUTF8_iff.mpr hr, ht, this]
      · simp [readData, gobwasRead, setDeadline, past, Frame.next, msgTypeOf, ht, this]
    · refine .inr ⟨fun hh => h hh.1, ?_⟩
      have : now + t < max now time := by omega
      simp [readData, gobwasRead, setDeadline, ht, past, this]
  | cons i beats ih =>
    intro now dl ho
    simp only [List.map_cons, List.cons_append] at ho ⊢
    by_cases h : i.time ≤ now + t
    · have hstep : readData .gobwas t ⟨now, dl, i :: (beats ++ ⟨time, .data binary b⟩ :: rest)⟩ =
          readData .gobwas t ⟨max now i.time, some (now + t), beats ++ ⟨time, .data binary b⟩ :: rest⟩ := by
        have hn : ¬ now + t < max now i.time := by omega
        have hf := hb i List.mem_cons_self
        obtain ⟨it, f⟩ := i
        cases f <;> simp only [Frame.Beat] at hf <;>
          simp [readData, gobwasRead, setDeadline, past, Frame.next, ht, show ¬ now + t < max now it from hn]
      rw [hstep, noGap_move ho h]
      exact ih (fun j hj => hb j (List.mem_cons_of_mem _ hj)) _ _ (inOrder_tail ho)
    · refine .inr ⟨fun hh => h (noGap_cons.mp hh).1, ?_⟩
      have : now + t < max now i.time := by omega
      simp [readData, gobwasRead, setDeadline, ht, past, this]

theorem gorillaMsg_beats {d : Nat} (beats : List Item) (time : Nat) (binary : Bool) (b : Bytes) (rest : List Item)
    (hb : ∀ i ∈ beats, Frame.Beat i.frame) :
    ∀ now, now ≤ d → TimesUp (beats.map (·.time) ++ [time]) →
    (gorillaMsg (some d) now (beats ++ ⟨time, .data binary b⟩ :: rest)).map (·.1) =
      some (if time ≤ d then .ok (b, if binary then .binary else .text) else .error errIOTimeout) := by
  induction beats with
  | nil =>
    intro now hn _
    by_cases h : time ≤ d
    · have : ¬ d < max now time := by omega
      cases binary <;> simp [gorillaMsg, past, this, h, msgTypeOf]
    · have : d < max now time := by omega
      simp [gorillaMsg, past, this, h]
  | cons i beats ih =>
    intro now hn ho
    simp only [List.map_cons, List.cons_append] at ho ⊢
    have hle : i.time ≤ time := inOrder_head ho (by simp)
    by_cases h : i.time ≤ d
    · rw [← ih (fun j hj => hb j (List.mem_cons_of_mem _ hj)) (max now i.time) (by omega) (inOrder_tail ho)]
      have hn' : ¬ d < max now i.time := by omega
      have hf := hb i List.mem_cons_self
      obtain ⟨it, f⟩ := i
      cases f <;> simp only [Frame.Beat] at hf <;>
        simp [gorillaMsg, past, show ¬ d < max now it from hn']
    · have h1 : d < max now i.time := by omega
      have h2 : ¬ time ≤ d := by omega
      simp [gorillaMsg, past, h1, h2]

/-- C68, gorilla: with a timeout the next message is read exactly when it comes within the timeout; pings and
pongs do not count. -/
theorem c68_gorilla {t : Nat} (ht : 0 < t) (beats : List Item) (time : Nat) (binary : Bool) (b : Bytes) (rest : List Item)
    (hb : ∀ i ∈ beats, Frame.Beat i.frame) (now : Nat) (dl : Option Nat) (ho : TimesUp (beats.map (·.time) ++ [time])) :
    (readData .gorilla t ⟨now, dl, beats ++ ⟨time, .data binary b⟩ :: rest⟩).map (·.1) =
      some (if time ≤ now + t then .ok (b, if binary then .binary else .text) else .error errIOTimeout) := by
  have := gorillaMsg_beats (d := now + t) beats time binary b rest hb now (by omega) ho
  simpa [readData, gorillaRead, setDeadline, ht] using this

/-- C68: a peer that sends nothing is given up when the timeout has passed, with either library; without a timeout the
reader waits for ever. -/
theorem c68_silent (lib : SocketLib) (t now : Nat) (dl : Option Nat) :
    (0 < t → readData lib t ⟨now, dl, []⟩ = some (.error errIOTimeout, ⟨now + t, some (now + t), []⟩)) ∧
    readData lib 0 ⟨now, none, []⟩ = none := by
  refine ⟨fun ht => ?_, ?_⟩
  · have : max now (now + t) = now + t := by omega
    cases lib <;> simp [readData, gobwasRead, gorillaRead, gorillaMsg, setDeadline, ht, this]
  · cases lib <;> rfl

/-- C68: if the peer's frames are pings, pongs and readable messages, then ReadData fails with nothing but a timeout,
which `IsTimeoutError` and `IsDisconnectError` recognise and `IsCloseError` does not. -/
theorem c68_error {lib : SocketLib} {t : Nat} {items : List Item} {e : GoErr} {x : SockRd}
    (hf : ∀ i ∈ items, Frame.Beat i.frame ∨ ∃ binary b, i.frame = .data binary b ∧ Frame.Readable lib i.frame) :
    ∀ {now : Nat} {dl : Option Nat}, readData lib t ⟨now, dl, items⟩ = some (.error e, x) →
    isTimeoutError (some e) = true ∧ isDisconnectError (some e) = true ∧ isCloseError (some e) = false := by
  have key : ∀ {now : Nat} {dl : Option Nat}, readData lib t ⟨now, dl, items⟩ = some (.error e, x) → e = errIOTimeout := by
    cases lib with
    | gobwas =>
      induction items with
      | nil =>
        intro now dl h
        simp only [readData, gobwasRead] at h
        split at h
        · cases h
        · cases h; rfl
      | cons i items ih =>
        intro now dl h
        have hi := hf i List.mem_cons_self
        have ih' := @ih (fun j hj => hf j (List.mem_cons_of_mem _ hj))
        obtain ⟨time, f⟩ := i
        simp only [readData, gobwasRead] at h
        split at h
        · cases h; rfl
        · rcases hi with hi | ⟨binary, b, hb, hr⟩
          · cases f <;> simp only [Frame.Beat] at hi
            · simp [Frame.next] at h; exact ih' h
            · simp [Frame.next] at h; exact ih' h
          · dsimp only at hb hr
            subst hb
            cases binary
            · have : validUTF8 b = true := validUTF8_iff.mpr hr
              simp [Frame.next, this] at h
            · simp [Frame.next] at h
    | gorilla =>
      have : ∀ (d : Option Nat) {now : Nat}, gorillaMsg d now items = some (.error e, x) → e = errIOTimeout := by
        intro d
        induction items with
        | nil =>
          intro now h
          simp only [gorillaMsg] at h
          split at h
          · cases h
          · cases h; rfl
        | cons i items ih =>
          intro now h
          have hi := hf i List.mem_cons_self
          have ih' := @ih (fun j hj => hf j (List.mem_cons_of_mem _ hj))
          obtain ⟨time, f⟩ := i
          simp only [gorillaMsg] at h
          split at h
          · cases h; rfl
          · rcases hi with hi | ⟨binary, b, hb, hr⟩
            · cases f <;> simp only [Frame.Beat] at hi
              · exact ih' h
              · exact ih' h
            · dsimp only at hb
              subst hb
              cases h
      intro now dl h
      exact this _ h
  intro now dl h
  rw [key h]
  exact ⟨rfl, rfl, by decide⟩

example : let items : List Item := [⟨1, .ping⟩, ⟨9, .data true [7]⟩]
    (∀ i ∈ items, Frame.Beat i.frame ∨ ∃ binary b, i.frame = .data binary b ∧ Frame.Readable .gobwas i.frame) ∧
    readData .gobwas 3 ⟨0, none, items⟩ = some (.error errIOTimeout, ⟨4, some 4, [⟨9, .data true [7]⟩]⟩) := by
  refine ⟨?_, rfl⟩
  intro i hi
  simp only [List.mem_cons, List.not_mem_nil, or_false] at hi
  rcases hi with rfl | rfl
  · exact .inl trivial
  · exact .inr ⟨true, [7], rfl, trivial⟩

/-- C68 fails for gorilla: whatever the timeout, a peer that pings in time and then sends a message in time is given
up. -/
theorem c68_ping_refuted {t : Nat} (ht : 0 < t) (binary : Bool) (b : Bytes) :
    NoGap t 0 [t, t + 1] ∧
    (readData .gorilla t ⟨0, none, [⟨t, .ping⟩, ⟨t + 1, .data binary b⟩]⟩).map (·.1) = some (.error errIOTimeout) := by
  constructor
  · intro i x y hx hy
    match i with
    | 0 => simp at hx hy; omega
    | 1 => simp at hx hy; omega
    | n + 2 => simp at hy
  · have h := c68_gorilla ht [⟨t, .ping⟩] (t + 1) binary b [] (by simp [Frame.Beat]) 0 none (by
      intro i j x y hij hx hy
      match i, j with
      | 0, 0 => simp at hx hy; omega
      | 0, 1 => simp at hx hy; omega
      | 1, 1 => simp at hx hy; omega
      | 1, 0 => omega
      | n + 2, _ => simp at hx
      | 0, n + 2 => simp at hy
      | 1, n + 2 => simp at hy)
    simpa [show ¬ t + 1 ≤ t by omega] using h

example : (readData .gobwas 2 ⟨0, none, [⟨2, .ping⟩, ⟨4, .pong⟩, ⟨6, .data true [7]⟩]⟩).map (·.1) = some (.ok ([7], .binary)) ∧
    (readData .gobwas 2 ⟨0, none, [⟨2, .ping⟩, ⟨5, .data true [7]⟩]⟩).map (·.1) = some (.error errIOTimeout) ∧
    (readData .gorilla 2 ⟨0, none, [⟨1, .ping⟩, ⟨2, .data true [7]⟩]⟩).map (·.1) = some (.ok ([7], .binary)) := by
  refine ⟨rfl, rfl, rfl⟩

end Neffos
