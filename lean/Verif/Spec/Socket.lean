import Verif.Model.Socket
/-!
# What the sockets should do
-/
namespace Neffos.Spec

/-- the messages among the frames, in order -/
def messagesIn : List Item → List (MsgType × Bytes)
  | [] => []
  | ⟨_, .data binary b⟩ :: t => (if binary then .binary else .text, b) :: messagesIn t
  | _ :: t => messagesIn t

/-- a message, a ping or a pong: the peer is there -/
def Frame.Alive : Frame → Prop
  | .data _ _ | .ping | .pong => True
  | .close | .fail _ => False

/-- a ping or a pong -/
def Frame.Beat : Frame → Prop
  | .ping | .pong => True
  | _ => False

/-- a Unicode scalar value -/
def Scalar (c : Nat) : Prop := c < 0xD800 ∨ 0xE000 ≤ c ∧ c < 0x110000

/-- the bytes of a character, RFC 3629 section 3 -/
def utf8 (c : Nat) : Bytes :=
  if c < 0x80 then [.ofNat c]
  else if c < 0x800 then [.ofNat (0xC0 + c / 64), .ofNat (0x80 + c % 64)]
  else if c < 0x10000 then [.ofNat (0xE0 + c / 4096), .ofNat (0x80 + c / 64 % 64), .ofNat (0x80 + c % 64)]
  else [.ofNat (0xF0 + c / 262144), .ofNat (0x80 + c / 4096 % 64), .ofNat (0x80 + c / 64 % 64), .ofNat (0x80 + c % 64)]

/-- UTF-8 text: the bytes of characters, one after the other -/
def Utf8 (b : Bytes) : Prop := ∃ cs : List Nat, (∀ c ∈ cs, Scalar c) ∧ b = cs.flatMap utf8

/-- Does this library read this frame's text? gobwas wants text to be UTF-8. -/
def Frame.Readable : SocketLib → Frame → Prop
  | .gobwas, .data false b => Utf8 b
  | _, _ => True

/-- what the reader gets for a message -/
def delivered (p : MsgType × Bytes) : ReadRes := .ok (p.2, p.1)

/-- No two frames in a row, counted from `start`, are more than `t` apart. Frames that came before `start` count
as coming then. -/
def NoGap (t start : Nat) (times : List Nat) : Prop :=
  ∀ (i a b : Nat), (start :: times)[i]? = some a → times[i]? = some b → b ≤ max start a + t

/-- Later frames come later. -/
def TimesUp (times : List Nat) : Prop :=
  ∀ (i j a b : Nat), i ≤ j → times[i]? = some a → times[j]? = some b → a ≤ b

/-- all the pieces of the frame of goroutine `t`, in order -/
def frameOf (pieces : Nat → Nat) (t : Nat) : List (Nat × Nat) := (List.range (pieces t)).map fun i => (t, i)

/-- the time of the last call among these steps -/
def lastCall : List (Nat × WriteAct) → Option Nat
  | [] => none
  | (time, .call _) :: t => (lastCall t).or (some time)
  | _ :: t => lastCall t

/-- Time does not go back. -/
def Forward (acts : List (Nat × WriteAct)) : Prop :=
  ∀ (i j : Nat) (a b : Nat × WriteAct), i ≤ j → acts[i]? = some a → acts[j]? = some b → a.1 ≤ b.1

end Neffos.Spec
