import Verif.Model.Bytes
/-!
# What the patterns of the brokers match

Stated on the text of the pattern, after the manuals of redis (`PSUBSCRIBE`, util.c
`stringmatchlen`) and nats (subject-based messaging), without the functions of
`Model/PubSub.lean`.
-/
set_option autoImplicit false
namespace Neffos.Spec

/-- the text after `[` or `[^`, the ranges it lists, and what follows the class: `]` ends it, so does
the end of the pattern; `\c` and `c` stand for themselves, `a-b` for the bytes between the two -/
inductive ClassText : Bytes → List (UInt8 × UInt8) → Bytes → Prop where
  | done : ClassText [] [] []
  | close (t : Bytes) : ClassText (93 :: t) [] t
  | esc {t r : Bytes} {rs : List (UInt8 × UInt8)} (c : UInt8) (h : ClassText t rs r) :
      ClassText (92 :: c :: t) ((c, c) :: rs) r
  | range {t r : Bytes} {rs : List (UInt8 × UInt8)} (a b : UInt8) (h1 : a ≠ 93) (h2 : a ≠ 92)
      (h : ClassText t rs r) : ClassText (a :: 45 :: b :: t) ((a, b) :: rs) r
  | byte {t r : Bytes} {rs : List (UInt8 × UInt8)} (c : UInt8) (h1 : c ≠ 93) (h2 : c = 92 → t = [])
      (h3 : ∀ b u, t ≠ 45 :: b :: u) (h : ClassText t rs r) : ClassText (c :: t) ((c, c) :: rs) r

/-- the byte lies in one of the ranges; their ends may come in either order -/
def InRanges (rs : List (UInt8 × UInt8)) (x : UInt8) : Prop :=
  ∃ ab ∈ rs, (ab.1 ≤ x ∧ x ≤ ab.2) ∨ (ab.2 ≤ x ∧ x ≤ ab.1)

/-- the pattern on the left matches the channel on the right -/
inductive GlobMatch : Bytes → Bytes → Prop where
  | done : GlobMatch [] []
  | star {p s : Bytes} (u : Bytes) (h : GlobMatch p s) : GlobMatch (42 :: p) (u ++ s)
  | one {p s : Bytes} (c : UInt8) (h : GlobMatch p s) : GlobMatch (63 :: p) (c :: s)
  | cls {t r s : Bytes} {rs : List (UInt8 × UInt8)} {c : UInt8} (hn : ∀ u, t ≠ 94 :: u)
      (hc : ClassText t rs r) (hi : InRanges rs c) (h : GlobMatch r s) : GlobMatch (91 :: t) (c :: s)
  | not {t r s : Bytes} {rs : List (UInt8 × UInt8)} {c : UInt8}
      (hc : ClassText t rs r) (hi : ¬ InRanges rs c) (h : GlobMatch r s) : GlobMatch (91 :: 94 :: t) (c :: s)
  | esc {p s : Bytes} (c : UInt8) (h : GlobMatch p s) : GlobMatch (92 :: c :: p) (c :: s)
  | byte {p s : Bytes} (c : UInt8) (h1 : c ≠ 42) (h2 : c ≠ 63) (h3 : c ≠ 91) (h4 : c = 92 → p = [])
      (h : GlobMatch p s) : GlobMatch (c :: p) (c :: s)

/-- the tokens of a subject: what stands between its dots -/
inductive Tokens : Bytes → List Bytes → Prop where
  | last {x : Bytes} (h : (46 : UInt8) ∉ x) : Tokens x [x]
  | more {x y : Bytes} {ts : List Bytes} (h : (46 : UInt8) ∉ x) (ht : Tokens y ts) :
      Tokens (x ++ 46 :: y) (x :: ts)

/-- a subject one can subscribe to: no token is empty and `>` is at most the last one -/
def ValidSubject (s : Bytes) : Prop :=
  ∃ ts, Tokens s ts ∧ (∀ t ∈ ts, t ≠ []) ∧ ∀ t ∈ ts.dropLast, t ≠ [62]

/-- `*` stands for one token, a final `>` for one or more -/
inductive TokensMatch : List Bytes → List Bytes → Prop where
  | done : TokensMatch [] []
  | full {t : Bytes} {ts : List Bytes} : TokensMatch [[62]] (t :: ts)
  | any {ps ts : List Bytes} (t : Bytes) (h : TokensMatch ps ts) : TokensMatch ([42] :: ps) (t :: ts)
  | same {ps ts : List Bytes} (t : Bytes) (h : TokensMatch ps ts) : TokensMatch (t :: ps) (t :: ts)

/-- the subscription on the left matches the subject on the right -/
def SubjectMatch (p s : Bytes) : Prop := ∃ ps ts, Tokens p ps ∧ Tokens s ts ∧ TokensMatch ps ts

end Neffos.Spec
