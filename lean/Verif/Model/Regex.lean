import Verif.Model.Bytes
/-!
A fragment of the regular expressions of PCRE2 (crate `pcre2`, bytes, no option set), written down
from the documentation of PCRE2. This is not code of the repository: `git-at.rs` only builds
pattern texts and asks PCRE2 about them. It is needed to say what those texts mean (C45, C46).

`parse` answers `none` for a text outside the fragment, and also for one PCRE2 rejects.
-/
namespace Verif.Pcre

/-- Assertions: `\A` and `^` (no multiline mode), `\z`, `\Z` and `$`, `\b`, `\B` (PCRE2, for git-at.rs:120-125). -/
inductive Assert
  | start | fin | finNl | word | notWord
  deriving DecidableEq, Repr

/-- Quantifiers (PCRE2, for git-at.rs:120-125). -/
inductive Quant
  | star | plus | opt
  deriving DecidableEq, Repr

/-- How much a quantifier takes (PCRE2, for git-at.rs:120-125). -/
inductive Greed
  | greedy | lazy | possessive
  deriving DecidableEq, Repr

/-- Regular expressions. `set neg rs`: one byte (not) in one of the ranges (PCRE2, for git-at.rs:120-125). -/
inductive Rx
  | emp
  | set (neg : Bool) (rs : List (UInt8 × UInt8))
  | assert (a : Assert)
  | seq (r s : Rx)
  | alt (r s : Rx)
  | rep (q : Quant) (g : Greed) (r : Rx)
  deriving DecidableEq, Repr

/-! ### From text to tokens -/

/-- Tokens (PCRE2, for git-at.rs:120-125). -/
inductive Tok
  | atom (r : Rx)
  | assert (a : Assert)
  | quant (q : Quant)
  | bar | opn | cls
  deriving DecidableEq, Repr

/-- One given byte (PCRE2, for git-at.rs:120-125). -/
def lit (c : UInt8) : Rx := .set false [(c, c)]

/-- `\s` (PCRE2, for git-at.rs:120-125). -/
def spaceRanges : List (UInt8 × UInt8) := [(9, 13), (32, 32)]
/-- `\d` (PCRE2, for git-at.rs:120-125). -/
def digitRanges : List (UInt8 × UInt8) := [(48, 57)]
/-- `\w` (PCRE2, for git-at.rs:120-125). -/
def wordRanges : List (UInt8 × UInt8) := [(48, 57), (65, 90), (95, 95), (97, 122)]

/-- The byte an escape stands for: control characters, and punctuation for itself (PCRE2, for git-at.rs:120-125). -/
def escByte (c : UInt8) : Option UInt8 :=
  if c = 110 then some 10        -- \n
  else if c = 116 then some 9    -- \t
  else if c = 114 then some 13   -- \r
  else if c = 102 then some 12   -- \f
  else if c = 101 then some 27   -- \e
  else if c = 97 then some 7     -- \a
  else if (48 ≤ c && c ≤ 57) || (65 ≤ c && c ≤ 90) || (97 ≤ c && c ≤ 122) then none
  else some c

/-- The bytes an escape for a class stands for (PCRE2, for git-at.rs:120-125). -/
def escRanges (c : UInt8) : Option (List (UInt8 × UInt8)) :=
  if c = 115 then some spaceRanges       -- \s
  else if c = 100 then some digitRanges  -- \d
  else if c = 119 then some wordRanges   -- \w
  else none

/-- What follows a backslash outside a character class (PCRE2, for git-at.rs:120-125). -/
def escTok (c : UInt8) : Option Tok :=
  if c = 65 then some (.assert .start)         -- \A
  else if c = 122 then some (.assert .fin)     -- \z
  else if c = 90 then some (.assert .finNl)    -- \Z
  else if c = 98 then some (.assert .word)     -- \b
  else if c = 66 then some (.assert .notWord)  -- \B
  else if c = 83 then some (.atom (.set true spaceRanges))   -- \S
  else if c = 68 then some (.atom (.set true digitRanges))   -- \D
  else if c = 87 then some (.atom (.set true wordRanges))    -- \W
  else match escRanges c with
    | some rs => some (.atom (.set false rs))
    | none => (escByte c).map fun b => .atom (lit b)

/-- One member of a character class: a byte or the ranges of an escape. POSIX classes (`[:alpha:]`)
and `\b` are outside the fragment (PCRE2, for git-at.rs:120-125). -/
def classOne : Bytes → Option (Sum UInt8 (List (UInt8 × UInt8)) × Bytes)
  | 92 :: c :: rest =>
    match escRanges c with
    | some rs => some (.inr rs, rest)
    | none => (escByte c).map fun b => (.inl b, rest)
  | 92 :: [] => none
  | 91 :: c :: rest => if c = 58 ∨ c = 46 ∨ c = 61 then none else some (.inl 91, c :: rest)
  | c :: rest => some (.inl c, rest)
  | [] => none

/-- The members of a character class up to the closing bracket (PCRE2, for git-at.rs:120-125). -/
def classF : Nat → List (UInt8 × UInt8) → Bytes → Option (List (UInt8 × UInt8) × Bytes)
  | 0, _, _ => none
  | f + 1, acc, bs =>
    match bs with
    | 93 :: rest => some (acc, rest)
    | _ =>
      match classOne bs with
      | none => none
      | some (.inr rs, rest) =>
        match rest with
        | 45 :: 93 :: _ => classF f (acc ++ rs) rest
        | 45 :: _ => none
        | _ => classF f (acc ++ rs) rest
      | some (.inl a, rest) =>
        match rest with
        | 45 :: 93 :: _ => classF f (acc ++ [(a, a)]) rest
        | 45 :: rest' =>
          match classOne rest' with
          | some (.inl b, rest'') => if a ≤ b then classF f (acc ++ [(a, b)]) rest'' else none
          | _ => none
        | _ => classF f (acc ++ [(a, a)]) rest

/-- A whole character class after its opening bracket. A closing bracket in first place (which
would be a member) is outside the fragment, and so is a colon, a period or an equals sign in first place (PCRE2
rejects `[.a.]`) (PCRE2, for git-at.rs:120-125). -/
def classTok (bs : Bytes) : Option (Tok × Bytes) :=
  let neg := bs.head? = some 94
  let bs := if neg then bs.tail else bs
  match bs with
  | 93 :: _ => none
  | 58 :: _ => none
  | 46 :: _ => none
  | 61 :: _ => none
  | _ => (classF (bs.length + 1) [] bs).map fun x => (.atom (.set neg x.1), x.2)

/-- The next token. Braces, the many constructions that start with `(?` or `(*`, and
backreferences are outside the fragment (PCRE2, for git-at.rs:120-125). -/
def token : Bytes → Option (Tok × Bytes)
  | [] => none
  | 92 :: c :: rest => (escTok c).map fun t => (t, rest)
  | 92 :: [] => none
  | 91 :: rest => classTok rest
  | 40 :: 63 :: 58 :: rest => some (.opn, rest)
  | 40 :: 63 :: _ => none
  | 40 :: 42 :: _ => none
  | 40 :: rest => some (.opn, rest)
  | 41 :: rest => some (.cls, rest)
  | 124 :: rest => some (.bar, rest)
  | 42 :: rest => some (.quant .star, rest)
  | 43 :: rest => some (.quant .plus, rest)
  | 63 :: rest => some (.quant .opt, rest)
  | 46 :: rest => some (.atom (.set true [(10, 10)]), rest)
  | 94 :: rest => some (.assert .start, rest)
  | 36 :: rest => some (.assert .finNl, rest)
  | 123 :: _ => none
  | 125 :: _ => none
  | c :: rest => some (.atom (lit c), rest)

/-- All tokens; every token takes at least one byte (PCRE2, for git-at.rs:120-125). -/
def lexF : Nat → Bytes → Option (List Tok)
  | _, [] => some []
  | 0, _ :: _ => none
  | f + 1, b :: bs =>
    match token (b :: bs) with
    | none => none
    | some (t, rest) => (lexF f rest).map (t :: ·)

/-- All tokens of a text (PCRE2, for git-at.rs:120-125). -/
def lex (bs : Bytes) : Option (List Tok) := lexF bs.length bs

/-! ### From tokens to a regular expression -/

/-- What the item before can be followed by: nothing special, a quantifier, or the `?`/`+` that
changes a quantifier (PCRE2, for git-at.rs:120-125). -/
inductive Prev
  | none | item | quant
  deriving DecidableEq, Repr

/-- An open group: its finished alternatives and the items of the current one, latest first (PCRE2, for
git-at.rs:120-125). -/
structure Frame where
  alts : List (List Rx)
  cur : List Rx
  prev : Prev
  deriving DecidableEq, Repr

/-- A group of which nothing is read yet (PCRE2, for git-at.rs:120-125). -/
def Frame.empty : Frame := ⟨[], [], .none⟩

/-- A sequence of items (PCRE2, for git-at.rs:120-125). -/
def Rx.cat : List Rx → Rx
  | [] => .emp
  | r :: rs => .seq r (Rx.cat rs)

/-- Alternatives, each a sequence of items, in order of preference (PCRE2, for git-at.rs:120-125). -/
def Rx.alts : List (List Rx) → Rx
  | [] => .emp
  | [s] => Rx.cat s
  | s :: ss => .alt (Rx.cat s) (Rx.alts ss)

/-- The alternatives of a finished group, in the order of the text (PCRE2, for git-at.rs:120-125). -/
def Frame.all (f : Frame) : List (List Rx) := ((f.cur :: f.alts).map List.reverse).reverse

/-- Not a group (PCRE2, for git-at.rs:120-125). -/
def Rx.isSet : Rx → Bool
  | .set _ _ => true
  | _ => false

/-- The innermost group comes first. A group followed by a possessive quantifier is outside the fragment, because PCRE2
10.42 does not do there what its documentation says: `a*(b)?+a` does not match `a` unless auto-possessification is
turned off, `(?:.*?)++!` does not match ` !` unless the special treatment of a leading `.*` is (PCRE2, for
git-at.rs:120-125). -/
def step : List Frame → Tok → Option (List Frame)
  | [], _ => none
  | f :: fs, .atom r => some ({ f with cur := r :: f.cur, prev := .item } :: fs)
  | f :: fs, .assert a => some ({ f with cur := .assert a :: f.cur, prev := .none } :: fs)
  | f :: fs, .bar => some (⟨f.cur :: f.alts, [], .none⟩ :: fs)
  | f :: fs, .opn => some (Frame.empty :: { f with prev := .none } :: fs)
  | [_], .cls => none
  | f :: g :: fs, .cls => some ({ g with cur := Rx.alts f.all :: g.cur, prev := .item } :: fs)
  | f :: fs, .quant q =>
    match f.prev, f.cur with
    | .item, r :: cur => some ({ f with cur := .rep q .greedy r :: cur, prev := .quant } :: fs)
    | .quant, .rep q' _ r :: cur =>
      match q with
      | .opt => some ({ f with cur := .rep q' .lazy r :: cur, prev := .none } :: fs)
      | .plus => if !r.isSet then none else some ({ f with cur := .rep q' .possessive r :: cur, prev := .none } :: fs)
      | .star => none
    | _, _ => none

/-- Several tokens (PCRE2, for git-at.rs:120-125). -/
def steps : List Frame → List Tok → Option (List Frame)
  | s, [] => some s
  | s, t :: ts => (step s t).bind fun s' => steps s' ts

/-- The top-level alternatives of a pattern (PCRE2, for git-at.rs:120-125). -/
def parseAlts (p : Bytes) : Option (List (List Rx)) :=
  match lex p with
  | none => none
  | some ts =>
    match steps [Frame.empty] ts with
    | some [f] => some f.all
    | _ => none

/-- A whole pattern (PCRE2, for git-at.rs:120-125). -/
def parse (p : Bytes) : Option Rx := (parseAlts p).map Rx.alts

/-! ### Matching -/

/-- Whether a byte is in one of the ranges (PCRE2, for git-at.rs:76, 79). -/
def inRanges (rs : List (UInt8 × UInt8)) (b : UInt8) : Bool :=
  rs.any fun x => x.1 ≤ b && b ≤ x.2

/-- Whether byte `i` is a word character (PCRE2, for git-at.rs:76, 79). -/
def isWordAt (m : Bytes) (i : Nat) : Bool :=
  match m[i]? with
  | some b => inRanges wordRanges b
  | none => false

/-- Whether there is a word boundary before byte `i` (PCRE2, for git-at.rs:76, 79). -/
def wordBoundary (m : Bytes) (i : Nat) : Bool :=
  (if i = 0 then false else isWordAt m (i - 1)) != isWordAt m i

/-- Whether an assertion holds at `i` (PCRE2, for git-at.rs:76, 79). -/
def Assert.holds (a : Assert) (m : Bytes) (i : Nat) : Bool :=
  match a with
  | .start => i = 0
  | .fin => i = m.length
  | .finNl => i = m.length || (i + 1 = m.length && m[i]? = some 10)
  | .word => wordBoundary m i
  | .notWord => !wordBoundary m i

/-- Repeating `one` any number of times; a repetition that matches nothing ends the loop (PCRE2, for git-at.rs:76,
79). -/
def starEnds (one : Nat → List Nat) (eager : Bool) : Nat → Nat → List Nat
  | 0, i => [i]
  | f + 1, i =>
    let more := (one i).flatMap fun j => if i < j then starEnds one eager f j else [i]
    if eager then more ++ [i] else i :: more

/-- Where a match that starts at `i` can end, in the order PCRE2 tries (PCRE2, for git-at.rs:76, 79). -/
def Rx.ends : Rx → Bytes → Nat → List Nat
  | .emp, _, i => [i]
  | .set neg rs, m, i =>
    match m[i]? with
    | some b => if inRanges rs b != neg then [i + 1] else []
    | none => []
  | .assert a, m, i => if a.holds m i then [i] else []
  | .seq r s, m, i => (r.ends m i).flatMap (s.ends m)
  | .alt r s, m, i => r.ends m i ++ s.ends m i
  | .rep q g r, m, i =>
    let eager := g ≠ .lazy
    let all :=
      match q with
      | .star => starEnds (r.ends m) eager (m.length + 1) i
      | .plus => (r.ends m i).flatMap (starEnds (r.ends m) eager (m.length + 1))
      | .opt => if eager then r.ends m i ++ [i] else i :: r.ends m i
    if g = .possessive then all.take 1 else all

/-- Whether there is a match that starts at `i` (PCRE2, for git-at.rs:76, 79). -/
def Rx.matchesAt (r : Rx) (m : Bytes) (i : Nat) : Bool := !(r.ends m i).isEmpty

/-- `Regex::is_match`: whether there is a match anywhere (PCRE2, for git-at.rs:76, 79). -/
def Rx.isMatch (r : Rx) (m : Bytes) : Bool :=
  (List.range (m.length + 1)).any fun i => r.matchesAt m i

end Verif.Pcre
