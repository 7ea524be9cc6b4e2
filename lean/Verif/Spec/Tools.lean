import Verif.Model.Tools
import Verif.Model.Regex
/-!
What is expected of the programs `git-at` and `git-recent-refs` and of the permissions of objects,
said without the functions that compute it.
-/
namespace Verif.Spec

/-! ### git-at -/

/-- White space of the regular expression `\s`. -/
def White (b : UInt8) : Prop := b = 32 ∨ (9 ≤ b ∧ b ≤ 13)

/-- A message that starts, after white space, with `fixup!` or `squash!`. -/
def IsFixup (m : Bytes) : Prop :=
  ∃ ws rest, (∀ b ∈ ws, White b) ∧ (m = ws ++ b!"fixup!" ++ rest ∨ m = ws ++ b!"squash!" ++ rest)

/-- The tests of a message `git-at` was asked for: does it match, is it to be skipped. -/
structure AtTests where
  wants : Bytes → Except Bytes Bool
  skips : Bytes → Except Bytes Bool

/-- An entry of the walk that `git-at` goes past: a commit to skip or one that does not match. -/
def Passed (h : History) (t : AtTests) (rev : Except GitErr Bytes) : Prop :=
  ∃ id m, rev = .ok id ∧ h.message id = .ok m ∧
    (t.skips m = .ok true ∨ (t.skips m = .ok false ∧ t.wants m = .ok false))

/-- A commit that matches and is not to be skipped. -/
def Chosen (h : History) (t : AtTests) (id : Bytes) : Prop :=
  ∃ m, h.message id = .ok m ∧ t.skips m = .ok false ∧ t.wants m = .ok true

/-- The first commit of the walk that matches and is not to be skipped. -/
def FirstMatch (h : History) (t : AtTests) (revs : List (Except GitErr Bytes)) (id : Bytes) : Prop :=
  ∃ pre post, revs = pre ++ .ok id :: post ∧ (∀ r ∈ pre, Passed h t r) ∧ Chosen h t id

/-- Something that goes wrong at one entry of the walk. -/
inductive Breaks (h : History) (t : AtTests) : Except GitErr Bytes → Err → Prop
  | rev (e : GitErr) : Breaks h t (.error e) (Err.ofGit e)
  | commit {id : Bytes} {e : GitErr} (hm : h.message id = .error e) :
      Breaks h t (.ok id) (Err.ofGit e)
  | skips {id m x : Bytes} (hm : h.message id = .ok m) (hx : t.skips m = .error x) :
      Breaks h t (.ok id) (Err.ofPcre x)
  | wants {id m x : Bytes} (hm : h.message id = .ok m) (hs : t.skips m = .ok false)
      (hx : t.wants m = .error x) : Breaks h t (.ok id) (Err.ofPcre x)

/-- The two patterns, as given to PCRE2, compile to these tests. Without `--no-fixup` no commit is
skipped. -/
def Compiled (eng : Engine) (p : GitAt.Program) (t : AtTests) : Prop :=
  ∃ rx fx, eng (GitAt.patternText p p.text) = .ok rx ∧
    eng (GitAt.patternText p b!"\\A\\s*(?:fixup|squash)!") = .ok fx ∧
    t = ⟨rx, if p.fixup then fun _ => .ok false else fx⟩

/-- The walk starts at the revision of the command line. -/
def Walk (h : History) (p : GitAt.Program) (revs : List (Except GitErr Bytes)) : Prop :=
  ∃ head, h.revparse p.head = .ok head ∧ h.walk head = .ok revs

/-- Something goes wrong before a match is found. -/
inductive Fails (eng : Engine) (h : History) (p : GitAt.Program) : Err → Prop
  | pattern {x : Bytes} (hx : eng (GitAt.patternText p p.text) = .error x) :
      Fails eng h p (Err.ofPcre x)
  | fixupPattern {rx : Bytes → Except Bytes Bool} {x : Bytes}
      (hr : eng (GitAt.patternText p p.text) = .ok rx)
      (hx : eng (GitAt.patternText p b!"\\A\\s*(?:fixup|squash)!") = .error x) :
      Fails eng h p (Err.ofPcre x)
  | head {t : AtTests} {e : GitErr} (ht : Compiled eng p t) (he : h.revparse p.head = .error e) :
      Fails eng h p (Err.ofGit e)
  | walk {t : AtTests} {head : Bytes} {e : GitErr} (ht : Compiled eng p t)
      (hh : h.revparse p.head = .ok head) (he : h.walk head = .error e) :
      Fails eng h p (Err.ofGit e)
  | entry {t : AtTests} {revs pre post : List (Except GitErr Bytes)} {r : Except GitErr Bytes}
      {e : Err} (ht : Compiled eng p t) (hw : Walk h p revs) (hr : revs = pre ++ r :: post)
      (hp : ∀ r ∈ pre, Passed h t r) (hb : Breaks h t r e) : Fails eng h p e

/-- PCRE2 answers as written down in `Verif.Pcre` for the patterns of that fragment, where it
answers at all (it may give up, for instance at its match limit). -/
def Faithful (eng : Engine) : Prop :=
  ∀ p r, Pcre.parse p = some r → ∀ f, eng p = .ok f → ∀ m b, f m = .ok b → b = r.isMatch m

/-- The number of bytes of the first line. -/
def firstLine (m : Bytes) : Nat := (m.takeWhile (· ≠ 10)).length

/-! ### git-recent-refs -/

/-- Strictly before in time. -/
def Earlier (a b : GitTime) : Prop :=
  a.seconds < b.seconds ∨ (a.seconds = b.seconds ∧ a.offset < b.offset)

/-- References listed by date: exactly those of `refs` that are direct, peel to a commit and have a
name, as often as there, the newest first, and those of one time in their order in `refs`. -/
structure Newest (date : Ref → Option GitTime) (refs : List Ref) (lines : List Bytes) : Prop where
  ex : ∃ l : List Ref,
    l.Perm (refs.filter fun r => r.target.isSome && (date r).isSome && r.name.isSome) ∧
    l.Pairwise (fun a b => ∀ x y, date a = some x → date b = some y → ¬ Earlier x y) ∧
    (∀ t, l.filter (fun r => date r = some t) =
      refs.filter fun r => r.target.isSome && r.name.isSome && (date r = some t)) ∧
    lines.map some = l.map Ref.name

/-- The same, with times compared by the second alone. -/
structure NewestSecond (date : Ref → Option GitTime) (refs : List Ref) (lines : List Bytes) : Prop where
  ex : ∃ l : List Ref,
    l.Perm (refs.filter fun r => r.target.isSome && (date r).isSome && r.name.isSome) ∧
    l.Pairwise (fun a b => ∀ x y, date a = some x → date b = some y → ¬ x.seconds < y.seconds) ∧
    (∀ s, l.filter (fun r => (date r).map GitTime.seconds = some s) =
      refs.filter fun r => r.target.isSome && r.name.isSome && ((date r).map GitTime.seconds = some s)) ∧
    lines.map some = l.map Ref.name

/-- The text that stands for the `n`-th last checkout; `HEAD` for the current one. -/
def visitName : Nat → Bytes
  | 0 => b!"HEAD"
  | n + 1 => b!"@{-" ++ natDec (n + 1) ++ b!"}"

/-- What is printed for a text: the name of the reference it names, or the id of the object. -/
def Shows (repo : RecentRefs.Repo) (t line : Bytes) : Prop :=
  (∃ id, repo.revparseExt t = some (id, some (some line))) ∨ repo.revparseExt t = some (line, none)

/-- Nothing to be printed: it does not resolve, or to a reference whose name is not UTF-8. -/
def Unresolved (repo : RecentRefs.Repo) (t : Bytes) : Prop := ¬ ∃ line, Shows repo t line

/-- The pager to use: `GIT_PAGER`, else `core.pager`, else `PAGER`, else `less`. -/
inductive Pager (e : RecentRefs.PagerEnv) : Bytes → Prop
  | gitPager {p : Bytes} (h : e.gitPager = some p) : Pager e p
  | core {p : Bytes} (h : e.gitPager = none) (hc : e.config = .ok (.ok p)) : Pager e p
  | pager {p : Bytes} (h : e.gitPager = none) (hc : ¬ ∃ c, e.config = .ok (.ok c))
      (hp : e.pager = some p) : Pager e p
  | less (h : e.gitPager = none) (hc : ¬ ∃ c, e.config = .ok (.ok c)) (hp : e.pager = none) :
      Pager e b!"less"

/-- What the option `--sort` asks for; without it, the order of visits. -/
inductive Listing : Option Bytes → RecentRefs.SortKind → Prop
  | default : Listing none .visited
  | visit : Listing (some b!"visitdate") .visited
  | committer : Listing (some b!"committerdate") .committed
  | author : Listing (some b!"authordate") .authored

/-! ### Permissions -/

/-- The executable bit wherever there is a read bit. -/
def plusX (mode : Nat) : Nat := mode ||| (mode &&& 0o444) / 4

/-- What `core.sharedRepository` asks for, where it gives a mode; for an octal value see
`Octal`. -/
inductive Asks : Option (Option Bytes) → Option Nat → Prop
  | unset : Asks none none
  | umask : Asks (some (some b!"umask")) none
  | no : Asks (some (some b!"false")) none
  | group : Asks (some (some b!"group")) (some 0o770)
  | yes : Asks (some (some b!"true")) (some 0o770)
  | all : Asks (some (some b!"all")) (some 0o775)
  | world : Asks (some (some b!"world")) (some 0o775)
  | everybody : Asks (some (some b!"everybody")) (some 0o775)

/-- A text of octal digits that starts with a zero, and the mode it stands for. -/
inductive Octal : Bytes → Nat → Prop
  | zero : Octal b!"0" 0
  | digit {ds : Bytes} {n d : Nat} (h : Octal ds n) (hd : d < 8) :
      Octal (ds ++ [UInt8.ofNat (48 + d)]) (n * 8 + d)

end Verif.Spec
