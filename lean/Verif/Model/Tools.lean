import Verif.Model.Errors
import Verif.Model.Server
/-!
Model of the programs `git-at.rs` and `git-recent-refs.rs` (with `pager/mod.rs`) of scutiger-bin,
and of the part of `git-lfs-transfer.rs` that runs before the protocol starts.

libgit2 and PCRE2 are represented by functions of arbitrary behaviour: what the programs ask them
for, and any answer (including any error). Command line parsing (crate `clap`) is not modelled.
-/
namespace Verif

/-! ### Errors of libgit2 and PCRE2 (errors.rs:179-195) -/

/-- `git2::ErrorCode`, as far as the code distinguishes them (errors.rs:179-188; git-lfs-transfer.rs:108). -/
inductive GitCode
  | notFound | conflict | other (n : Nat)
  deriving DecidableEq, Repr

/-- `git2::Error`: its code and `Display` text (errors.rs:179-188; git-lfs-transfer.rs:181). -/
structure GitErr where
  code : GitCode
  text : Bytes
  deriving DecidableEq, Repr

/-- errors.rs:179-188 `From<git2::Error> for Error`. -/
def Err.ofGit (e : GitErr) : Err :=
  Err.wrapOther (match e.code with
    | .notFound => .noSuchRevision
    | .conflict => .conflict
    | .other _ => .gitError) e.text

/-- errors.rs:190-195 `From<pcre2::Error> for Error`. -/
def Err.ofPcre (text : Bytes) : Err := Err.wrapOther .pcreError text

/-- The operator `?` on a result of libgit2 (git-at.rs:69-75, git-recent-refs.rs:86, 99, git-lfs-transfer.rs:98). -/
def ofGit {α} : Except GitErr α → Except Err α
  | .ok a => .ok a
  | .error e => .error (Err.ofGit e)

/-- The operator `?` on a result of PCRE2 (git-at.rs:76, 79, 122, 124). -/
def ofPcre {α} : Except Bytes α → Except Err α
  | .ok a => .ok a
  | .error t => .error (Err.ofPcre t)

/-! ### How a program ends -/

/-- `aborted`: by a panic or, where `SIGPIPE` has its default action, by that signal (git-at.rs:187,
git-recent-refs.rs:176-191, git-lfs-transfer.rs:187-204). -/
inductive Ended
  | exit (code : Int)
  | aborted
  deriving DecidableEq, Repr

/-- What a program wrote to its output and to standard error, and how it ended (git-at.rs:91-118,
git-recent-refs.rs:120-133). -/
structure Ran where
  out : Bytes
  err : Bytes
  ended : Ended
  deriving DecidableEq, Repr

/-- A stream that takes `cap` more bytes before writing to it fails (`none`: it never fails) (git-at.rs:105, 111;
git-recent-refs.rs:124, 129). -/
abbrev Cap := Option Nat

/-- `write_all`: the bytes that arrive, and whether that was all of them (git-at.rs:105, 111; git-recent-refs.rs:124,
129). -/
def writeTo (cap : Cap) (bs : Bytes) : Bytes × Bool :=
  match cap with
  | none => (bs, true)
  | some n => (bs.take n, bs.length ≤ n)

/-- `writeln!(error, "{}", e).unwrap(); code` (git-at.rs:109-116, git-recent-refs.rs:128-131,
git-lfs-transfer.rs:157-160). -/
def failWith (errCap : Cap) (e : Err) : Ran :=
  let w := writeTo errCap (e.display ++ b!"\n")
  ⟨[], w.1, if w.2 then .exit e.exitStatus.code else .aborted⟩

/-! ### git-at -/

/-- What `git-at` uses of PCRE2: `Regex::new` and, for a compiled expression, `is_match` (git-at.rs:76, 79, 120-125).
-/
abbrev Engine := Bytes → Except Bytes (Bytes → Except Bytes Bool)

/-- What `git-at` uses of libgit2.

* `revparse`: the id of `revparse_single`;
* `walk`: the answers of the iterator obtained by `revwalk`, `set_sorting(time)` and `push`
  (git-at.rs:70-73), or the error of one of these three calls;
* `message`: `find_commit(id)` and its `message_bytes`. Its `id()` is the id asked for. -/
structure History where
  revparse : Bytes → Except GitErr Bytes
  walk : Bytes → Except GitErr (List (Except GitErr Bytes))
  message : Bytes → Except GitErr Bytes

namespace GitAt

/-- git-at.rs:23-31 `Program`. -/
structure Program where
  summary : Bool
  shows : Bool
  quiet : Bool
  fixup : Bool
  head : Bytes
  text : Bytes
  deriving DecidableEq, Repr

/-- The command line after parsing (git-at.rs:128-156). -/
structure Options where
  summary : Bool
  shows : Bool
  quiet : Bool
  noFixup : Bool
  revision : Option Bytes
  pattern : Bytes
  deriving DecidableEq, Repr

/-- git-at.rs:41-59 `Program::new` and git-at.rs:158-168 `program`. -/
def program (o : Options) : Program :=
  ⟨o.summary, o.shows, o.quiet, !o.noFixup, o.revision.getD b!"HEAD", o.pattern⟩

/-- git-at.rs:120-125 `pattern`: the text given to PCRE2. The `\n` of the format string is a line
feed byte. -/
def patternText (p : Program) (t : Bytes) : Bytes :=
  if p.summary then b!"\\A[^\n]*" ++ t else t

/-- git-at.rs:120-125 `pattern`. -/
def pattern (eng : Engine) (p : Program) (t : Bytes) : Except Err (Bytes → Except Bytes Bool) :=
  ofPcre (eng (patternText p t))

/-- git-at.rs:68, the pattern of commits to skip. -/
def fixupText : Bytes := b!"\\A\\s*(?:fixup|squash)!"

/-- git-at.rs:74-83: the loop. -/
def loop (h : History) (p : Program) (rx fx : Bytes → Except Bytes Bool) :
    List (Except GitErr Bytes) → Except Err Bytes
  | [] => .error (Err.simple .noSuchRevision)
  | rev :: revs => do
    let id ← ofGit rev
    let msg ← ofGit (h.message id)
    let skip ← if !p.fixup then ofPcre (fx msg) else pure false
    if skip then loop h p rx fx revs
    else if (← ofPcre (rx msg)) then pure id
    else loop h p rx fx revs

/-- git-at.rs:66-84 `run`. -/
def run (eng : Engine) (h : History) (p : Program) : Except Err Bytes := do
  let rx ← pattern eng p p.text
  let fx ← pattern eng p fixupText
  let head ← ofGit (h.revparse p.head)
  let revs ← ofGit (h.walk head)
  loop h p rx fx revs

/-- git-at.rs:91-118 `main`. `gitShow`: what comes of `git show <id>`: `none` if it cannot be
started or waited for, else its exit code if it has one. Its output is its own. -/
def main (eng : Engine) (h : History) (gitShow : Bytes → Option (Option Int)) (outCap errCap : Cap)
    (p : Program) : Ran :=
  match run eng h p with
  | .ok id =>
    if p.shows then
      match gitShow id with
      | none => ⟨[], [], .aborted⟩
      | some code => ⟨[], [], .exit (code.getD ExitStatus.externalProgramFailed.code)⟩
    else
      let w := writeTo outCap (id ++ b!"\n")
      ⟨w.1, [], if w.2 then .exit ExitStatus.success.code else .aborted⟩
  | .error e =>
    if e.fatal || !p.quiet then failWith errCap e
    else ⟨[], [], .exit e.exitStatus.code⟩

/-- git-at.rs:170-179 `repo` and git-at.rs:181-188 `main`: the process. `repo` is the answer of
`Repository::discover`. (`eprintln!` panics if it cannot write; `process::exit(4)`.) -/
def process (eng : Engine) (repo : Except GitErr History)
    (gitShow : Bytes → Option (Option Int)) (outCap errCap : Cap) (o : Options) : Ran :=
  match repo with
  | .error e =>
    let w := writeTo errCap (e.text ++ b!"\n")
    ⟨[], w.1, if w.2 then .exit 4 else .aborted⟩
  | .ok h => main eng h gitShow outCap errCap (program o)

end GitAt

/-! ### git-recent-refs -/

/-- `git2::Time` (git-recent-refs.rs:55-65). -/
structure GitTime where
  seconds : Int
  offset : Int
  deriving DecidableEq, Repr

/-- `Ord for git2::Time`: seconds first, then the offset (git2 0.16, `time.rs`). -/
def GitTime.le (a b : GitTime) : Bool :=
  a.seconds < b.seconds || (a.seconds = b.seconds && a.offset ≤ b.offset)

/-- What `git-recent-refs` uses of a `git2::Reference`: `target()` (none for a symbolic one), the
times of the commit it peels to (none if `peel_to_commit` fails), `name()` (none if not UTF-8)
(git-recent-refs.rs:47-65, 87-110). -/
structure Ref where
  target : Option Bytes
  commit : Option (GitTime × GitTime)
  name : Option Bytes
  deriving DecidableEq, Repr

namespace RecentRefs

/-- git-recent-refs.rs:26-30 `SortKind`. -/
inductive SortKind
  | visited | committed | authored
  deriving DecidableEq, Repr

/-- What the program uses of the repository.

* `revparseExt`: `revparse_ext`: the id of the object and, if the text names a reference, its
  `name()`; none for any error;
* `references`: the answers of the iterator `references()` (git-recent-refs.rs:72-113). -/
structure Repo where
  revparseExt : Bytes → Option (Bytes × Option (Option Bytes))
  references : Except GitErr (List (Except GitErr Ref))

/-- git-recent-refs.rs:47-53 `stringify`. -/
def stringify : Option (Bytes × Option (Option Bytes)) → Option Bytes
  | some (_, some name) => name
  | some (id, none) => some id
  | none => none

/-- git-recent-refs.rs:55-59 `commit_date_for`. -/
def commitDate (r : Ref) : Option GitTime := r.commit.map Prod.fst

/-- git-recent-refs.rs:61-65 `author_date_for`. -/
def authorDate (r : Ref) : Option GitTime := r.commit.map Prod.snd

/-- git-recent-refs.rs:75-79: the `n`-th text that is resolved. The range `1..` is one of `i32`,
which wraps in a build without overflow checks. -/
def visitText : Nat → Bytes
  | 0 => b!"HEAD"
  | n + 1 => b!"@{-" ++ intDec (Int.bmod (n + 1 : Nat) (2 ^ 32)) ++ b!"}"

/-- `Option<Time>` is ordered with `None` first; `b.1.cmp(&a.1)` not `Greater` for `a` before `b`
(git-recent-refs.rs:93, 106). -/
def newestFirst (a b : Option GitTime × Ref) : Bool :=
  match b.1, a.1 with
  | none, _ => true
  | some _, none => false
  | some y, some x => y.le x

/-- `slice::sort_by` is a stable sort; any two stable sorts agree, this one is by insertion (git-recent-refs.rs:93,
106). -/
def insertBy {α} (le : α → α → Bool) (x : α) : List α → List α
  | [] => [x]
  | y :: ys => if le x y then x :: y :: ys else y :: insertBy le x ys

/-- `slice::sort_by`, see `insertBy` (git-recent-refs.rs:93, 106). -/
def sortBy {α} (le : α → α → Bool) : List α → List α
  | [] => []
  | x :: xs => insertBy le x (sortBy le xs)

/-- `filter_map(Result::ok)` (git-recent-refs.rs:89, 102). -/
def oks {α ε} (l : List (Except ε α)) : List α :=
  l.filterMap fun x => match x with
    | .ok a => some a
    | .error _ => none

/-- git-recent-refs.rs:87-97 and 100-110, for the given date. -/
def byDate (date : Ref → Option GitTime) (refs : List (Except GitErr Ref)) : List Bytes :=
  let l := (oks refs).map fun r => (date r, r)
  let l := l.filter fun x => x.2.target.isSome && x.1.isSome
  (sortBy newestFirst l).filterMap fun x => x.2.name

/-- `writeln!` for each line (git-recent-refs.rs:123-125). -/
def textOf (lines : List Bytes) : Bytes := (lines.map (· ++ b!"\n")).flatten

/-- git-recent-refs.rs:72-84 and the loop of `main` (git-recent-refs.rs:121-126) over the unbounded
iterator, from the `n`-th line on: each line is written before the next one is looked for. What arrives, and
whether that was all; `none` if the fuel is used up. -/
def visitF (repo : Repo) : Nat → Nat → Cap → Option (Bytes × Bool)
  | 0, _, _ => none
  | f + 1, n, cap =>
    match stringify (repo.revparseExt (visitText n)) with
    | none => some ([], true)
    | some s =>
      let line := s ++ b!"\n"
      let w := writeTo cap line
      if w.2 then (visitF repo f (n + 1) (cap.map (· - line.length))).map fun x => (w.1 ++ x.1, x.2)
      else some w

/-- git-recent-refs.rs:86-112, the two kinds in which `run` looks at everything before the first line. -/
def run (repo : Repo) (date : Ref → Option GitTime) : Except Err (List Bytes) := do
  return byDate date (← ofGit repo.references)

/-- git-recent-refs.rs:122-126: how `main` ends after writing, if it does. -/
def wrote (w : Bytes × Bool) : Ran := ⟨w.1, [], if w.2 then .exit ExitStatus.success.code else .aborted⟩

/-- git-recent-refs.rs:120-133 `main`; none if the fuel is used up. -/
def main (fuel : Nat) (repo : Repo) (outCap errCap : Cap) (kind : SortKind) : Option Ran :=
  let list (date : Ref → Option GitTime) : Ran :=
    match run repo date with
    | .ok lines => wrote (writeTo outCap (textOf lines))
    | .error e => failWith errCap e
  match kind with
  | .visited => (visitF repo fuel 0 outCap).map wrote
  | .committed => some (list commitDate)
  | .authored => some (list authorDate)

/-- git-recent-refs.rs:149-156 `sort_type`; none where it panics (`clap` lets no such value
through). -/
def sortType (kind : Bytes) : Option SortKind :=
  if kind = b!"visitdate" then some .visited
  else if kind = b!"authordate" then some .authored
  else if kind = b!"committerdate" then some .committed
  else none

/-- git-recent-refs.rs:158-163 `program`. -/
def program (sort : Option Bytes) : Option SortKind := sortType (sort.getD b!"visitdate")

/-! ### The pager (pager/mod.rs) -/

/-- What `find_pager` looks at: `isatty` of standard output, the environment, and `core.pager` of
the configuration, either of whose steps may fail (pager/mod.rs:27-44). -/
structure PagerEnv where
  isatty : Int
  gitPager : Option Bytes
  pager : Option Bytes
  config : Except GitErr (Except GitErr Bytes)

/-- pager/mod.rs:31-34: `core.pager`, if it can be read. -/
def corePager (e : PagerEnv) : Option Bytes :=
  match e.config with
  | .ok (.ok v) => some v
  | _ => none

/-- pager/mod.rs:27-44 `find_pager`. -/
def findPager (e : PagerEnv) : Option Bytes :=
  if e.isatty ≠ 1 then none
  else
    let pager := ((e.gitPager.or (corePager e)).or e.pager).getD b!"less"
    if pager = b!"cat" then none else some pager

/-- Where the output goes: standard output, or the standard input of `sh -c <pager>` (pager/mod.rs:14-25, 46-54). -/
inductive Dest
  | stdout
  | pager (cmd : Bytes)
  deriving DecidableEq, Repr

/-- pager/mod.rs:14-25 `Pager::new` and pager/mod.rs:46-54 `stdout`; none if `sh` cannot be
started. -/
def openPager (e : PagerEnv) (shStarts : Bool) : Option Dest :=
  match findPager e with
  | none => some .stdout
  | some cmd => if shStarts then some (.pager cmd) else none

/-- git-recent-refs.rs:72-113: what the `n`-th call of `next` of the iterator of `run` answers. -/
def nthLine (repo : Repo) : SortKind → Except Err (Nat → Option Bytes)
  | .visited => .ok fun n => stringify (repo.revparseExt (visitText n))
  | .committed => do let lines ← run repo commitDate; return (lines[·]?)
  | .authored => do let lines ← run repo authorDate; return (lines[·]?)

/-- The program beside its pager: how many lines it has got from the iterator, what of the last one is not written yet,
what is in the pipe, what the pager has taken out of it, how the program ended, and whether the pager has gone (or has
closed its standard input) (git-recent-refs.rs:123-126, 190; pager/mod.rs:46-52). -/
structure Pipeline where
  lines : Nat := 0
  rest : Bytes := []
  pipe : Bytes := []
  taken : Bytes := []
  ended : Option Ended := none
  gone : Bool := false
  deriving DecidableEq, Repr

/-- git-recent-refs.rs:123-126 and 190, with `writeln!` to the pipe (pager/mod.rs:46-52): the program asks for a line,
writes some of it, as much as there is room for, and exits when there are no more. Nothing waits for the pager: the
`Child` of pager/mod.rs:9-11 has no `Drop`, and `process::exit` runs none. Without a reader the program is killed by
SIGPIPE (git-recent-refs.rs:178-180). -/
inductive PipeStep (line : Nat → Option Bytes) : Pipeline → Pipeline → Prop
  | next {p : Pipeline} {l : Bytes} (hl : line p.lines = some l) (hr : p.rest = []) (he : p.ended = none) :
      PipeStep line p { p with lines := p.lines + 1, rest := l ++ b!"\n" }
  | write {p : Pipeline} {a b : Bytes} (hr : p.rest = a ++ b) (ha : a ≠ []) (he : p.ended = none)
      (hg : p.gone = false) : PipeStep line p { p with rest := b, pipe := p.pipe ++ a }
  | broken {p : Pipeline} (hr : p.rest ≠ []) (he : p.ended = none) (hg : p.gone = true) :
      PipeStep line p { p with ended := some .aborted }
  | exit {p : Pipeline} (hl : line p.lines = none) (hr : p.rest = []) (he : p.ended = none) :
      PipeStep line p { p with ended := some (.exit ExitStatus.success.code) }
  | take {p : Pipeline} {a b : Bytes} (hp : p.pipe = a ++ b) (hg : p.gone = false) :
      PipeStep line p { p with pipe := b, taken := p.taken ++ a }
  | leave {p : Pipeline} (hg : p.gone = false) : PipeStep line p { p with gone := true }

/-- What can be reached when the program has just started its pager (git-recent-refs.rs:183-191). -/
inductive Paged (line : Nat → Option Bytes) : Pipeline → Prop
  | start : Paged line {}
  | step {p q : Pipeline} : Paged line p → PipeStep line p q → Paged line q

/-- git-recent-refs.rs:165-174 `repo` and git-recent-refs.rs:183-191 `main`: the process. -/
def process (fuel : Nat) (repo : Except GitErr Repo) (e : PagerEnv) (shStarts : Bool)
    (outCap errCap : Cap) (sort : Option Bytes) : Option (Dest × Ran) :=
  match repo with
  | .error g =>
    let w := writeTo errCap (g.text ++ b!"\n")
    some (.stdout, ⟨[], w.1, if w.2 then .exit 4 else .aborted⟩)
  | .ok repo =>
    match program sort, openPager e shStarts with
    | some kind, some dest => (main fuel repo outCap errCap kind).map fun r => (dest, r)
    | _, _ => some (.stdout, ⟨[], [], .aborted⟩)

end RecentRefs

/-! ### git-lfs-transfer before the protocol -/

namespace Transfer

/-- `u16::from_str_radix(x, 8)` (std): an optional `+`, then digits, without overflow (git-lfs-transfer.rs:105-106).
-/
def octDigits : Nat → Bytes → Option Nat
  | n, [] => some n
  | n, c :: cs =>
    if 48 ≤ c ∧ c ≤ 55 then
      let n' := n * 8 + (c.toNat - 48)
      if n' < 65536 then octDigits n' cs else none
    else none

/-- `u16::from_str_radix(x, 8)` (git-lfs-transfer.rs:105-106). -/
def parseOctal (x : Bytes) : Option Nat :=
  let ds := if x.head? = some 43 then x.tail else x
  if ds = [] then none else octDigits 0 ds

/-- What `set_permissions` asks libgit2 for: `config()`, and of it `get_string` and `get_bool` of
core.sharedrepository (git-lfs-transfer.rs:98-101). -/
structure Shared where
  str : Except GitErr Bytes
  bool : Except GitErr Bool

/-- git-lfs-transfer.rs:99-111: the permissions asked for. -/
def wantedPerms (s : Shared) : Except Err (Option Nat) :=
  match s.bool, s.str with
  | .ok true, _ => .ok (some 0o660)
  | .ok false, .ok x => if x = b!"group" then .ok (some 0o660) else .ok none
  | .ok false, .error _ => .ok none
  | .error _, .ok x =>
    if x = b!"group" then .ok (some 0o660)
    else if x = b!"umask" then .ok none
    else if x = b!"all" ∨ x = b!"world" ∨ x = b!"everybody" then .ok (some 0o664)
    else .ok (parseOctal x)
  | .error _, .error e =>
    if e.code = .notFound then .ok none else .error (Err.ofGit e)

/-- git-lfs-transfer.rs:113-119: from permissions to a umask; the value is a `u16`. -/
def umaskFor (value : Nat) : Nat :=
  let value := value ||| ((value &&& 0o444) >>> 2)
  0o777 &&& (0xFFFF ^^^ value)

/-- git-lfs-transfer.rs:97-127 `set_permissions` (unix). The answer is also the umask the process
has afterwards. -/
def setPermissions (config : Except GitErr Shared) (umask : Nat) : Except Err Nat := do
  let s ← ofGit config
  match (← wantedPerms s) with
  | some value => pure (umaskFor value)
  | none => pure umask

/-- git-lfs-transfer.rs:134-142 `main_internal` and 149-162 `main`. -/
def main (config : Except GitErr Shared) (cfg : Cfg) (operation : Bytes) (r : Rdr) : Prog Exit :=
  match setPermissions config cfg.umask with
  | .ok u => mainProg { cfg with umask := u } operation r
  | .error e => .ret ⟨e.exitStatus.code, e.display ++ b!"\n"⟩

/-- git-lfs-transfer.rs:176-185 `repo` and 197-205 `main`: the process, for what
`Repository::open` answers. -/
def process (repo : Except GitErr (Except GitErr Shared)) (cfg : Cfg) (operation : Bytes)
    (r : Rdr) : Prog Exit :=
  match repo with
  | .ok config => main config cfg operation r
  | .error e => .ret ⟨4, e.text ++ b!"\n"⟩

/-! ### How libgit2 reads a value as a boolean

Written down from libgit2 1.5.1 (`config.c`, `util.c`), for C50; not code of the repository. -/

/-- `git__tolower` (libgit2, for git-lfs-transfer.rs:101). -/
def lower (c : UInt8) : UInt8 := if 65 ≤ c ∧ c ≤ 90 then c + 32 else c

/-- The value of a digit in any base (libgit2, for git-lfs-transfer.rs:101). -/
def digitVal (c : UInt8) : Nat :=
  if 48 ≤ c ∧ c ≤ 57 then c.toNat - 48
  else if 97 ≤ lower c ∧ lower c ≤ 122 then (lower c).toNat - 87
  else 99

/-- The digits of a number in the given base: how many, the value, the rest (libgit2, for git-lfs-transfer.rs:101). -/
def digitsIn (base : Nat) : Nat → Nat → Bytes → Nat × Nat × Bytes
  | k, n, [] => (k, n, [])
  | k, n, c :: cs =>
    if digitVal c < base then digitsIn base (k + 1) (n * base + digitVal c) cs else (k, n, c :: cs)

/-- `git__isspace` (libgit2, for git-lfs-transfer.rs:101). -/
def isSpace (c : UInt8) : Bool := c = 32 || (9 ≤ c && c ≤ 13)

/-- `git__strntol64`: the base a number is written in, and its digits (libgit2, for git-lfs-transfer.rs:101). -/
def baseOf (v : Bytes) : Nat × Bytes :=
  match v with
  | 48 :: x :: c :: cs => if lower x = 120 then (16, c :: cs) else (8, 48 :: x :: c :: cs)
  | 48 :: cs => (8, 48 :: cs)
  | v => (10, v)

/-- The numbers of `k + 1` bits in two's complement (libgit2, for git-lfs-transfer.rs:101). -/
def fits (k : Nat) (i : Int) : Bool := -(2 ^ k : Int) ≤ i && i < (2 ^ k : Int)

/-- `git_config_parse_int64`: the number for what follows its digits (libgit2, for git-lfs-transfer.rs:101). -/
def scaled (rest : Bytes) (i : Int) : Option Int :=
  match rest.map lower with
  | [] => some i
  | [107] => some (i * 1024)
  | [109] => some (i * 1024 * 1024)
  | [103] => some (i * 1024 * 1024 * 1024)
  | _ => none

/-- `git_config_parse_int32` (libgit2, for git-lfs-transfer.rs:101). -/
def parseInt32 (v : Bytes) : Option Int :=
  let v := v.dropWhile isSpace
  let neg := v.head? = some 45
  let v := if v.head? = some 45 ∨ v.head? = some 43 then v.tail else v
  let d := digitsIn (baseOf v).1 0 0 (baseOf v).2
  let i : Int := if neg then -(d.2.1 : Int) else d.2.1
  if d.1 = 0 ∨ ¬ fits 63 i then none
  else (scaled d.2.2 i).bind fun i => if fits 31 i then some i else none

/-- `git_config_parse_bool`; `none` is a name without a value (libgit2, for git-lfs-transfer.rs:101). -/
def parseBool : Option Bytes → Option Bool
  | none => some true
  | some v =>
    let w := v.map lower
    if w = b!"true" ∨ w = b!"yes" ∨ w = b!"on" then some true
    else if w = b!"false" ∨ w = b!"no" ∨ w = b!"off" ∨ w = [] then some false
    else (parseInt32 v).map (· ≠ 0)

/-- What libgit2 answers for core.sharedrepository with the given value (`none`: not set) (libgit2, for
git-lfs-transfer.rs:99-101). -/
def answers (value : Option (Option Bytes)) (missing bad : GitErr) : Shared :=
  match value with
  | none => ⟨.error missing, .error missing⟩
  | some v => ⟨.ok (v.getD []), match parseBool v with
    | some b => .ok b
    | none => .error bad⟩

end Transfer

end Verif
