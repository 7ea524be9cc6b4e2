import Verif.Spec.Request
import Verif.Spec.Crash
import Verif.Spec.Ops
import Verif.Spec.Utf8
/-!
Which answers are backed by what the OS told the server. The OS may answer anything: an I/O error at any call, or what
other processes made of the files in between. An answer that is not an internal error must only say what the OS said.
-/
namespace Verif.Spec

/-! ### What the OS said -/

/-- The object was there and had this size. -/
def SaidSize (root : Path) (tr : List Event) (oid : Bytes) (n : Nat) : Prop :=
  ∃ st, st.len = n ∧ (⟨.stat (.exact (objectFile root oid)), .ok st⟩ : Event) ∈ tr

/-- The file was not there. Any other error says nothing about that. -/
def SaidMissing (tr : List Event) (p : FPath) : Prop :=
  ∃ e, e.kind = .notFound ∧
    ((⟨.stat p, .error e⟩ : Event) ∈ tr ∨ (⟨.openRead p, .error e⟩ : Event) ∈ tr ∨
      ∃ h, (⟨.openRead p, .ok h⟩ : Event) ∈ tr ∧ (⟨.fstat h, .error e⟩ : Event) ∈ tr)

/-- A file in the directory of locks. -/
def lockEntry (root : Path) (id : Bytes) : FPath := .join (root ++ [b!"locks"]) id

/-- The file in the directory of locks had this content, read to its end. -/
def SaidContent (root : Path) (tr : List Event) (id d : Bytes) : Prop :=
  ∃ h cs, (⟨.openRead (lockEntry root id), .ok h⟩ : Event) ∈ tr ∧ (⟨.readAll h, (cs, none)⟩ : Event) ∈ tr ∧ d = cs.flatten

/-- `d` is the record of a lock on `path` since `t` (a 64-bit number). -/
def RecordIs (d : Bytes) (t : Int) (path : Bytes) : Prop :=
  ∃ ts, d = b!"v1:" ++ ts ++ b!":" ++ path ∧ IntText ts t ∧ -9223372036854775808 ≤ t ∧ t ≤ 9223372036854775807

/-- A lock as it is reported. -/
structure Shown where
  path : Bytes
  time : Int
  owner : Bytes
  deriving DecidableEq

/-- The owner of the file has this name; if the OS did not say who that is, `unknown`. -/
def SaidOwner (cfg : Cfg) (tr : List Event) (p : FPath) (o : Bytes) : Prop :=
  (∃ st, (⟨.stat p, .ok st⟩ : Event) ∈ tr ∧ o = ownerName cfg st.uid) ∨
  (∃ e, (⟨.stat p, .error e⟩ : Event) ∈ tr ∧ o = b!"unknown")

/-- The file in the directory of locks is the record of this lock. -/
def SaidLock (cfg : Cfg) (tr : List Event) (id : Bytes) (l : Shown) : Prop :=
  (∃ d, SaidContent cfg.root tr id d ∧ RecordIs d l.time l.path) ∧ SaidOwner cfg tr (lockEntry cfg.root id) l.owner

/-- What one call wrote to a file. -/
def wrote (ino : Ino) : Event → Bytes
  | ⟨.write i d, x⟩ =>
    match x with
    | .ok _ => if i = ino then d else []
    | .error _ => []
  | _ => []

/-- What was written to a file through its handle. -/
def written (ino : Ino) (tr : List Event) : Bytes := tr.flatMap (wrote ino)

/-! ### How it is reported -/

def shownFields (cfg : Cfg) (l : Shown) : List Bytes :=
  [b!"id=" ++ lockName cfg.sha l.path ++ b!"\n", b!"path=" ++ l.path ++ b!"\n",
   b!"locked-at=" ++ timeText cfg l.time ++ b!"\n", b!"ownername=" ++ l.owner ++ b!"\n"]

def shownLines (cfg : Cfg) (mode : Mode) (l : Shown) : List Bytes :=
  let id := lockName cfg.sha l.path
  [b!"lock " ++ id ++ b!"\n", b!"path " ++ id ++ b!" " ++ l.path ++ b!"\n",
   b!"locked-at " ++ id ++ b!" " ++ timeText cfg l.time ++ b!"\n",
   b!"ownername " ++ id ++ b!" " ++ l.owner ++ b!"\n"] ++
  (if mode = .upload then
    [b!"owner " ++ id ++ b!" " ++ (if l.owner = ownerName cfg cfg.uid then b!"ours" else b!"theirs") ++ b!"\n"]
   else [])

/-- Line of a batch reply for an object that is there, with its size, or is not, with the size asked for. -/
def itemLine (mode : Mode) (oid : Bytes) (size : Nat) (there : Bool) : Bytes :=
  oid ++ b!" " ++ decimal size ++ (match mode, there with
    | .upload, true => b!" noop\n"
    | .upload, false => b!" upload\n"
    | .download, true => b!" download\n"
    | .download, false => b!" noop\n")

/-- The lines of a batch reply. If `lax`, an object is also reported as missing when the OS answered with another
error. -/
inductive ItemsSaid (lax : Bool) (root : Path) (mode : Mode) (tr : List Event) : List (Bytes × Nat) → List Bytes → Prop
  | nil : ItemsSaid lax root mode tr [] []
  | there {oid : Bytes} {n m : Nat} {its : List (Bytes × Nat)} {ls : List Bytes} : SaidSize root tr oid m →
      ItemsSaid lax root mode tr its ls → ItemsSaid lax root mode tr ((oid, n) :: its) (itemLine mode oid m true :: ls)
  | missing {oid : Bytes} {n : Nat} {its : List (Bytes × Nat)} {ls : List Bytes} :
      SaidMissing tr (.exact (objectFile root oid)) →
      ItemsSaid lax root mode tr its ls → ItemsSaid lax root mode tr ((oid, n) :: its) (itemLine mode oid n false :: ls)
  | failed {oid : Bytes} {n : Nat} {its : List (Bytes × Nat)} {ls : List Bytes} {e : IoErr} : lax = true →
      (⟨.stat (.exact (objectFile root oid)), .error e⟩ : Event) ∈ tr →
      ItemsSaid lax root mode tr its ls → ItemsSaid lax root mode tr ((oid, n) :: its) (itemLine mode oid n false :: ls)

/-- A listing shows, of the names of a directory in this order, at most `k` locks. Names that are no text are converted;
the file is looked up under what they became. If `lax`, a file that could not be read may be left out. -/
inductive NamesSaid (lax : Bool) (cfg : Cfg) (tr : List Event) (cursor : Option Bytes) :
    Nat → List Bytes → List Shown → Prop
  | nil {k : Nat} : NamesSaid lax cfg tr cursor k [] []
  | full {names : List Bytes} : NamesSaid lax cfg tr cursor 0 names []
  | lock {k : Nat} {n id : Bytes} {ns : List Bytes} {l : Shown} {ls : List Shown} : SaidLock cfg tr id l → Lossy n id →
      NamesSaid lax cfg tr cursor k ns ls → NamesSaid lax cfg tr cursor (k + 1) (n :: ns) (l :: ls)
  | before {k : Nat} {n id c : Bytes} {ns : List Bytes} {l : Shown} {ls : List Shown} : SaidLock cfg tr id l → Lossy n id →
      cursor = some c → lockName cfg.sha l.path < c →
      NamesSaid lax cfg tr cursor k ns ls → NamesSaid lax cfg tr cursor k (n :: ns) ls
  | gone {k : Nat} {n id : Bytes} {ns : List Bytes} {ls : List Shown} : SaidMissing tr (lockEntry cfg.root id) → Lossy n id →
      NamesSaid lax cfg tr cursor k ns ls → NamesSaid lax cfg tr cursor k (n :: ns) ls
  | noLock {k : Nat} {n id d : Bytes} {ns : List Bytes} {ls : List Shown} : SaidContent cfg.root tr id d → Lossy n id →
      (∀ t path, ¬ RecordIs d t path) → NamesSaid lax cfg tr cursor k ns ls → NamesSaid lax cfg tr cursor k (n :: ns) ls
  | failed {k : Nat} {n id : Bytes} {ns : List Bytes} {ls : List Shown} : lax = true → Lossy n id →
      ((∃ e, (⟨.openRead (lockEntry cfg.root id), .error e⟩ : Event) ∈ tr) ∨
        ∃ h cs e, (⟨.openRead (lockEntry cfg.root id), .ok h⟩ : Event) ∈ tr ∧ (⟨.readAll h, (cs, some e)⟩ : Event) ∈ tr) →
      NamesSaid lax cfg tr cursor k ns ls → NamesSaid lax cfg tr cursor k (n :: ns) ls

/-- The process has the time `t` from its configuration or from the clock. -/
def SaidTime (cfg : Cfg) (tr : List Event) (t : Int) : Prop :=
  cfg.timestamp = some t ∨ cfg.timestamp = none ∧ (⟨.now, t⟩ : Event) ∈ tr

/-- `Backed lax cfg mode tr q a`: after the OS answers `tr`, `a` is an honest answer to request `q`. -/
inductive Backed (lax : Bool) (cfg : Cfg) (mode : Mode) (tr : List Event) : Request → Answer → Prop
  /-- An internal error, to be tried again, says nothing. -/
  | internal {q : Request} {ls : List Bytes} : Backed lax cfg mode tr q ⟨500, [], .lines ls⟩
  | quit : Backed lax cfg mode tr .quit ⟨200, [], .none⟩
  | version : Backed lax cfg mode tr .version ⟨200, [], .lines []⟩
  | batch {items : List (Bytes × Nat)} {ls : List Bytes} : ItemsSaid lax cfg.root mode tr items ls →
      Backed lax cfg mode tr (.batch items) ⟨200, [], .lines ls⟩
  /-- All the data, and nothing else, was written to a new file, which was given the name of the object. -/
  | stored {oid data : Bytes} {size : Nat} {src : Path} {ino : Ino} : putError cfg oid size data = none →
      (⟨.createTemp (cfg.root ++ [b!"incomplete"]) oid cfg.uid, .ok (src, ino)⟩ : Event) ∈ tr → written ino tr = data →
      (⟨.rename src (objectFile cfg.root oid), .ok ()⟩ : Event) ∈ tr →
      Backed lax cfg mode tr (.put oid size data) ⟨200, [], .none⟩
  | refused {oid data m : Bytes} {size : Nat} : putError cfg oid size data = some m →
      (∀ src, (⟨.rename src (objectFile cfg.root oid), .ok ()⟩ : Event) ∉ tr) →
      Backed lax cfg mode tr (.put oid size data) (badRequest m)
  | verified {oid : Bytes} {size : Nat} : SaidSize cfg.root tr oid size →
      Backed lax cfg mode tr (.verify oid size) ⟨200, [], .none⟩
  | differs {oid : Bytes} {size n : Nat} {ls : List Bytes} : SaidSize cfg.root tr oid n → n ≠ size →
      Backed lax cfg mode tr (.verify oid size) ⟨409, [], .lines ls⟩
  | missing {oid : Bytes} {size : Nat} {ls : List Bytes} : SaidMissing tr (.exact (objectFile cfg.root oid)) →
      Backed lax cfg mode tr (.verify oid size) ⟨404, [], .lines ls⟩
  /-- The size and the content are those of one file, opened under the name of the object and read to its end. -/
  | sent {oid : Bytes} {h : Option Ino} {st : Stat} {cs : List Bytes} :
      (⟨.openRead (.exact (objectFile cfg.root oid)), .ok h⟩ : Event) ∈ tr → (⟨.fstat h, .ok st⟩ : Event) ∈ tr →
      (⟨.readAll h, (cs, none)⟩ : Event) ∈ tr →
      Backed lax cfg mode tr (.get oid) ⟨200, [b!"size=" ++ decimal st.len ++ b!"\n"], .raw cs.flatten⟩
  | noObject {oid : Bytes} {ls : List Bytes} : SaidMissing tr (.exact (objectFile cfg.root oid)) →
      Backed lax cfg mode tr (.get oid) ⟨404, [], .lines ls⟩
  /-- The record was written to a new file, which was then given the name of the lock. -/
  | locked {path : Bytes} {t : Int} {ino : Ino} {l : Shown} : SaidTime cfg tr t →
      (⟨.createNew (lockTempFile cfg.root (lockName cfg.sha path)) cfg.uid, .ok ino⟩ : Event) ∈ tr →
      written ino tr = b!"v1:" ++ decimalInt t ++ b!":" ++ path →
      (⟨.link (lockTempFile cfg.root (lockName cfg.sha path)) (lockFile cfg.root (lockName cfg.sha path)), .ok ()⟩ : Event) ∈ tr →
      l.path = path → SaidTime cfg tr l.time → SaidOwner cfg tr (.exact (lockFile cfg.root (lockName cfg.sha path))) l.owner →
      Backed lax cfg mode tr (.lock path) ⟨201, shownFields cfg l, .none⟩
  | held {path : Bytes} {l : Shown} {ls : List Bytes} : l.path = path → SaidLock cfg tr (lockName cfg.sha path) l →
      Backed lax cfg mode tr (.lock path) ⟨409, shownFields cfg l, .lines ls⟩
  | corrupt {path d : Bytes} {ls : List Bytes} : SaidContent cfg.root tr (lockName cfg.sha path) d → (∀ t, ¬ RecordIs d t path) →
      Backed lax cfg mode tr (.lock path) ⟨400, [], .lines ls⟩
  /-- The lock read from the file was removed. -/
  | unlocked {id : Bytes} {l : Shown} : SaidLock cfg tr id l →
      (⟨.unlink (lockFile cfg.root (lockName cfg.sha l.path)), .ok ()⟩ : Event) ∈ tr →
      Backed lax cfg mode tr (.unlock id) ⟨200, shownFields cfg l, .none⟩
  | noLock {id : Bytes} {ls : List Bytes} : SaidMissing tr (lockEntry cfg.root id) →
      Backed lax cfg mode tr (.unlock id) ⟨404, [], .lines ls⟩
  | notRemoved {id : Bytes} {l : Shown} {e : IoErr} {code : Nat} {ls : List Bytes} : SaidLock cfg tr id l →
      (⟨.unlink (lockFile cfg.root (lockName cfg.sha l.path)), .error e⟩ : Event) ∈ tr →
      (code = 404 ∧ e.kind = .notFound ∨ code = 403 ∧ e.kind = .permissionDenied) →
      Backed lax cfg mode tr (.unlock id) ⟨code, [], .lines ls⟩
  | corruptId {id d : Bytes} {ls : List Bytes} : SaidContent cfg.root tr id d → (∀ t path, ¬ RecordIs d t path) →
      Backed lax cfg mode tr (.unlock id) ⟨400, [], .lines ls⟩
  | listed {path : Bytes} {cursor : Option Bytes} {limit : Option Nat} {l : Shown} : l.path = path →
      SaidLock cfg tr (lockName cfg.sha path) l → (∀ c, cursor = some c → ¬ lockName cfg.sha path < c) →
      Backed lax cfg mode tr (.listLocks (some path) cursor limit) ⟨200, [], .lines (shownLines cfg mode l)⟩
  | notListed {path : Bytes} {cursor : Option Bytes} {limit : Option Nat} {ls : List Bytes} :
      (SaidMissing tr (lockEntry cfg.root (lockName cfg.sha path)) ∨
        ∃ l c, l.path = path ∧ SaidLock cfg tr (lockName cfg.sha path) l ∧ cursor = some c ∧ lockName cfg.sha path < c) →
      Backed lax cfg mode tr (.listLocks (some path) cursor limit) ⟨404, [], .lines ls⟩
  | corruptPath {path d : Bytes} {cursor : Option Bytes} {limit : Option Nat} {ls : List Bytes} :
      SaidContent cfg.root tr (lockName cfg.sha path) d → (∀ t, ¬ RecordIs d t path) →
      Backed lax cfg mode tr (.listLocks (some path) cursor limit) ⟨400, [], .lines ls⟩
  | listing {cursor : Option Bytes} {limit : Option Nat} {names sorted : List Bytes} {ls : List Shown} :
      (⟨.readDir (cfg.root ++ [b!"locks"]), .ok names⟩ : Event) ∈ tr → sorted.Perm names →
      sorted.Pairwise (fun a b => ¬ b < a) → NamesSaid lax cfg tr cursor (pageSize limit + 1) sorted ls →
      Backed lax cfg mode tr (.listLocks none cursor limit)
        ⟨200, (ls[pageSize limit]?.map fun l => b!"next-cursor=" ++ lockName cfg.sha l.path ++ b!"\n").toList,
          .lines (ls.flatMap (shownLines cfg mode))⟩

end Verif.Spec

namespace Verif
open Spec

/-- If the call is one that looks at a file, it found the file missing or went well. -/
def Event.Clear : Event → Prop
  | ⟨.stat _, x⟩ => ∀ e, x = .error e → e.kind = .notFound
  | ⟨.openRead _, x⟩ => ∀ e, x = .error e → e.kind = .notFound
  | ⟨.readAll _, x⟩ => x.2 = none
  | _ => True

end Verif

namespace Verif.Spec

/-- The requests that look at several files. -/
def Surveys : Request → Prop
  | .batch _ => True
  | .listLocks none _ _ => True
  | _ => False

/-- The reply written during `tr` is an honest answer to `q`; but one to a request that looks at several files may
take a file that could not be looked at for a missing one. -/
def HonestReply (cfg : Cfg) (mode : Mode) (q : Request) (tr : List Event) : Prop :=
  ∃ a, Sends a (output tr) ∧ Backed true cfg mode tr q a ∧
    (¬ Surveys q ∨ (∀ e ∈ tr, e.Clear) → Backed false cfg mode tr q a)

/-- `Course cfg mode qs tr code`: during `tr` a server is sent the requests `qs` and ends with this exit code. -/
inductive Course (cfg : Cfg) (mode : Mode) : List Request → List Event → Nat → Prop
  | eof : Course cfg mode [] [] 0
  | quit {tr : List Event} : HonestReply cfg mode .quit tr → Course cfg mode [.quit] tr 0
  | next {q : Request} {qs : List Request} {t tr : List Event} {code : Nat} : HonestReply cfg mode q t →
      Course cfg mode qs tr code → Course cfg mode (q :: qs) (t ++ tr) code
  /-- It panics. -/
  | crash {q : Request} {qs : List Request} {tr : List Event} : Course cfg mode (q :: qs) tr 101
  /-- Reading a file fails while it is being sent. There is no complete reply then. -/
  | cut {oid : Bytes} {qs : List Request} {tr : List Event} {h : Option Ino} {cs : List Bytes} {e : IoErr} {code : Nat} :
      (⟨.readAll h, (cs, some e)⟩ : Event) ∈ tr → code ≠ 0 → Course cfg mode (.get oid :: qs) tr code
  /-- After an upload that could not be written, the server may be out of step with its client (C52). -/
  | lost {oid data : Bytes} {n : Nat} {qs : List Request} {t tr : List Event} {e : Event} {code : Nat} :
      HonestReply cfg mode (.put oid n data) t → e ∈ t → ¬ e.CopyOk → Course cfg mode (.put oid n data :: qs) (t ++ tr) code

end Verif.Spec
