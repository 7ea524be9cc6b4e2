import Verif.Model.Server
import Verif.Spec.Trace
/-!
Several server processes on one file system.

There is one process for every number; a process that is never scheduled has not been started.
Processes take turns in any order, one OS call at a time, with any choice of the environment; they
may be killed at any point. A kill in the middle of a call is a failing call (`Choice.fault`, with
any part of its effect) followed by a kill. Meanwhile other programs may do anything to files elsewhere.
-/
namespace Verif

/-- The file system and the processes that work on it (each process is one of git-lfs-transfer.rs:197-205). -/
structure Sys where
  fs : FS
  procs : Nat → Prog Exit

/-- Replace process `i` (git-lfs-transfer.rs:197-205). -/
def Sys.setProc (s : Sys) (i : Nat) (p : Prog Exit) : Nat → Prog Exit :=
  fun j => if j = i then p else s.procs j

/-- The directory `root`, what is below it, and the directories it is in (the directory is `lfs_path` of
git-lfs-transfer.rs). -/
def near (root p : Path) : Bool := root.isPrefixOf p || p.isPrefixOf root

/-- What other programs may do to the file system: create, remove, link, and change files and directories, except
below `root` and on the way to it. They may link files from there elsewhere and change their mode, but change neither
their content nor their owner (not code of the repository). -/
structure Elsewhere (root : Path) (fs fs' : FS) : Prop where
  names : fs'.names.filter (fun e => near root e.1) = fs.names.filter (fun e => near root e.1)
  dirs : fs'.dirs.filter (near root) = fs.dirs.filter (near root)
  /-- There is one entry for a name. -/
  once : (fs.names.map (·.1)).Nodup → (fs'.names.map (·.1)).Nodup
  /-- Names are given to existing files, or to new ones. -/
  files : ∀ p j, fs'.get p = some j → (∃ q, fs.get q = some j) ∨ (fs.next ≤ j ∧ j < fs'.next)
  /-- Files made below `root` or on the way to it are left alone. -/
  inodes : ∀ j, j < fs.next → near root (fs.inodes j).born = true → (fs'.inodes j).data = (fs.inodes j).data ∧
    (fs'.inodes j).uid = (fs.inodes j).uid ∧ (fs'.inodes j).born = (fs.inodes j).born
  next : fs.next ≤ fs'.next

/-- One step, of a server for the directory `root` or of another program. The label is the call made, if one was
completed (the calls are those of local.rs, processor.rs and git-lfs-transfer.rs listed with `Op`). -/
inductive Step (root : Path) : Sys → Option (Nat × Event) → Sys → Prop
  /-- Process `i` makes its next call. -/
  | call {s : Sys} (i : Nat) (o : Op) (k : Resp o → Prog Exit) (c : Choice) :
      s.procs i = .call o k →
      Step root s (some (i, ⟨o, (sem c s.fs o).2⟩)) ⟨(sem c s.fs o).1, s.setProc i (k (sem c s.fs o).2)⟩
  /-- `write_all` has written some bytes and others are still to be written. -/
  | writeSome {s : Sys} (i : Nat) (ino : Ino) (b : Bytes) (n : Nat)
      (k : Resp (.write ino b) → Prog Exit) :
      s.procs i = .call (.write ino b) k →
      Step root s none ⟨s.fs.append ino (b.take n), s.setProc i (.call (.write ino (b.drop n)) k)⟩
  /-- `create_dir_all` has created some of the directories. -/
  | mkdirSome {s : Sys} (i : Nat) (p : Path) (n : Nat) (e : IoErr)
      (k : Resp (.mkdirAll p) → Prog Exit) :
      s.procs i = .call (.mkdirAll p) k →
      Step root s none ⟨(sem { Choice.none with fault := some e, cut := n } s.fs (.mkdirAll p)).1, s.procs⟩
  /-- Process `i` is killed. -/
  | kill {s : Sys} (i : Nat) : Step root s none ⟨s.fs, s.setProc i (.ret ⟨137, []⟩)⟩
  /-- Another program does something elsewhere. -/
  | elsewhere {s : Sys} (fs' : FS) : Elsewhere root s.fs fs' → Step root s none ⟨fs', s.procs⟩

/-- Any number of steps, with the completed calls in order (as `Step`). -/
inductive Steps (root : Path) : Sys → List (Nat × Event) → Sys → Prop
  | refl {s} : Steps root s [] s
  | tail {s tr s' l s''} : Steps root s tr s' → Step root s' l s'' → Steps root s (tr ++ l.toList) s''

/-- All server processes of one repository at start: the same LFS directory and hash function,
otherwise any configuration, operation and input (git-lfs-transfer.rs:197-205). -/
structure Start (root : Path) (sha : Bytes → Bytes) (s : Sys) : Prop where
  procs : ∀ i, ∃ cfg op r, s.procs i = mainProg cfg op r ∧ cfg.root = root ∧ cfg.sha = sha
  /-- Inode numbers in use are below the next free one. -/
  bound : ∀ p i, s.fs.get p = some i → i < s.fs.next
  /-- Files below the LFS directory and on the way to it were made there. (For a file that exists at the start, `born`
  is not known; one of its names will do.) -/
  home : ∀ p i, near root p = true → s.fs.get p = some i → near root (s.fs.inodes i).born = true

/-! ### Several repositories -/

/-- One step of servers for several repositories; process `i` works on the directory `R i`. Other programs keep away
from all of these (as `Step`). -/
inductive StepMany (R : Nat → Path) : Sys → Option (Nat × Event) → Sys → Prop
  | call {s : Sys} (i : Nat) (o : Op) (k : Resp o → Prog Exit) (c : Choice) : s.procs i = .call o k →
      StepMany R s (some (i, ⟨o, (sem c s.fs o).2⟩)) ⟨(sem c s.fs o).1, s.setProc i (k (sem c s.fs o).2)⟩
  | writeSome {s : Sys} (i : Nat) (ino : Ino) (b : Bytes) (n : Nat)
      (k : Resp (.write ino b) → Prog Exit) :
      s.procs i = .call (.write ino b) k →
      StepMany R s none ⟨s.fs.append ino (b.take n), s.setProc i (.call (.write ino (b.drop n)) k)⟩
  | mkdirSome {s : Sys} (i : Nat) (p : Path) (n : Nat) (e : IoErr)
      (k : Resp (.mkdirAll p) → Prog Exit) :
      s.procs i = .call (.mkdirAll p) k →
      StepMany R s none ⟨(sem { Choice.none with fault := some e, cut := n } s.fs (.mkdirAll p)).1, s.procs⟩
  | kill {s : Sys} (i : Nat) : StepMany R s none ⟨s.fs, s.setProc i (.ret ⟨137, []⟩)⟩
  | elsewhere {s : Sys} (fs' : FS) : (∀ i, Elsewhere (R i) s.fs fs') → StepMany R s none ⟨fs', s.procs⟩

/-- Any number of such steps (as `Step`). -/
inductive StepsMany (R : Nat → Path) : Sys → List (Nat × Event) → Sys → Prop
  | refl {s} : StepsMany R s [] s
  | tail {s tr s' l s''} : StepsMany R s tr s' → StepMany R s' l s'' → StepsMany R s (tr ++ l.toList) s''

/-- All servers at start: process `i` serves the repository with the LFS directory `R i`, with any configuration,
operation and input (git-lfs-transfer.rs:197-205). -/
structure StartMany (R : Nat → Path) (sha : Bytes → Bytes) (s : Sys) : Prop where
  procs : ∀ i, ∃ cfg op r, s.procs i = mainProg cfg op r ∧ cfg.root = R i ∧ cfg.sha = sha
  /-- Two repositories are the same, or neither LFS directory is inside the other. -/
  apart : ∀ i k, R i = R k ∨ near (R i) (R k) = false
  /-- The directories that the LFS directories are in exist (the program has found the repositories). -/
  parents : ∀ i q, q <+: R i → q ≠ R i → s.fs.isDir q = true
  bound : ∀ p j, s.fs.get p = some j → j < s.fs.next
  home : ∀ i p j, near (R i) p = true → s.fs.get p = some j → near (R i) (s.fs.inodes j).born = true

end Verif
