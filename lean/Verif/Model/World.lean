import Verif.Model.Pktline
/-!
The operating-system interface used by `git-lfs-transfer`: a POSIX-like file system and one
`Op` per std call the code makes.

Environment behaviour that the code cannot control (I/O errors, short writes, random names, the
clock, read sizes) is an explicit argument `Choice` of the semantics.
-/
namespace Verif

/-- An absolute path as its list of components (std, e.g. local.rs:72-73, 91-92). -/
abbrev Path := List Bytes
/-- The number of a file (std and the operating system; e.g. the `File` of local.rs:135). -/
abbrev Ino := Nat

/-- A regular file. `born` is the name it was created under: no call looks at it, it only serves to tell whose files
are whose (`Elsewhere`) (the operating system; its content, owner and mode are used at local.rs:32-39, 135-137,
321-324, 374). -/
structure Inode where
  data : Bytes
  uid : Nat
  mode : Nat
  born : Path
  deriving DecidableEq, Repr

/-- File system state: names of regular files (hard links are two names of one inode),
directories, inode contents, and the next unused inode number.

Simplifications: no symbolic links; permission checks and other failures occur only as faults
(`Choice.fault`); directory contents are exactly `names` and `dirs` (the operating system; all calls of `Op`). -/
structure FS where
  names : List (Path × Ino)
  dirs : List Path
  inodes : Ino → Inode
  next : Ino

/-- Association-list lookup (the operating system). -/
def alGet : List (Path × Ino) → Path → Option Ino
  | [], _ => none
  | (q, i) :: l, p => if q = p then some i else alGet l p

/-- Removal of a name (the operating system: unlink(2), rename(2)). -/
def alDel (l : List (Path × Ino)) (p : Path) : List (Path × Ino) := l.filter (fun e => e.1 ≠ p)

/-- Insertion or replacement of a name (the operating system: link(2), rename(2)). -/
def alSet (l : List (Path × Ino)) (p : Path) (i : Ino) : List (Path × Ino) := (p, i) :: alDel l p

/-- The file with a name (the operating system). -/
def FS.get (fs : FS) (p : Path) : Option Ino := alGet fs.names p

/-- Whether a path is a directory (the operating system). -/
def FS.isDir (fs : FS) (p : Path) : Bool := p = [] || fs.dirs.contains p

/-- Content of the regular file at a path, if there is one (the operating system; what local.rs:135, 374 read). -/
def FS.content (fs : FS) (p : Path) : Option Bytes := (fs.get p).map (fun i => (fs.inodes i).data)

/-- Give a file a name, which no other file has then (the operating system; local.rs:97-104, 185). -/
def FS.setName (fs : FS) (p : Path) (i : Ino) : FS := { fs with names := alSet fs.names p i }
/-- Remove a name (the operating system; local.rs:199, 251). -/
def FS.delName (fs : FS) (p : Path) : FS := { fs with names := alDel fs.names p }
/-- Replace a file, whatever its names (the operating system). -/
def FS.setInode (fs : FS) (i : Ino) (n : Inode) : FS :=
  { fs with inodes := fun j => if j = i then n else fs.inodes j }
/-- Write at the end of a file (the operating system; local.rs:78, 177). -/
def FS.append (fs : FS) (i : Ino) (b : Bytes) : FS :=
  fs.setInode i { fs.inodes i with data := (fs.inodes i).data ++ b }
/-- Create an empty regular file at `p`, with the next free inode (the operating system; local.rs:77, 166-170). -/
def FS.create (fs : FS) (p : Path) (uid mode : Nat) : FS :=
  { names := alSet fs.names p fs.next, dirs := fs.dirs,
    inodes := fun j => if j = fs.next then ⟨[], uid, mode, p⟩ else fs.inodes j,
    next := fs.next + 1 }

/-- A path as handed to the OS: a fixed path, or `PathBuf::push(dir, s)` with a string `s` that
may come from the client (local.rs:366-367). -/
inductive FPath
  | exact (p : Path)
  | join (dir : Path) (s : Bytes)
  deriving DecidableEq, Repr

/-- POSIX path resolution of the remaining components `cs` starting at `cur` (the operating system, for
local.rs:366-368). -/
def FS.walk (fs : FS) : Path → List Bytes → Except IoErr Path
  | cur, [] => .ok cur
  | cur, c :: cs =>
    if fs.isDir cur then
      if c = [] ∨ c = b!"." then fs.walk cur cs
      else if c = b!".." then fs.walk cur.dropLast cs
      else if c.length > 255 then .error ⟨.nameTooLong, b!"File name too long (os error 36)"⟩
      else fs.walk (cur ++ [c]) cs
    else if (fs.get cur).isSome then
      .error ⟨.notADirectory, b!"Not a directory (os error 20)"⟩
    else .error ⟨.notFound, b!"No such file or directory (os error 2)"⟩

/-- Resolution of an `FPath`. `PathBuf::push` of an absolute string replaces the path; a NUL
byte is refused by the std library before the system call (std, for local.rs:366-368). -/
def FS.resolve (fs : FS) : FPath → Except IoErr Path
  | .exact p => .ok p
  | .join d s =>
    if s.contains 0 then
      .error ⟨.invalidInput, b!"file name contained an unexpected NUL byte"⟩
    else if s.head? = some SLASH then fs.walk [] (splitOn SLASH s)
    else fs.walk d (splitOn SLASH s)

/-- `fs::Metadata` (local.rs:111-118, 136-137, 321-324). -/
structure Stat where
  len : Nat
  uid : Nat
  deriving DecidableEq, Repr

/-- The OS calls. The std function each one models is given with its use in `Server.lean`. These are local.rs:35-37,
74-78, 95-103, 111, 135-136, 166-199, 251, 306, 321, 368-374, 408; processor.rs:169, 229-236; pktline.rs:178-191;
git-lfs-transfer.rs:91. -/
inductive Op
  | mkdirAll (p : Path)                            -- fs::create_dir_all
  | createTemp (dir : Path) (pre : Bytes) (uid : Nat)  -- tempfile Builder::tempfile_in
  | createNew (p : Path) (uid : Nat)               -- OpenOptions create_new
  | write (i : Ino) (b : Bytes)                    -- write_all on an open file
  | rename (src dst : Path)
  | link (src dst : Path)                          -- fs::hard_link
  | unlink (p : Path)                              -- fs::remove_file
  | chmod (p : Path) (mode : Nat)                  -- fs::set_permissions
  | stat (p : FPath)                               -- fs::metadata
  | openRead (p : FPath)                           -- File::open
  | fstat (h : Option Ino)                         -- File::metadata
  | readAll (h : Option Ino)                       -- successive reads up to end of file
  | readDir (p : Path)
  | now                                            -- SystemTime::now
  | out (b : Bytes)                                -- write_all on standard output
  | flush                                          -- flush standard output
  deriving DecidableEq, Repr

/-- Result type of each call. `readAll` returns the chunks read and, if reading failed, the
error that ended it. A handle is `none` when a directory was opened. -/
@[reducible] def Resp : Op → Type
  | .createTemp _ _ _ => Except IoErr (Path × Ino)
  | .createNew _ _ => Except IoErr Ino
  | .stat _ => Except IoErr Stat
  | .openRead _ => Except IoErr (Option Ino)
  | .fstat _ => Except IoErr Stat
  | .readAll _ => List Bytes × Option IoErr
  | .readDir _ => Except IoErr (List Bytes)
  | .now => Int
  | _ => Except IoErr Unit

/-- What the environment decides for one call (the operating system). -/
structure Choice where
  fault : Option IoErr   -- `some e`: the call fails with `e`
  cut : Nat              -- how much of a failing write, read or mkdir took effect
  rand : Bytes           -- random part of a temporary name
  time : Int             -- clock, seconds since the epoch
  chunks : List Nat      -- sizes (minus one) of successive reads
  dirLen : Nat           -- `st_size` of a directory
  deriving Repr

/-- A fault-free default choice (the operating system). -/
def Choice.none : Choice := ⟨.none, 0, [], 0, [], 0⟩

/-- The error `ENOENT` (the operating system; local.rs:113, 370). -/
def enoent : IoErr := ⟨.notFound, b!"No such file or directory (os error 2)"⟩
/-- The error `EEXIST` (the operating system; local.rs:172, 187). -/
def eexist : IoErr := ⟨.alreadyExists, b!"File exists (os error 17)"⟩
/-- The error `EISDIR` (the operating system). -/
def eisdir : IoErr := ⟨.isADirectory, b!"Is a directory (os error 21)"⟩
/-- The error `ENOTDIR` (the operating system). -/
def enotdir : IoErr := ⟨.notADirectory, b!"Not a directory (os error 20)"⟩

/-- Pieces in which a file is read, for the read sizes chosen by the environment (the operating system;
processor.rs:169, local.rs:374). -/
def cutChunks : List Nat → Bytes → List Bytes
  | [], s => if s = [] then [] else [s]
  | n :: ns, s => if s = [] then [] else s.take (n + 1) :: cutChunks ns (s.drop (n + 1))

/-- All non-empty prefixes of a path, shortest first: the directories `create_dir_all` makes (local.rs:95,
git-lfs-transfer.rs:91). -/
def pathPrefixes (p : Path) : List Path := (List.range p.length).map (fun n => p.take (n + 1))

/-- Make directories (the operating system; local.rs:95, git-lfs-transfer.rs:91). -/
def FS.addDirs (fs : FS) (ds : List Path) : FS := { fs with dirs := ds ++ fs.dirs }

/-- An unused name in `dir` starting with `base` (the random name itself if unused; the
`tempfile` crate retries until `O_EXCL` succeeds) (local.rs:74-77). -/
def FS.freshName (fs : FS) (dir : Path) (base : Bytes) : Path :=
  let used (n : Bytes) := (fs.get (dir ++ [n])).isSome || fs.dirs.contains (dir ++ [n])
  if used base then
    dir ++ [base ++ List.replicate
      (((fs.names.map (fun e => (e.1.map List.length).sum)).sum) +
       ((fs.dirs.map (fun e => (e.map List.length).sum)).sum) + 1) 48]
  else dir ++ [base]

/-- Names of the entries of a directory, in file system order (local.rs:408). -/
def FS.entries (fs : FS) (d : Path) : List Bytes :=
  ((fs.names.map (·.1)) ++ fs.dirs).filterMap (fun p =>
    match p.getLast? with
    | some n => if p.dropLast = d then some n else Option.none
    | Option.none => Option.none)

/-- Semantics of one OS call under a choice: new file system and result (the operating system; the places of the
calls are given with `Op`). -/
def sem (c : Choice) (fs : FS) : (o : Op) → FS × Resp o
  | .mkdirAll p =>
    match c.fault with
    | some e => (fs.addDirs (((pathPrefixes p).take c.cut).filter
        (fun q => (fs.get q).isNone && !fs.isDir q)), .error e)
    | none =>
      if (pathPrefixes p).any (fun q => (fs.get q).isSome) then (fs, .error eexist)
      else (fs.addDirs ((pathPrefixes p).filter (fun q => !fs.isDir q)), .ok ())
  | .createTemp dir pre uid =>
    match c.fault with
    | some e => (fs, .error e)
    | none =>
      if fs.isDir dir then
        let p := fs.freshName dir (pre ++ c.rand)
        (fs.create p uid 0o600, .ok (p, fs.next))
      else (fs, .error enoent)
  | .createNew p uid =>
    match c.fault with
    | some e => (fs, .error e)
    | none =>
      if (fs.get p).isSome || fs.isDir p then (fs, .error eexist)
      else if fs.isDir p.dropLast then (fs.create p uid 0o644, .ok fs.next)
      else (fs, .error enoent)
  | .write i b =>
    match c.fault with
    | some e => (fs.append i (b.take c.cut), .error e)
    | none => (fs.append i b, .ok ())
  | .rename src dst =>
    match c.fault with
    | some e => (fs, .error e)
    | none =>
      match fs.get src with
      | none => (fs, .error enoent)
      | some i =>
        if fs.isDir dst then (fs, .error eisdir)
        else if !fs.isDir dst.dropLast then (fs, .error enoent)
        else if fs.get dst = some i then (fs, .ok ())
        else ((fs.delName src).setName dst i, .ok ())
  | .link src dst =>
    match c.fault with
    | some e => (fs, .error e)
    | none =>
      match fs.get src with
      | none => (fs, .error enoent)
      | some i =>
        if (fs.get dst).isSome || fs.isDir dst then (fs, .error eexist)
        else if !fs.isDir dst.dropLast then (fs, .error enoent)
        else (fs.setName dst i, .ok ())
  | .unlink p =>
    match c.fault with
    | some e => (fs, .error e)
    | none =>
      if (fs.get p).isSome then (fs.delName p, .ok ())
      else if fs.isDir p then (fs, .error eisdir) else (fs, .error enoent)
  | .chmod p mode =>
    match c.fault with
    | some e => (fs, .error e)
    | none =>
      match fs.get p with
      | some i => (fs.setInode i { fs.inodes i with mode := mode }, .ok ())
      | none => if fs.isDir p then (fs, .ok ()) else (fs, .error enoent)
  | .stat fp =>
    match c.fault with
    | some e => (fs, .error e)
    | none =>
      match fs.resolve fp with
      | .error e => (fs, .error e)
      | .ok p =>
        match fs.get p with
        | some i => (fs, .ok ⟨(fs.inodes i).data.length, (fs.inodes i).uid⟩)
        | none => if fs.isDir p then (fs, .ok ⟨c.dirLen, 0⟩) else (fs, .error enoent)
  | .openRead fp =>
    match c.fault with
    | some e => (fs, .error e)
    | none =>
      match fs.resolve fp with
      | .error e => (fs, .error e)
      | .ok p =>
        match fs.get p with
        | some i => (fs, .ok (some i))
        | none => if fs.isDir p then (fs, .ok none) else (fs, .error enoent)
  | .fstat h =>
    match c.fault with
    | some e => (fs, .error e)
    | none =>
      match h with
      | some i => (fs, .ok ⟨(fs.inodes i).data.length, (fs.inodes i).uid⟩)
      | none => (fs, .ok ⟨c.dirLen, 0⟩)
  | .readAll h =>
    match h with
    | none => (fs, ([], some (c.fault.getD eisdir)))
    | some i =>
      match c.fault with
      | some e => (fs, ((cutChunks c.chunks (fs.inodes i).data).take c.cut, some e))
      | none => (fs, (cutChunks c.chunks (fs.inodes i).data, none))
  | .readDir p =>
    match c.fault with
    | some e => (fs, .error e)
    | none => if fs.isDir p then (fs, .ok (fs.entries p)) else (fs, .error enoent)
  | .now => (fs, c.time)
  | .out _ =>
    match c.fault with
    | some e => (fs, .error e)
    | none => (fs, .ok ())
  | .flush =>
    match c.fault with
    | some e => (fs, .error e)
    | none => (fs, .ok ())

/-- Bytes that reach standard output in one call (pktline.rs:178-179, 186, 191). -/
def emitted (c : Choice) : Op → Bytes
  | .out b => match c.fault with
    | some _ => b.take c.cut
    | none => b
  | _ => []

end Verif
