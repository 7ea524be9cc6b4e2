import Verif.Spec.Paths
import Verif.Spec.Request
/-! Which files a call looks at, and where they may be. -/
namespace Verif.Spec

/-- The file or directory a call looks at by name. -/
def fileOf : Op → Option FPath
  | .openRead p => some p
  | .stat p => some p
  | .readDir p => some (.exact p)
  | _ => none

/-- The open file a call reads. -/
def handleOf : Op → Option (Option Ino)
  | .readAll h => some h
  | .fstat h => some h
  | _ => none

/-- A possible name of a directory entry, as reported by the OS. -/
def EntryName (n : Bytes) : Prop := (47 : UInt8) ∉ n ∧ n ≠ b!".."

/-- The OS reports only possible names of entries when listing a directory. -/
def Event.NamesOk : Event → Prop
  | ⟨.readDir _, x⟩ => ∀ ns, x = .ok ns → ∀ n ∈ ns, EntryName n
  | _ => True

/-- Objects, lock files, the directory of locks and its entries. -/
inductive Inside (root : Path) : FPath → Prop
  | object {oid : Bytes} : IsOid oid → Inside root (.exact (objectFile root oid))
  | lock {id : Bytes} : IsOid id → Inside root (.exact (lockFile root id))
  | locks : Inside root (.exact (root ++ [b!"locks"]))
  | entry {n : Bytes} : EntryName n → Inside root (.join (root ++ [b!"locks"]) n)

/-- Whatever is in the file system, the OS resolves this name to a path below the directory. -/
def Below (root : Path) (f : FPath) : Prop := ∀ (fs : FS) (p : Path), fs.resolve f = .ok p → root <+: p

/-- Somewhere in the rest of the input there is a packet that is an `unlock` command with this argument. -/
def AsksUnlock (r : Rdr) (id : Bytes) : Prop :=
  ∃ (r1 r2 : Rdr) (d : Bytes) (more : List Bytes), r1.input <:+ r.input ∧ r1.readPacket = (.ok (.data d), r2) ∧
    CommandLine d (b!"unlock" :: id :: more)

end Verif.Spec
