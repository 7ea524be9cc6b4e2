import Verif.Spec.Again
import Verif.Spec.Report
/-! C88: what a listing shows, whatever files are in the directory of the locks. -/
namespace Verif.Spec

/-- The names servers use in the directory of the locks. -/
def LockishName (n : Bytes) : Prop := IsOid n ∨ ∃ m, IsOid m ∧ n = m ++ b!".lock"

/-- `Bears cfg fs ns ls`: the records in the files `ns` of the directory of the locks are those of `ls`, in this order;
the other files contain no record. -/
inductive Bears (cfg : Cfg) (fs : FS) : List Bytes → List Lock → Prop
  | nil : Bears cfg fs [] []
  | lock {n : Bytes} {l : Lock} {i : Ino} {ns : List Bytes} {ls : List Lock} : fs.get (lockFile cfg.root n) = some i →
      RecordIs (fs.inodes i).data l.time l.path → (fs.inodes i).uid = l.uid → TimeOk cfg l.time → Bears cfg fs ns ls →
      Bears cfg fs (n :: ns) (l :: ls)
  | other {n : Bytes} {i : Ino} {ns : List Bytes} {ls : List Lock} : fs.get (lockFile cfg.root n) = some i →
      (∀ t p, ¬ RecordIs (fs.inodes i).data t p) → Bears cfg fs ns ls → Bears cfg fs (n :: ns) ls

/-- The directory of the locks contains the files `ns`, in the order of their names, and these the records of `ls`. -/
structure Dossier (cfg : Cfg) (fs : FS) (ns : List Bytes) (ls : List Lock) : Prop where
  names : ∀ n, n ∈ ns ↔ (fs.get (lockFile cfg.root n)).isSome
  sorted : ns.Pairwise (· < ·)
  usual : ∀ n ∈ ns, LockishName n
  bears : Bears cfg fs ns ls
  files : ∀ n, lockFile cfg.root n ∉ fs.dirs
  nodup : (fs.names.map (·.1)).Nodup
  /-- The directories made at start-up are or can be made. -/
  noFile : ∀ d ∈ topDirs cfg.root, ∀ q, q <+: d → fs.get q = none

/-- The locks of `s`, and after the one of `l`'s path (or where it would be) the lock `l`. -/
def withGhost (cfg : Cfg) (s : Store) (l : Lock) : Store :=
  { s with locks := s.locks.filter (fun m => lockName cfg.sha m.path ≤ lockName cfg.sha l.path) ++
      l :: s.locks.filter (fun m => lockName cfg.sha l.path < lockName cfg.sha m.path) }

end Verif.Spec
