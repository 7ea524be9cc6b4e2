import Verif.Spec.Text
import Verif.Spec.Trace
/-! The layout of the LFS directory, and which mutations are confined to it. -/
namespace Verif.Spec

/-- `<lfs>/objects/<2 digits>/<2 digits>`. -/
def objectDir (root : Path) (oid : Bytes) : Path :=
  root ++ [b!"objects", oid.take 2, (oid.drop 2).take 2]
/-- `<lfs>/objects/<2 digits>/<2 digits>/<oid>`. -/
def objectFile (root : Path) (oid : Bytes) : Path := objectDir root oid ++ [oid]
/-- `<lfs>/locks/<id>`. -/
def lockFile (root : Path) (id : Bytes) : Path := root ++ [b!"locks", id]
/-- `<lfs>/locks/<id>.lock`. -/
def lockTempFile (root : Path) (id : Bytes) : Path := root ++ [b!"locks", id ++ b!".lock"]
/-- The directories made at start-up. -/
def topDirs (root : Path) : List Path :=
  [root ++ [b!"objects"], root ++ [b!"incomplete"], root ++ [b!"tmp"], root ++ [b!"locks"]]

/-- `p` is a temporary upload file this process created before. -/
def MyTemp (root : Path) (past : List Event) (p : Path) : Prop :=
  ∃ pre uid ino name, p = root ++ [b!"incomplete", name] ∧
    (⟨.createTemp (root ++ [b!"incomplete"]) pre uid, .ok (p, ino)⟩ : Event) ∈ past

/-- A call, made after the calls `past`, only concerns the directory skeleton, temporary files in
`<lfs>/incomplete`, object paths of valid IDs and their parent directories, and
`<lfs>/locks/<64 hex digits>` with or without `.lock`. Files are only written through a handle
obtained by creating the file. -/
def Confined (root : Path) (past : List Event) : Op → Prop
  | .mkdirAll p => p ∈ topDirs root ∨ ∃ oid, IsOid oid ∧ p = objectDir root oid
  | .createTemp d _ _ => d = root ++ [b!"incomplete"]
  | .createNew p _ => ∃ id, IsOid id ∧ p = lockTempFile root id
  | .write i _ =>
    (∃ pre uid p, (⟨.createTemp (root ++ [b!"incomplete"]) pre uid, .ok (p, i)⟩ : Event) ∈ past) ∨
    (∃ id uid, IsOid id ∧ (⟨.createNew (lockTempFile root id) uid, .ok i⟩ : Event) ∈ past)
  | .rename src dst => MyTemp root past src ∧ ∃ oid, IsOid oid ∧ dst = objectFile root oid
  | .link src dst => ∃ id, IsOid id ∧ src = lockTempFile root id ∧ dst = lockFile root id
  | .unlink p => MyTemp root past p ∨ ∃ id, IsOid id ∧ (p = lockTempFile root id ∨ p = lockFile root id)
  | .chmod p _ => ∃ oid, IsOid oid ∧ p = objectFile root oid
  | _ => True

end Verif.Spec
