import Verif.Spec.Again
/-! C89: requests that have nothing to do with the file a killed `lock` has left. -/
namespace Verif

/-- The files without these names. -/
def FS.dels (fs : FS) : List Path → FS
  | [] => fs
  | h :: H => (fs.delName h).dels H

namespace Spec

/-- Anything but a listing of all locks and a `lock` of this path. -/
def Aloof (cfg : Cfg) (path : Bytes) : Said → Prop
  | .ask (.lock p) => lockName cfg.sha p ≠ lockName cfg.sha path
  | .ask (.listLocks none _ _) => False
  | _ => True

end Spec

end Verif
