import Verif.Model.World
/-! Classification of OS calls. -/
namespace Verif

/-- Calls that may change the file system. -/
def Op.mutates : Op → Bool
  | .mkdirAll _ | .createTemp _ _ _ | .createNew _ _ | .write _ _ | .rename _ _ | .link _ _
  | .unlink _ | .chmod _ _ => true
  | _ => false

/-- Calls that write to standard output. -/
def Op.outputs : Op → Bool
  | .out _ | .flush => true
  | _ => false

/-- Calls that only look at files or the clock. -/
def Op.looks : Op → Bool
  | .stat _ | .openRead _ | .fstat _ | .readAll _ | .readDir _ | .now => true
  | _ => false

/-- The classification is right: calls that do not mutate leave the file system as it is. -/
theorem sem_not_mutates (c : Choice) (fs : FS) (o : Op) (h : o.mutates = false) :
    (sem c fs o).1 = fs := by
  cases o <;> simp only [Op.mutates, Bool.true_eq_false] at h <;> simp only [sem] <;>
    repeat' (first | rfl | split)

end Verif
