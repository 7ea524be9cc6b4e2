import Verif.Spec.Paths
import Verif.Model.System
/-!
Temporary files of uploads that are left behind.
-/
namespace Verif.Spec

/-- A file in the directory of temporary files. -/
def partFile (root : Path) (n : Bytes) : Path := root ++ [b!"incomplete", n]

/-- Process `i` made the file in the calls `tr`. -/
def Made (root : Path) (tr : List (Nat × Event)) (i : Nat) (p : Path) (ino : Ino) : Prop :=
  ∃ pre uid, (i, (⟨.createTemp (root ++ [b!"incomplete"]) pre uid, .ok (p, ino)⟩ : Event)) ∈ tr

/-- The process is still running, or was killed. -/
def Unfinished (s : Sys) (i : Nat) : Prop := ∀ x, s.procs i = .ret x → x = ⟨137, []⟩

end Verif.Spec
