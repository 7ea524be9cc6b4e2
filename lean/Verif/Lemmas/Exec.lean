import Verif.Model.System
/-! Executing a given schedule of a system: used for concrete witnesses. -/
namespace Verif

/-- Process `i` makes its next call under choice `c` (nothing happens if it has ended). -/
def Sys.exec1 (s : Sys) (i : Nat) (c : Choice) : Sys × Option (Nat × Event) :=
  match s.procs i with
  | .call o k => (⟨(sem c s.fs o).1, s.setProc i (k (sem c s.fs o).2)⟩, some (i, ⟨o, (sem c s.fs o).2⟩))
  | .ret _ => (s, none)

def Sys.exec (s : Sys) : List (Nat × Choice) → Sys × List (Nat × Event)
  | [] => (s, [])
  | (i, c) :: l => (((s.exec1 i c).1.exec l).1, (s.exec1 i c).2.toList ++ ((s.exec1 i c).1.exec l).2)

theorem Steps.trans {root : Path} {s s' s'' : Sys} {tr tr'} (h : Steps root s tr s') (h' : Steps root s' tr' s'') :
    Steps root s (tr ++ tr') s'' := by
  induction h' with
  | refl => simpa using h
  | tail _ hl ih => rw [← List.append_assoc]; exact ih.tail hl

theorem Sys.exec1_steps (root : Path) (s : Sys) (i : Nat) (c : Choice) :
    Steps root s (s.exec1 i c).2.toList (s.exec1 i c).1 := by
  unfold Sys.exec1
  split
  · rename_i o k h
    exact Steps.refl.tail (.call i o k c h)
  · exact .refl

theorem Sys.exec_steps (root : Path) : ∀ (l : List (Nat × Choice)) (s : Sys), Steps root s (s.exec l).2 (s.exec l).1
  | [], _ => .refl
  | (i, c) :: l, s => (s.exec1_steps root i c).trans (Sys.exec_steps root l _)

end Verif
