import Verif.Model.World
/-! Lemmas about the file system model. -/
namespace Verif

theorem alGet_del (l : List (Path × Ino)) (p q : Path) :
    alGet (alDel l p) q = if q = p then none else alGet l q := by
  induction l with
  | nil => simp [alDel, alGet]
  | cons e l ih =>
    obtain ⟨a, i⟩ := e
    by_cases h : a = p
    · have : alDel ((a, i) :: l) p = alDel l p := by simp [alDel, h]
      rw [this, ih]
      by_cases hq : q = p
      · simp [hq]
      · simp only [hq, if_false, alGet]
        rw [if_neg]; rintro rfl; exact hq h
    · have : alDel ((a, i) :: l) p = (a, i) :: alDel l p := by simp [alDel, h]
      rw [this]
      simp only [alGet, ih]
      by_cases ha : a = q
      · subst ha; simp [h]
      · simp [ha]

theorem alGet_set (l : List (Path × Ino)) (p q : Path) (i : Ino) :
    alGet (alSet l p i) q = if q = p then some i else alGet l q := by
  simp only [alSet, alGet, alGet_del]
  by_cases h : q = p
  · simp [h]
  · have : ¬ p = q := fun e => h e.symm
    simp [h, this]

namespace FS
variable (fs : FS)

@[simp] theorem get_setName (p q : Path) (i : Ino) :
    (fs.setName p i).get q = if q = p then some i else fs.get q := alGet_set _ _ _ _
@[simp] theorem get_delName (p q : Path) :
    (fs.delName p).get q = if q = p then none else fs.get q := alGet_del _ _ _
@[simp] theorem get_create (p q : Path) (u m : Nat) :
    (fs.create p u m).get q = if q = p then some fs.next else fs.get q := alGet_set _ _ _ _
@[simp] theorem get_setInode (i : Ino) (n : Inode) (q : Path) : (fs.setInode i n).get q = fs.get q := rfl
@[simp] theorem get_append (i : Ino) (b : Bytes) (q : Path) : (fs.append i b).get q = fs.get q := rfl
@[simp] theorem get_addDirs (ds : List Path) (q : Path) : (fs.addDirs ds).get q = fs.get q := rfl

@[simp] theorem next_setName (p : Path) (i : Ino) : (fs.setName p i).next = fs.next := rfl
@[simp] theorem next_delName (p : Path) : (fs.delName p).next = fs.next := rfl
@[simp] theorem next_create (p : Path) (u m : Nat) : (fs.create p u m).next = fs.next + 1 := rfl
@[simp] theorem next_setInode (i : Ino) (n : Inode) : (fs.setInode i n).next = fs.next := rfl
@[simp] theorem next_append (i : Ino) (b : Bytes) : (fs.append i b).next = fs.next := rfl
@[simp] theorem next_addDirs (ds : List Path) : (fs.addDirs ds).next = fs.next := rfl

@[simp] theorem inodes_setName (p : Path) (i : Ino) : (fs.setName p i).inodes = fs.inodes := rfl
@[simp] theorem inodes_delName (p : Path) : (fs.delName p).inodes = fs.inodes := rfl
@[simp] theorem inodes_addDirs (ds : List Path) : (fs.addDirs ds).inodes = fs.inodes := rfl

theorem data_create (p : Path) (u m : Nat) (j : Ino) :
    ((fs.create p u m).inodes j).data = if j = fs.next then [] else (fs.inodes j).data := by
  simp only [create]; split <;> rfl

theorem data_append (i : Ino) (b : Bytes) (j : Ino) :
    ((fs.append i b).inodes j).data = (fs.inodes j).data ++ (if j = i then b else []) := by
  simp only [append, setInode]
  by_cases h : j = i
  · simp [h]
  · simp [h]

theorem data_chmod (i : Ino) (m : Nat) (j : Ino) :
    ((fs.setInode i { fs.inodes i with mode := m }).inodes j).data = (fs.inodes j).data := by
  simp only [setInode]
  by_cases h : j = i
  · simp [h]
  · simp [h]

/-! ### Fresh names -/

theorem alGet_mem {l : List (Path × Ino)} {p : Path} {i : Ino} (h : alGet l p = some i) :
    (p, i) ∈ l := by
  induction l with
  | nil => cases h
  | cons e l ih =>
    obtain ⟨q, j⟩ := e
    simp only [alGet] at h
    split at h
    · rename_i hq; cases h; subst hq; simp
    · exact List.mem_cons_of_mem _ (ih h)

theorem le_sum_of_mem {l : List Nat} {n : Nat} (h : n ∈ l) : n ≤ l.sum := by
  induction l with
  | nil => cases h
  | cons m l ih =>
    simp only [List.sum_cons]
    rcases List.mem_cons.mp h with rfl | h
    · omega
    · have := ih h; omega

/-- The name chosen for a temporary file is not in use. -/
theorem freshName_unused (dir : Path) (base : Bytes) :
    fs.get (fs.freshName dir base) = none ∧ fs.freshName dir base ∉ fs.dirs := by
  simp only [freshName]
  split
  · generalize hS : (fs.names.map (fun e => (e.1.map List.length).sum)).sum = S
    generalize hD : (fs.dirs.map (fun e => (e.map List.length).sum)).sum = D
    have hlen : ∀ p : Path, p = dir ++ [base ++ List.replicate (S + D + 1) 48] →
        S + D < (p.map List.length).sum := by
      rintro p rfl
      simp only [List.map_append, List.map_cons, List.map_nil, List.sum_append, List.sum_cons,
        List.sum_nil, List.length_append, List.length_replicate]
      omega
    constructor
    · cases h : fs.get (dir ++ [base ++ List.replicate (S + D + 1) 48]) with
      | none => rfl
      | some i =>
        exfalso
        have h1 := alGet_mem h
        have h2 := hlen _ rfl
        have h3 := le_sum_of_mem (List.mem_map_of_mem (f := fun e : Path × Ino => (e.1.map List.length).sum) h1)
        simp only [hS] at h3
        omega
    · intro h
      have h2 := hlen _ rfl
      have h3 := le_sum_of_mem (List.mem_map_of_mem (f := fun e : Path => (e.map List.length).sum) h)
      simp only [hD] at h3
      omega
  · rename_i h
    simp only [Bool.or_eq_true, not_or, Bool.not_eq_true, Option.isSome_eq_false_iff,
      Option.isNone_iff_eq_none] at h
    exact ⟨h.1, by simpa using h.2⟩

theorem freshName_dir (dir : Path) (base : Bytes) : ∃ sfx, fs.freshName dir base = dir ++ [base ++ sfx] := by
  simp only [freshName]
  split
  · exact ⟨_, rfl⟩
  · exact ⟨[], by simp⟩

end FS

end Verif
