import Verif.Lemmas.Names
import Verif.Lemmas.FS
/-! How file system changes affect what the files represent. -/
namespace Verif
open Spec

/-- The directories the server makes. -/
def SkelDir (root d : Path) : Prop := d ∈ topDirs root ∨ ∃ oid, IsOid oid ∧ d = objectDir root oid

/-- `fs'` comes from `fs` by changes that keep the inodes below `b` and only add directories of
the skeleton. -/
structure FS.Evo (root : Path) (b : Ino) (fs fs' : FS) : Prop where
  ino : ∀ i, i < b → (fs'.inodes i).data = (fs.inodes i).data ∧ (fs'.inodes i).uid = (fs.inodes i).uid
  dirs : ∀ q, q ∈ fs'.dirs → q ∈ fs.dirs ∨ ∃ d, SkelDir root d ∧ q <+: d
  keep : ∀ q, q ∈ fs.dirs → q ∈ fs'.dirs
  nodup : (fs.names.map (·.1)).Nodup → (fs'.names.map (·.1)).Nodup
  bound : (∀ p i, fs.get p = some i → i < fs.next) → (∀ p i, fs'.get p = some i → i < fs'.next)
  next : fs.next ≤ fs'.next

namespace FS.Evo
variable {root : Path} {b : Ino}

theorem refl (fs : FS) : FS.Evo root b fs fs :=
  ⟨fun _ _ => ⟨rfl, rfl⟩, fun _ h => .inl h, fun _ h => h, id, id, Nat.le_refl _⟩

theorem trans {x y z : FS} (h1 : FS.Evo root b x y) (h2 : FS.Evo root b y z) : FS.Evo root b x z :=
  ⟨fun i hi => ⟨((h2.ino i hi).1).trans (h1.ino i hi).1, ((h2.ino i hi).2).trans (h1.ino i hi).2⟩,
   fun q hq => (h2.dirs q hq).elim (h1.dirs q) .inr, fun q hq => h2.keep q (h1.keep q hq),
   fun h => h2.nodup (h1.nodup h), fun h => h2.bound (h1.bound h), Nat.le_trans h1.next h2.next⟩

theorem alDel_nodup {l : List (Path × Ino)} (p : Path) (h : (l.map (·.1)).Nodup) :
    ((alDel l p).map (·.1)).Nodup := by
  refine List.Nodup.sublist ?_ h
  exact List.Sublist.map _ List.filter_sublist

theorem alSet_nodup {l : List (Path × Ino)} (p : Path) (i : Ino) (h : (l.map (·.1)).Nodup) :
    ((alSet l p i).map (·.1)).Nodup := by
  simp only [alSet, List.map_cons, List.nodup_cons]
  refine ⟨?_, alDel_nodup p h⟩
  simp [alDel]

theorem create (fs : FS) (p : Path) (u m : Nat) (hb : b ≤ fs.next) : FS.Evo root b fs (fs.create p u m) := by
  refine ⟨fun i hi => ?_, fun _ h => .inl h, fun _ h => h, alSet_nodup _ _, fun h q i hq => ?_, Nat.le_succ _⟩
  · have : i ≠ fs.next := Nat.ne_of_lt (Nat.lt_of_lt_of_le hi hb)
    simp [FS.create, this]
  · rw [FS.get_create] at hq
    split at hq
    · cases hq; exact Nat.lt_succ_self _
    · exact Nat.lt_succ_of_lt (h q i hq)

theorem append (fs : FS) (i : Ino) (d : Bytes) (hb : b ≤ i) : FS.Evo root b fs (fs.append i d) := by
  refine ⟨fun j hj => ?_, fun _ h => .inl h, fun _ h => h, id, id, Nat.le_refl _⟩
  have : j ≠ i := Nat.ne_of_lt (Nat.lt_of_lt_of_le hj hb)
  simp [FS.append, FS.setInode, this]

theorem addDirs (fs : FS) (ds : List Path) (h : ∀ q ∈ ds, ∃ d, SkelDir root d ∧ q <+: d) :
    FS.Evo root b fs (fs.addDirs ds) := by
  refine ⟨fun _ _ => ⟨rfl, rfl⟩, fun q hq => ?_, fun q hq => ?_, id, id, Nat.le_refl _⟩
  · simp only [FS.addDirs, List.mem_append] at hq
    exact hq.symm.imp id (h q)
  · simp only [FS.addDirs, List.mem_append]; exact .inr hq

theorem delName (fs : FS) (p : Path) : FS.Evo root b fs (fs.delName p) := by
  refine ⟨fun _ _ => ⟨rfl, rfl⟩, fun _ h => .inl h, fun _ h => h, alDel_nodup _, fun h q i hq => ?_, Nat.le_refl _⟩
  rw [FS.get_delName] at hq
  split at hq
  · cases hq
  · exact h q i hq

theorem setName (fs : FS) (p : Path) (i : Ino) (hi : i < fs.next) : FS.Evo root b fs (fs.setName p i) := by
  refine ⟨fun _ _ => ⟨rfl, rfl⟩, fun _ h => .inl h, fun _ h => h, alSet_nodup _ _, fun h q j hq => ?_, Nat.le_refl _⟩
  rw [FS.get_setName] at hq
  split at hq
  · cases hq; exact hi
  · exact h q j hq

theorem chmod (fs : FS) (i : Ino) (m : Nat) :
    FS.Evo root b fs (fs.setInode i { fs.inodes i with mode := m }) := by
  refine ⟨fun j _ => ?_, fun _ h => .inl h, fun _ h => h, id, id, Nat.le_refl _⟩
  simp only [FS.setInode]
  by_cases h : j = i
  · simp [h]
  · simp [h]

theorem ready {cfg : Cfg} {fs fs' : FS} (h : FS.Evo root b fs fs') (hr : Ready cfg fs) : Ready cfg fs' :=
  fun d hd => h.keep d (hr d hd)
end FS.Evo

/-! ### Paths -/

theorem skelDir_lock {root d : Path} (h : SkelDir root d) (n : Bytes) : ¬ lockFile root n <+: d := by
  rcases h with h | ⟨oid, _, rfl⟩
  · intro hp
    have := hp.length_le
    simp only [topDirs, List.mem_cons, List.not_mem_nil, or_false] at h
    rcases h with rfl | rfl | rfl | rfl <;> simp [lockFile] at this
  · simp only [lockFile, objectDir, List.prefix_append_right_inj, List.cons_prefix_cons]
    simp

theorem skelDir_incomplete {root d : Path} (h : SkelDir root d) (n : Bytes) :
    ¬ incompleteDir root ++ [n] <+: d := by
  rcases h with h | ⟨oid, _, rfl⟩
  · intro hp
    have := hp.length_le
    simp only [topDirs, List.mem_cons, List.not_mem_nil, or_false] at h
    rcases h with rfl | rfl | rfl | rfl <;> simp [incompleteDir] at this
  · simp only [incompleteDir, objectDir, List.append_assoc, List.prefix_append_right_inj, List.cons_append,
      List.nil_append, List.cons_prefix_cons]
    simp

theorem skelDir_obj {root d : Path} (h : SkelDir root d) (oid : Bytes) : ¬ objectFile root oid <+: d := by
  intro hp
  have := hp.length_le
  rcases h with h | ⟨oid, _, rfl⟩
  · simp only [topDirs, List.mem_cons, List.not_mem_nil, or_false] at h
    rcases h with rfl | rfl | rfl | rfl <;> simp [objectFile, objectDir] at this
  · simp [objectFile, objectDir] at this

theorem lock_ne_object (root : Path) (n oid : Bytes) : lockFile root n ≠ objectFile root oid := by
  intro h
  have := congrArg List.length h
  simp [lockFile, objectFile, objectDir] at this

theorem incomplete_ne_object (root : Path) (n oid : Bytes) : incompleteDir root ++ [n] ≠ objectFile root oid := by
  intro h
  have := congrArg List.length h
  simp [incompleteDir, objectFile, objectDir] at this

theorem incomplete_ne_lock (root : Path) (n m : Bytes) : incompleteDir root ++ [n] ≠ lockFile root m := by
  simp [incompleteDir, lockFile]

theorem object_inj {root : Path} {a b : Bytes} (h : objectFile root a = objectFile root b) : a = b := by
  have := congrArg List.getLast? h
  simpa [objectFile] using this

theorem lockFile_inj {root : Path} {a b : Bytes} (h : lockFile root a = lockFile root b) : a = b := by
  simpa [lockFile] using h

/-! ### What is represented -/

variable {cfg : Cfg} {s : Store} {fs fs' : FS}

/-- Changes that keep the locks. -/
theorem Spec.Rep.objs_changed (h : Rep cfg s fs) (he : FS.Evo cfg.root fs.next fs fs') (objs : Bytes → Option Bytes)
    (hobj : ∀ oid, IsOid oid → fs'.content (objectFile cfg.root oid) = objs oid)
    (hlock : ∀ n, fs'.get (lockFile cfg.root n) = fs.get (lockFile cfg.root n))
    (hskel : ∀ d, SkelDir cfg.root d → ∀ q, q <+: d → fs'.get q = none) :
    Rep cfg { s with objs := objs } fs' := by
  refine ⟨hobj, ?_, ?_, h.sorted, h.times, ?_, ?_, hskel, he.nodup h.nodup, he.bound h.bound⟩
  · intro l hl
    obtain ⟨i, h1, h2, h3⟩ := h.locks l hl
    have hi := he.ino i (h.bound _ _ h1)
    exact ⟨i, (hlock _).trans h1, hi.1.trans h2, hi.2.trans h3⟩
  · intro n hn
    rw [hlock] at hn
    exact h.only n hn
  · intro oid ho hm
    rcases he.dirs _ hm with hm | ⟨d, hd, hp⟩
    · exact h.objFiles oid ho hm
    · exact skelDir_obj hd _ hp
  · intro n hm
    rcases he.dirs _ hm with hm | ⟨d, hd, hp⟩
    · exact h.lockFiles n hm
    · exact skelDir_lock hd _ hp

/-- Content of a name that still refers to the same old inode. -/
theorem content_evo {b : Ino} (he : FS.Evo cfg.root b fs fs') {p : Path} (hg : fs'.get p = fs.get p)
    (hb : ∀ i, fs.get p = some i → i < b) : fs'.content p = fs.content p := by
  unfold FS.content
  rw [hg]
  cases h : fs.get p with
  | none => rfl
  | some i => simp [(he.ino i (hb i h)).1]

/-- Changes that keep everything visible. -/
theorem Spec.Rep.same (h : Rep cfg s fs) (he : FS.Evo cfg.root fs.next fs fs')
    (hget : ∀ q, (∀ n, q ≠ incompleteDir cfg.root ++ [n]) → fs'.get q = fs.get q) : Rep cfg s fs' := by
  refine h.objs_changed he s.objs ?_ ?_ ?_
  · intro oid ho
    rw [← h.objs oid ho]
    exact content_evo he (hget _ fun n => (incomplete_ne_object _ n _).symm) fun i hi => h.bound _ i hi
  · intro n
    exact hget _ fun m => (incomplete_ne_lock _ m n).symm
  · intro d hd q hq
    rw [hget q fun n e => skelDir_incomplete hd n (e ▸ hq)]
    exact h.noFile d hd q hq

/-- Changes that keep the objects. -/
theorem Spec.Rep.locks_changed (h : Rep cfg s fs) (he : FS.Evo cfg.root fs.next fs fs') (ls : List Lock)
    (hget : ∀ q, (∀ n, q ≠ lockFile cfg.root n) → fs'.get q = fs.get q)
    (hls : ∀ l ∈ ls, ∃ i, fs'.get (lockFile cfg.root (lockName cfg.sha l.path)) = some i ∧
      (fs'.inodes i).data = lockText l ∧ (fs'.inodes i).uid = l.uid)
    (honly : ∀ n, (fs'.get (lockFile cfg.root n)).isSome → ∃ l ∈ ls, n = lockName cfg.sha l.path)
    (hsort : ls.Pairwise fun l m => lockName cfg.sha l.path < lockName cfg.sha m.path)
    (htime : ∀ l ∈ ls, TimeOk cfg l.time) : Rep cfg { s with locks := ls } fs' := by
  refine ⟨?_, hls, honly, hsort, htime, ?_, ?_, ?_, he.nodup h.nodup, he.bound h.bound⟩
  · intro oid ho
    rw [← h.objs oid ho]
    exact content_evo he (hget _ fun n => (lock_ne_object _ n _).symm) fun i hi => h.bound _ i hi
  · intro oid ho hm
    rcases he.dirs _ hm with hm | ⟨d, hd, hp⟩
    · exact h.objFiles oid ho hm
    · exact skelDir_obj hd _ hp
  · intro n hm
    rcases he.dirs _ hm with hm | ⟨d, hd, hp⟩
    · exact h.lockFiles n hm
    · exact skelDir_lock hd _ hp
  · intro d hd q hq
    rw [hget q fun n e => skelDir_lock hd n (e ▸ hq)]
    exact h.noFile d hd q hq

theorem isDir_iff (fs : FS) (p : Path) : fs.isDir p = true ↔ p = [] ∨ p ∈ fs.dirs := by
  simp [FS.isDir]

theorem Spec.Rep.obj_notDir (h : Rep cfg s fs) {oid : Bytes} (ho : IsOid oid) :
    fs.isDir (objectFile cfg.root oid) = false := by
  rw [Bool.eq_false_iff, Ne, isDir_iff]
  rintro (e | e)
  · simp [objectFile] at e
  · exact h.objFiles oid ho e

theorem Spec.Rep.lock_notDir (h : Rep cfg s fs) (n : Bytes) : fs.isDir (lockFile cfg.root n) = false := by
  rw [Bool.eq_false_iff, Ne, isDir_iff]
  rintro (e | e)
  · simp [lockFile] at e
  · exact h.lockFiles n e

theorem Spec.Ready.dir (h : Ready cfg fs) {d : Path} (hd : d ∈ topDirs cfg.root) : fs.isDir d = true := by
  rw [isDir_iff]; exact .inr (h d hd)

theorem Spec.Ready.locksDir (h : Ready cfg fs) : fs.isDir (locksDir cfg.root) = true :=
  h.dir (by simp [topDirs, Verif.locksDir])

theorem Spec.Ready.incompleteDir (h : Ready cfg fs) : fs.isDir (incompleteDir cfg.root) = true :=
  h.dir (by simp [topDirs, Verif.incompleteDir])

/-- The lock found under an ID. -/
theorem find_some {id : Bytes} {l : Lock} (h : s.find cfg id = some l) :
    l ∈ s.locks ∧ lockName cfg.sha l.path = id := by
  unfold Store.find at h
  exact ⟨List.mem_of_find?_eq_some h, by simpa using List.find?_some h⟩

theorem find_none {id : Bytes} (h : s.find cfg id = none) : ∀ l ∈ s.locks, lockName cfg.sha l.path ≠ id := by
  unfold Store.find at h
  simpa using h

theorem Spec.Rep.lock_some (h : Rep cfg s fs) {id : Bytes} {l : Lock} (hf : s.find cfg id = some l) :
    ∃ i, fs.get (lockFile cfg.root id) = some i ∧ (fs.inodes i).data = lockText l ∧ (fs.inodes i).uid = l.uid := by
  obtain ⟨h1, rfl⟩ := find_some hf
  exact h.locks l h1

theorem Spec.Rep.lock_none (h : Rep cfg s fs) {id : Bytes} (hf : s.find cfg id = none) :
    fs.get (lockFile cfg.root id) = none := by
  cases e : fs.get (lockFile cfg.root id) with
  | none => rfl
  | some i =>
    obtain ⟨l, hl, he⟩ := h.only id (by simp [e])
    exact absurd he.symm (find_none hf l hl)

end Verif
