import Verif.Lemmas.LockInv
import Verif.Spec.SharedLocks
/-! The names of a temporary lock file, and what calls do to lock files. -/
namespace Verif
open Spec

/-- A file that a process is making into a lock has at most two names: that of the temporary file and that of the
lock. -/
structure NmInv (root : Path) (sha : Bytes → Bytes) (fs : FS) (ow : Nat → Own) : Prop where
  nm : ∀ i p j d, (ow i).win = some (p, some (j, d)) → ∀ n, fs.get (lockFile root n) = some j →
    ∃ x, p = lockTempFile root (lockName sha x) ∧ (n = lockName sha x ∨ n = lockName sha x ++ b!".lock")

theorem NmInv.init {root : Path} {sha : Bytes → Bytes} {fs : FS} :
    NmInv root sha fs (fun _ => ⟨none, [], none⟩) := ⟨fun _ _ _ _ h => (by cases h)⟩

theorem NmInv.step {root : Path} {sha : Bytes → Bytes} {fs fs' : FS} {ow ow' : Nat → Own}
    {l : Option (Nat × Event)} (hn : NmInv root sha fs ow) (hl : LkInv root sha fs ow) (hi : Inv root fs ow)
    (he : Effect root sha fs ow l fs' ow') : NmInv root sha fs' ow' := by
  have lt : ∀ {i p j d}, (ow i).win = some (p, some (j, d)) → j < fs.next :=
    fun h => hi.obound _ _ (.inr (hl.win _ _ _ _ h).1)
  refine ⟨fun i p j d hw n hx => ?_⟩
  cases he with
  | other names data win =>
    rw [names] at hx
    rw [win] at hw
    exact hn.nm i p j d hw n hx
  | new k y uid lbl absent names data fresh tmp own win wins =>
    rw [names] at hx
    by_cases hk : i = k
    · subst hk
      rw [win] at hw
      cases hw
      split at hx
      · rename_i e
        exact ⟨y, rfl, .inr (lockFile_inj e)⟩
      · exact absurd (hi.bound _ _ hx) (Nat.lt_irrefl _)
    · rw [wins i hk] at hw
      split at hx
      · cases hx
        exact absurd (lt hw) (Nat.lt_irrefl _)
      · exact hn.nm i p j d hw n hx
  | fail k x uid e lbl same win wins =>
    subst same
    by_cases hk : i = k
    · subst hk; rw [win] at hw; cases hw
    · rw [wins i hk] at hw; exact hn.nm i p j d hw n hx
  | write k t y j' d' b b' v' old rec pre names data app win val wins =>
    rw [names] at hx
    by_cases hk : i = k
    · subst hk
      rw [win] at hw
      cases hw
      exact hn.nm i _ _ _ old n hx
    · rw [wins i hk] at hw
      exact hn.nm i p j d hw n hx
  | link k t y j' old names data win wins =>
    have hold : ∃ d', (ow i).win = some (p, some (j, d')) := by
      by_cases hk : i = k
      · subst hk
        rw [win] at hw
        cases hw
        exact ⟨_, old⟩
      · rw [wins i hk] at hw
        exact ⟨_, hw⟩
    obtain ⟨d', hw⟩ := hold
    rcases names with names | ⟨j2, h2, names⟩
    · rw [names] at hx; exact hn.nm i p j d' hw n hx
    · rw [names] at hx
      split at hx
      · rename_i e
        cases hx
        obtain ⟨x, h3, h4⟩ := hn.nm i p j d' hw _ h2
        refine ⟨x, h3, .inl ?_⟩
        rcases h4 with h4 | h4
        · exact absurd (by rw [lockTempFile_eq, h4]) (temp_ne_lock root sha (lockName sha y) x)
        · rw [e]; exact List.append_cancel_right h4
      · exact hn.nm i p j d' hw n hx
  | drop k y v old names data win wins =>
    have hx' : fs.get (lockFile root n) = some j := by
      rcases names with names | names
      · rwa [names] at hx
      · rw [names] at hx
        split at hx
        · cases hx
        · exact hx
    by_cases hk : i = k
    · subst hk; rw [win] at hw; cases hw
    · rw [wins i hk] at hw; exact hn.nm i p j d hw n hx'
  | unlock y names data win =>
    have hx' : fs.get (lockFile root n) = some j := by
      rcases names with names | names
      · rwa [names] at hx
      · rw [names] at hx
        split at hx
        · cases hx
        · exact hx
    rw [win] at hw; exact hn.nm i p j d hw n hx'

/-- The owner of an existing file stays the same. -/
theorem sem_uid (c : Choice) (fs : FS) (o : Op) (j : Ino) (hj : j < fs.next) :
    ((sem c fs o).1.inodes j).uid = (fs.inodes j).uid := by
  have hne : j ≠ fs.next := Nat.ne_of_lt hj
  cases o with
  | createTemp d pre uid =>
    simp only [sem]; split
    · rfl
    · split
      · simp [FS.create, hne]
      · rfl
  | createNew p uid =>
    simp only [sem]; split
    · rfl
    · split
      · rfl
      · split
        · simp [FS.create, hne]
        · rfl
  | write i b =>
    simp only [sem]
    split <;> (simp only [FS.append, FS.setInode]; split <;> simp_all)
  | chmod p m =>
    simp only [sem]; split
    · rfl
    · split
      · simp only [FS.setInode]; split <;> simp_all
      · split <;> rfl
  | _ => simp only [sem] <;> (repeat' split) <;> rfl

/-- Calls that cannot change a lock. -/
def Op.mild : Op → Bool
  | .createNew _ _ | .write _ _ | .link _ _ | .unlink _ => false
  | _ => true

theorem held_eq {root : Path} {fs fs' : FS} {id : Bytes} (h1 : fs'.get (lockFile root id) = fs.get (lockFile root id))
    (h2 : ∀ j, fs.get (lockFile root id) = some j → (fs'.inodes j).data = (fs.inodes j).data ∧
      (fs'.inodes j).uid = (fs.inodes j).uid) : held root fs' id = held root fs id := by
  unfold held
  rw [h1]
  cases h : fs.get (lockFile root id) with
  | none => rfl
  | some j => simp [h2 j h]

theorem sem_mild {cfg : Cfg} {fs : FS} {ow : Nat → Own} (hi : Inv cfg.root fs ow) {i : Nat} {o : Op} (c : Choice)
    (hm : (ow i).may cfg o) (ho : o.mild = true) (n : Bytes) :
    (sem c fs o).1.get (lockFile cfg.root n) = fs.get (lockFile cfg.root n) := by
  cases o with
  | createTemp d pre uid =>
    obtain ⟨rfl, _⟩ := hm
    simp only [sem]
    repeat' split
    case isTrue =>
      obtain ⟨sfx, hf⟩ := fs.freshName_dir (incompleteDir cfg.root) (pre ++ c.rand)
      rw [FS.get_create, if_neg]
      rw [hf]; exact lock_ne_incomplete _ _ _
    all_goals rfl
  | rename src dst =>
    obtain ⟨ino, d, ht, hv, rfl⟩ := hm
    obtain ⟨hg, ⟨m, hm'⟩, hd⟩ := hi.tmp i src ino _ ht
    simp only [sem, hg]
    repeat' split
    case isFalse.isFalse.isFalse =>
      rw [FS.get_setName, if_neg (lock_ne_obj _ _ _), FS.get_delName,
        if_neg (by rw [hm']; exact lock_ne_incomplete _ _ _)]
    all_goals rfl
  | createNew | write | link | unlink => exact absurd ho Bool.false_ne_true
  | mkdirAll p => simp only [sem]; repeat' split
                  all_goals rfl
  | chmod p m => simp only [sem]; repeat' split
                 all_goals rfl
  | now => rfl
  | stat | openRead | fstat | readAll | readDir | out | flush =>
    simp only [sem]; repeat' split
    all_goals rfl

/-- No directory is made where a lock may be. -/
theorem sem_noLockDirs {cfg : Cfg} {fs : FS} {s : Own} {o : Op} (c : Choice) (hm : s.may cfg o)
    (hskel : ∀ p, o = .mkdirAll p → ∀ n q, q ∈ pathPrefixes p → q ≠ lockFile cfg.root n)
    (h : NoLockDirs cfg.root fs) : NoLockDirs cfg.root (sem c fs o).1 := by
  cases o with
  | mkdirAll p =>
    have add : ∀ ds : List Path, (∀ q ∈ ds, q ∈ pathPrefixes p) → NoLockDirs cfg.root (fs.addDirs ds) := by
      intro ds hds n hn
      simp only [FS.addDirs, List.mem_append] at hn
      rcases hn with hn | hn
      · exact hskel p rfl n _ (hds _ hn) rfl
      · exact h n hn
    simp only [sem]
    split
    · exact add _ fun q hq => List.mem_of_mem_take (List.mem_filter.mp hq).1
    · split
      · exact h
      · exact add _ fun q hq => (List.mem_filter.mp hq).1
  | now => exact h
  | _ => simp only [sem] <;> (repeat' split) <;> exact h

end Verif
