import Verif.Spec.Blackout
import Verif.Props.Power
import Verif.Props.Outage
import Verif.Props.LockFile
import Verif.Props.Pieces
import Verif.Props.Misled
import Verif.Props.Report
/-!
Property C85: locks and power failures.
-/
namespace Verif
open Spec

/-! ### Mutual exclusion -/

theorem Trail.steps {root : Path} {sha : Bytes → Bytes} {s0 s : Sys} {tr tr' : List (Nat × Event)} {id : Bytes} {z : Bool}
    (h : Trail (lockFile root id) tr z) (h0 : Start root sha s0) (hz : z = (s0.fs.get (lockFile root id)).isSome)
    (hs : Steps root s0 tr' s) : Trail (lockFile root id) (tr ++ tr') (s.fs.get (lockFile root id)).isSome := by
  induction hs with
  | refl => simpa [hz] using h
  | tail hs hl ih =>
    obtain ⟨ow, hg, _⟩ := (Good.start h0).steps hs
    obtain ⟨h1, h2⟩ := lock_step hg hl id
    rw [← List.append_assoc]
    exact ih.tail h1 fun i src hl => by
      obtain ⟨h3, h4⟩ := h2 i src hl
      exact ⟨by rw [h3]; rfl, h4⟩

/-- **C85**, mutual exclusion, which survives power failures (as long as these lose no names): between two successful
creations of the lock file of the same ID, by any two servers, before and after any number of power failures, a removal
of that lock file succeeded. -/
theorem C85_exclusion_partial {root : Path} {sha : Bytes → Bytes} {fs : FS} {s : Sys} {tr a b c : List (Nat × Event)} {i i' : Nat}
    {src src' : Path} {id : Bytes} (h : Lives root sha fs tr s)
    (he : tr = a ++ (i, ⟨.link src (lockFile root id), .ok ()⟩) :: b ++ (i', ⟨.link src' (lockFile root id), .ok ()⟩) :: c) :
    ∃ k, (k, (⟨.unlink (lockFile root id), .ok ()⟩ : Event)) ∈ b := by
  have : Trail (lockFile root id) tr (s.fs.get (lockFile root id)).isSome := by
    clear he
    induction h with
    | @first s0 s tr h0 _ hs =>
      exact (Trail.nil (b := (s0.fs.get (lockFile root id)).isSome)).steps h0 rfl hs
    | again _ hp h0 hs ih => exact ih.steps h0 (by rw [hp.get]) hs
  exact this.exclusion.2 a i src b i' src' c (by rw [he]; simp)

/-- **C85**, what is left of locks: at every moment, after any number of power failures, a lock file contains the
beginning of a record of a lock with its ID and nothing else, if that was so at the start (also for the temporary files
that were there). -/
theorem C85_prefix_partial {root : Path} {sha : Bytes → Bytes} {fs : FS} {s : Sys} {tr : List (Nat × Event)}
    (h : Lives root sha fs tr s)
    (hi : ∀ path c, (fs.content (lockFile root (lockName sha path)) = some c ∨
      fs.content (lockTempFile root (lockName sha path)) = some c) → StartsRecord sha (lockName sha path) c) :
    ∀ path c, (s.fs.content (lockFile root (lockName sha path)) = some c ∨
      s.fs.content (lockTempFile root (lockName sha path)) = some c) → StartsRecord sha (lockName sha path) c := by
  induction h with
  | first h0 e hs =>
    subst e
    exact C28_prefix_partial h0 hs hi
  | @again s s1 s2 tr tr' synced _ hp h0 hs ih =>
    refine C28_prefix_partial h0 hs fun path c hc => ?_
    have key : ∀ p, s1.fs.content p = some c → ∃ d, s.fs.content p = some d ∧ c <+: d := by
      intro p h
      unfold FS.content at h ⊢
      rw [hp.get] at h
      obtain ⟨j, hj, rfl⟩ := Option.map_eq_some_iff.mp h
      exact ⟨_, by simp [hj], hp.cut j⟩
    rcases hc with hc | hc
    · obtain ⟨d, h1, h2⟩ := key _ hc
      obtain ⟨l, h3, h4⟩ := ih path d (.inl h1)
      exact ⟨l, h3, h2.trans h4⟩
    · obtain ⟨d, h1, h2⟩ := key _ hc
      obtain ⟨l, h3, h4⟩ := ih path d (.inr h1)
      exact ⟨l, h3, h2.trans h4⟩

/-! ### Locks that were on disk -/

/-- A lock path stands for the same file, unless a file was linked to it or it was removed. -/
theorem lock_name_step {root : Path} {sha : Bytes → Bytes} {s s' : Sys} {ow : Nat → Own}
    {l : Option (Nat × Event)} (hg : Good root sha s ow) (hl : Step root s l s') {id : Bytes} (ho : IsOid id) :
    s'.fs.get (lockFile root id) = s.fs.get (lockFile root id) ∨
      (∃ i src, l = some (i, ⟨.link src (lockFile root id), .ok ()⟩)) ∨
      ∃ i, l = some (i, ⟨.unlink (lockFile root id), .ok ()⟩) := by
  have eL : lockFile root id = locksDir root ++ [id] := by simp [lockFile, locksDir]
  have nO : ∀ oid, lockFile root id ≠ objPath root oid := fun oid => by rw [eL]; exact locks_ne_obj _ _ _
  have nT : ∀ n, lockFile root id ≠ incompleteDir root ++ [n] := fun n => by
    rw [eL]; exact locks_ne_incomplete _ _ _
  have nD : ∀ x, lockFile root id ≠ locksDir root ++ [x ++ b!".lock"] := fun x e => by
    rw [eL] at e
    have : id = x ++ b!".lock" := by simpa using List.append_cancel_left e
    have h46 : (46 : UInt8) ∈ id := by rw [this]; simp
    exact oid_notin ho (by decide) h46
  obtain ⟨hi, hw⟩ := hg
  cases hl with
  | writeSome i ino b n k hp => exact .inl rfl
  | mkdirSome i p n e k hp => exact .inl rfl
  | kill i => exact .inl rfl
  | elsewhere fs' he =>
    exact .inl (he.get (near_of_prefix ⟨_, (by simp [lockFile] : root ++ [b!"locks", id] = lockFile root id)⟩))
  | call i o k c hp =>
    obtain ⟨cfg, rfl, rfl, hwi⟩ := hw i
    rw [hp] at hwi
    have hm : (ow i).may cfg o := hwi.1
    cases o with
    | createTemp d pre uid =>
      left
      obtain ⟨rfl, _⟩ := hm
      simp only [sem]; split
      · rfl
      · split
        · rw [FS.get_create]
          have : ∃ n, FS.freshName s.fs (incompleteDir cfg.root) (pre ++ c.rand) = incompleteDir cfg.root ++ [n] := by
            unfold FS.freshName; dsimp only; split <;> exact ⟨_, rfl⟩
          obtain ⟨n, hn⟩ := this
          rw [hn, if_neg (nT n)]
        · rfl
    | createNew p uid =>
      left
      obtain ⟨x, rfl⟩ := hm
      simp only [sem]; split
      · rfl
      · split
        · rfl
        · split
          · have : lockFile cfg.root id ≠ lockTemp cfg x := nD _
            rw [FS.get_create, if_neg this]
          · rfl
    | rename a b =>
      obtain ⟨ino, d, ht, hv, rfl⟩ := hm
      obtain ⟨hg, ⟨n, hn⟩, hd⟩ := hi.tmp i a ino _ ht
      left
      simp only [sem, hg]
      split
      · rfl
      · split
        · rfl
        · split
          · rfl
          · split
            · rfl
            · rw [FS.get_setName, if_neg (nO _), FS.get_delName, if_neg (by rw [hn]; exact nT n)]
    | link a b =>
      by_cases hb : b = lockFile cfg.root id
      · subst hb
        simp only [sem]
        split
        · exact .inl rfl
        · split
          · exact .inl rfl
          · split
            · exact .inl rfl
            · split
              · exact .inl rfl
              · exact .inr (.inl ⟨i, a, rfl⟩)
      · left
        simp only [sem]; split
        · rfl
        · split
          · rfl
          · split
            · rfl
            · split
              · rfl
              · rw [FS.get_setName, if_neg (fun e => hb e.symm)]
    | unlink p =>
      by_cases hpl : p = lockFile cfg.root id
      · subst hpl
        simp only [sem]; split
        · exact .inl rfl
        · split
          · exact .inr (.inr ⟨i, rfl⟩)
          · split <;> exact .inl rfl
      · left
        simp only [sem]; split
        · rfl
        · split
          · rw [FS.get_delName, if_neg (fun e => hpl e.symm)]
          · split <;> rfl
    | write j b => left; simp only [sem]; split <;> rfl
    | mkdirAll p => left; simp only [sem]; (repeat' split) <;> rfl
    | chmod p m => left; simp only [sem]; (repeat' split) <;> rfl
    | stat p => left; simp only [sem]; (repeat' split) <;> rfl
    | openRead p => left; simp only [sem]; (repeat' split) <;> rfl
    | fstat p => left; simp only [sem]; (repeat' split) <;> rfl
    | readAll p => left; simp only [sem]; (repeat' split) <;> rfl
    | readDir p => left; simp only [sem]; (repeat' split) <;> rfl
    | now => exact .inl rfl
    | out b => left; simp only [sem]; (repeat' split) <;> rfl
    | flush => left; simp only [sem]; (repeat' split) <;> rfl

/-- The file of a lock stays the same as long as the lock is not removed, and its content only grows. -/
theorem lock_name_steps {root : Path} {sha : Bytes → Bytes} {s s' : Sys} {ow : Nat → Own} {tr : List (Nat × Event)}
    (hg : Good root sha s ow) (h : Steps root s tr s') {id : Bytes} (ho : IsOid id)
    (hn : ∀ i, (i, (⟨.unlink (lockFile root id), .ok ()⟩ : Event)) ∉ tr) {j : Ino} (hj : s.fs.get (lockFile root id) = some j) :
    s'.fs.get (lockFile root id) = some j ∧ (s.fs.inodes j).data <+: (s'.fs.inodes j).data := by
  induction h with
  | refl => exact ⟨hj, List.prefix_refl _⟩
  | tail hs hl ih =>
    obtain ⟨h1, h2⟩ := ih fun i hm => hn i (by simp [hm])
    obtain ⟨ow', hg', _⟩ := hg.steps hs
    refine ⟨?_, h2.trans ((step_grows hl (hg'.1.bound _ _ h1)).2 (hg'.1.home _ _ ?_ h1))⟩
    · rcases lock_name_step hg' hl ho with e | ⟨i, src, e⟩ | ⟨i, e⟩
      · exact e.trans h1
      · have := ((lock_step hg' hl id).2 i src e).1
        rw [h1] at this
        cases this
      · exact absurd (by simp [e]) (hn i)
    · exact near_of_prefix ⟨_, (by simp [lockFile] : root ++ [b!"locks", id] = lockFile root id)⟩

/-- **C85**, locks that were on disk: a lock that was there when everything was last written to disk, and was not
removed since, is there after a power failure, with at least the content it had on disk and at most the one it had when
the power failed. So if it was complete on disk, it is unharmed.

Full property: a lock that a client was told it has is held after a power failure, and one it was told it does not have
any more is not. That is false (`C85_lost`, `C85_vanished`). Missing are locks taken since. -/
theorem C85_kept_partial {root : Path} {sha : Bytes → Bytes} {s0 s s' : Sys} {tr tr' : List (Nat × Event)} {fs' : FS}
    (h0 : Start root sha s0) (h : Steps root s0 tr s) (h' : Steps root s tr' s') (hp : PowerLoss s.fs s'.fs fs')
    {id d : Bytes} {uid : Nat} (ho : IsOid id) (hd : held root s.fs id = some (d, uid))
    (hn : ∀ i, (i, (⟨.unlink (lockFile root id), .ok ()⟩ : Event)) ∉ tr') :
    ∃ d1 d2 uid', held root s'.fs id = some (d2, uid') ∧ held root fs' id = some (d1, uid') ∧ d <+: d1 ∧ d1 <+: d2 := by
  obtain ⟨ow, hg, _⟩ := (Good.start h0).steps h
  obtain ⟨j, hj, e⟩ := Option.map_eq_some_iff.mp hd
  cases e
  obtain ⟨h1, h2⟩ := lock_name_steps hg h' ho hn hj
  refine ⟨(fs'.inodes j).data, (s'.fs.inodes j).data, (s'.fs.inodes j).uid, by simp [held, h1], by simp [held, hp.get, h1, hp.uid], ?_, hp.cut j⟩
  exact hp.kept j (hg.1.bound _ _ hj) h2

/-! ### Damaged locks -/

/-- **C85**, damaged locks: whatever a client asks about a lock whose file is no record, and whatever the OS answers
otherwise, the reply is 400 or 500. So nobody is told that the lock is free, or has it, or has released it. -/
theorem C85_damaged_partial {cfg : Cfg} {mode : Mode} {q : Request} {ps : List Packet} {wire rest id : Bytes} {r r' : Rdr} {tr : List Event} {x : Res Turn}
    (hsha : ∀ b, (cfg.sha b).length = 32) (he : Encodes q ps) (hF : Frames ps wire) (hi : r.input = wire ++ rest)
    (hp : r.pending = []) (hal : Allowed mode q) (hq : AboutLock cfg.sha id q)
    (h : (turn cfg mode r).Finished tr (x, r')) (ho : ∀ e ∈ tr, e.OutOk) (hd : Damaged cfg.root tr id) :
    x = .panic ∨ (x = .ok .again ∧ ∃ a, Sends a (output tr) ∧ (a.code = 400 ∨ a.code = 500)) := by
  have noLock : ∀ l, ¬ SaidLock cfg tr id l := by
    rintro l ⟨⟨d, ⟨k, cs, h1, h2, rfl⟩, h3⟩, _⟩
    exact (hd.read k h1).2 _ h2 _ _ h3
  have there : ¬ SaidMissing tr (lockEntry cfg.root id) := by
    rintro ⟨e, _, h | h | ⟨k, h, h'⟩⟩
    · exact hd.stated _ h
    · exact hd.opened _ h
    · exact (hd.read k h).1 _ h'
  rcases C60_request_partial hsha he hF hi hp hal h ho with h | ⟨hx, a, h1, h2, _⟩ | ⟨_, _, _, _, _, _, h, _⟩
  · exact .inl h
  · refine .inr ⟨?_, a, h1, ?_⟩
    · cases q <;> first | exact hq.elim | exact hx
    · cases h2 with
      | internal => exact .inr rfl
      | corrupt => exact .inl rfl
      | corruptId => exact .inl rfl
      | corruptPath => exact .inl rfl
      | locked _ _ _ hl => exact absurd (show _ ∈ tr from (show lockName cfg.sha _ = id from hq) ▸ hl) (hd.linked _)
      | held h3 h4 => exact absurd ((show lockName cfg.sha _ = id from hq) ▸ h4) (noLock _)
      | unlocked h3 => exact absurd ((show _ = id from hq) ▸ h3) (noLock _)
      | noLock h3 => exact absurd ((show _ = id from hq) ▸ h3) there
      | notRemoved h3 => exact absurd ((show _ = id from hq) ▸ h3) (noLock _)
      | listed h3 h4 => exact absurd ((show lockName cfg.sha _ = id from hq) ▸ h4) (noLock _)
      | notListed h3 =>
        rcases h3 with h3 | ⟨l, c, _, h4, _⟩
        · exact absurd ((show lockName cfg.sha _ = id from hq) ▸ h3) there
        · exact absurd ((show lockName cfg.sha _ = id from hq) ▸ h4) (noLock _)
      | _ => exact hq.elim
  · subst h; exact hq.elim

/-! ### Refutation and witnesses -/

namespace Tests

def afterLock (path : Bytes) : FS := (sessionOn fs0 (enc (lockOf path) ++ [])).fs

/-- The power fails, and the names are those there were before. -/
theorem names_outage (a fs : FS) : Outage [a, fs] a fs { fs with names := a.names } where
  name _ := ⟨a, by simp, rfl⟩
  cut _ := List.prefix_refl _
  kept _ _ h := h

/-- The lock file of `f` is empty. -/
def fsEmptied : FS := lossTo fs0 0 (afterLock b!"f")

end Tests

open Tests in
/-- Against **C85**: a lock is granted, and the power fails. Then nobody is shown the lock, and it can neither be taken
nor released. -/
theorem C85_lost : ∃ wire fs', Session .upload [.lock b!"f"] wire ∧
    b!"000fstatus 201\n" <:+: (sessionOn fs0 wire).out ∧ PowerLoss fs0 (sessionOn fs0 wire).fs fs' ∧
    (sessionOn fs' (enc listAll)).out = b!"000eversion=1\n0000" ++ b!"000fstatus 200\n00010000" ∧
    b!"000fstatus 400\n" <:+: (sessionOn fs' (enc (lockOf b!"f"))).out ∧
    b!"000fstatus 400\n" <:+: (sessionOn fs' (enc (unlockId idF))).out := by
  refine ⟨_, fsEmptied, lockOf_session _ (by decide +kernel), ?_, lossTo_powerLoss _ _ _, ?_, ?_, ?_⟩
  all_goals decide +kernel

open Tests in
/-- Against **C85**: a lock is granted, the power fails, and what is left of its file names another lock, which was safely
on disk. Who releases the first lock is told so, but it is the other lock that is gone. -/
theorem C85_wrong_lock : ∃ fs wire fs', Session .upload [.lock b!"dir/file"] wire ∧
    held cfg.root fs (lockName cfg.sha b!"dir/f") = some (b!"v1:1000684800:dir/f", cfg.uid) ∧
    b!"000fstatus 201\n" <:+: (sessionOn fs wire).out ∧ PowerLoss fs (sessionOn fs wire).fs fs' ∧
    b!"000fstatus 200\n" <:+: (sessionOn fs' (enc (unlockId (lockName cfg.sha b!"dir/file")))).out ∧
    held cfg.root (sessionOn fs' (enc (unlockId (lockName cfg.sha b!"dir/file")))).fs (lockName cfg.sha b!"dir/f") = none := by
  refine ⟨afterLock b!"dir/f", _, lossTo (afterLock b!"dir/f") 19 (sessionOn (afterLock b!"dir/f") (enc (lockOf b!"dir/file") ++ [])).fs,
    lockOf_session _ (by decide +kernel), ?_, ?_, lossTo_powerLoss _ _ _, ?_, ?_⟩
  all_goals decide +kernel

open Tests in
/-- Against **C85**, and why `C85_exclusion_partial` is about power failures that lose no names: a lock is granted, the
power fails, and the lock is granted again. -/
theorem C85_vanished : ∃ wire, Session .upload [.lock b!"f"] wire ∧
    b!"000fstatus 201\n" <:+: (sessionOn fs0 wire).out ∧
    held cfg.root (sessionOn fs0 wire).fs idF = some (b!"v1:1000684800:f", cfg.uid) ∧
    Outage [fs0, (sessionOn fs0 wire).fs] fs0 (sessionOn fs0 wire).fs (forgetTo fs0 (sessionOn fs0 wire).fs) ∧
    b!"000fstatus 201\n" <:+: (sessionOn (forgetTo fs0 (sessionOn fs0 wire).fs) wire).out :=
  ⟨_, lockOf_session _ (by decide +kernel), by decide +kernel, by decide +kernel, forgetTo_outage _ _, by decide +kernel⟩

open Tests in
/-- Against **C85**: a lock is released, the power fails, and the lock is there again. -/
theorem C85_back : ∃ fs fs', b!"000fstatus 200\n" <:+: (sessionOn fs (enc (unlockId idF))).out ∧
    held cfg.root (sessionOn fs (enc (unlockId idF))).fs idF = none ∧
    Outage [fs, (sessionOn fs (enc (unlockId idF))).fs] fs (sessionOn fs (enc (unlockId idF))).fs fs' ∧
    held cfg.root fs' idF = some (b!"v1:1000684800:f", cfg.uid) ∧
    b!"000fstatus 409\n" <:+: (sessionOn fs' (enc (lockOf b!"f"))).out := by
  refine ⟨afterLock b!"f", { (sessionOn (afterLock b!"f") (enc (unlockId idF))).fs with names := (afterLock b!"f").names },
    by decide +kernel, by decide +kernel, names_outage _ _, by decide +kernel, by decide +kernel⟩

namespace Tests

def lockingF (fs : FS) : Sys := ⟨fs, fun _ => server cfg b!"upload" (enc (lockOf b!"f"))⟩
def unlockingF (fs : FS) : Sys := ⟨fs, fun _ => server cfg b!"upload" (enc (unlockId idF))⟩
def go (s : Sys) : Sys × List (Nat × Event) := s.exec (List.replicate 60 (0, Choice.none))

theorem start_lives {fs : FS} {wire : Bytes} (h : ∀ x ∈ fs.names, x.2 < fs.next ∧ near cfg.root (fs.inodes x.2).born = true) :
    Start cfg.root cfg.sha ⟨fs, fun _ => server cfg b!"upload" wire⟩ :=
  ⟨fun _ => ⟨_, _, _, rfl, rfl, rfl⟩, fun p i hi => (h _ (FS.alGet_mem hi)).1, fun p i _ hi => (h _ (FS.alGet_mem hi)).2⟩

/-- A lock is taken, the power fails; it is released, the power fails; and it is taken again. -/
def life1 := go (lockingF fs0)
def life2 := go (unlockingF (lossTo fs0 100 life1.1.fs))
def life3 := go (lockingF (lossTo fs0 100 life2.1.fs))

theorem go_first {fs : FS} {s : Sys} (h : Start cfg.root cfg.sha s) (e : s.fs = fs) :
    Lives cfg.root cfg.sha fs (go s).2 (go s).1 := .first h e (Sys.exec_steps ..)
theorem go_again {fs synced : FS} {s s1 : Sys} {tr : List (Nat × Event)} (h : Lives cfg.root cfg.sha fs tr s)
    (hp : PowerLoss synced s.fs s1.fs) (h1 : Start cfg.root cfg.sha s1) :
    Lives cfg.root cfg.sha fs (tr ++ (go s1).2) (go s1).1 := .again h hp h1 (Sys.exec_steps ..)

theorem oneLife : Lives cfg.root cfg.sha fs0 life1.2 life1.1 :=
  go_first (s := lockingF fs0) (start_lives (by intro x hx; cases hx)) rfl
theorem twoLives : Lives cfg.root cfg.sha fs0 (life1.2 ++ life2.2) life2.1 :=
  go_again (s1 := unlockingF (lossTo fs0 100 life1.1.fs)) oneLife (lossTo_powerLoss fs0 100 life1.1.fs) (start_lives (by decide +kernel))
theorem threeLives : Lives cfg.root cfg.sha fs0 (life1.2 ++ life2.2 ++ life3.2) life3.1 :=
  go_again (s1 := lockingF (lossTo fs0 100 life2.1.fs)) twoLives (lossTo_powerLoss fs0 100 life2.1.fs) (start_lives (by decide +kernel))

def linksF : Nat × Event → Bool
  | (_, ⟨.link _ p, .ok _⟩) => p == lockFile cfg.root idF
  | _ => false
def unlinksF : Nat × Event → Bool
  | (_, ⟨.unlink p, .ok _⟩) => p == lockFile cfg.root idF
  | _ => false

/-- Non-vacuity of `C85_exclusion_partial`: the lock file was made in the first and the third life, and removed in the
second. -/
example : life1.2.any linksF = true ∧ life2.2.any linksF = false ∧ life2.2.any unlinksF = true ∧ life3.2.any linksF = true := by
  decide +kernel

/-- Non-vacuity of `C85_prefix_partial`: after these lives, and after two of them with a file that was cut. -/
example : StartsRecord cfg.sha (lockName cfg.sha b!"f") b!"v1:1000684800:f" :=
  C85_prefix_partial threeLives (by rintro path c (h | h) <;> cases h) b!"f" _ (.inl (by decide +kernel))
theorem cutLives : Lives cfg.root cfg.sha fs0 (life1.2 ++ []) (lockingF (lossTo fs0 7 life1.1.fs)) :=
  .again (s := life1.1) (s1 := lockingF (lossTo fs0 7 life1.1.fs)) (synced := fs0) oneLife (lossTo_powerLoss fs0 7 life1.1.fs)
    (start_lives (by decide +kernel)) .refl
example : StartsRecord cfg.sha (lockName cfg.sha b!"f") b!"v1:1000" :=
  C85_prefix_partial cutLives (by rintro path c (h | h) <;> cases h) b!"f" _ (.inl (by decide +kernel))

/-- Non-vacuity of `C85_kept_partial`: a lock is on disk, another is taken, the power fails; the first is unharmed. -/
example : let s := (⟨afterLock b!"f", fun _ => server cfg b!"upload" (enc (lockOf b!"g"))⟩ : Sys)
    held cfg.root s.fs idF = some (b!"v1:1000684800:f", cfg.uid) ∧ (go s).2.any unlinksF = false ∧
    held cfg.root (go s).1.fs (lockName cfg.sha b!"g") = some (b!"v1:1000684800:g", cfg.uid) ∧
    held cfg.root (lossTo s.fs 0 (go s).1.fs) (lockName cfg.sha b!"g") = some ([], cfg.uid) ∧
    held cfg.root (lossTo s.fs 0 (go s).1.fs) idF = some (b!"v1:1000684800:f", cfg.uid) := by decide +kernel
example : Start cfg.root cfg.sha ⟨afterLock b!"f", fun _ => server cfg b!"upload" (enc (lockOf b!"g"))⟩ :=
  start_lives (by decide +kernel)

def damagedB : Event → Bool
  | ⟨.stat _, .error _⟩ | ⟨.openRead _, .error _⟩ | ⟨.fstat _, .error _⟩ | ⟨.link _ _, .ok _⟩ => false
  | ⟨.readAll _, x⟩ => x.1.flatten == []
  | _ => true

theorem damaged_of {root : Path} {tr : List Event} (h : tr.all damagedB = true) (id : Bytes) : Damaged root tr id where
  stated e he := by simpa [damagedB] using List.all_eq_true.mp h _ he
  opened e he := by simpa [damagedB] using List.all_eq_true.mp h _ he
  read k _ := ⟨fun e he => by simpa [damagedB] using List.all_eq_true.mp h _ he, fun x hx t path ht => by
    have : x.1.flatten = [] := by simpa [damagedB] using List.all_eq_true.mp h _ hx
    obtain ⟨ts, h1, _⟩ := ht
    rw [this] at h1
    simp at h1⟩
  linked src he := by simpa [damagedB] using List.all_eq_true.mp h _ he

/-- Non-vacuity of `C85_damaged_partial`: the release of a lock whose file was emptied. -/
def tryRelease : List Event := (turn Tests.cfg .upload (seeing (unlockId idF) [])).events calm ⟨fsEmptied, [], 0⟩
example : Damaged cfg.root tryRelease idF ∧ AboutLock cfg.sha idF (.unlock idF) ∧
    (turn Tests.cfg .upload (seeing (unlockId idF) [])).Finished tryRelease (.ok .again, Rdr.new [] eofErr false) ∧
    (∀ e ∈ tryRelease, e.OutOk) ∧ b!"000fstatus 400\n" <:+: output tryRelease := by
  refine ⟨damaged_of (by decide +kernel) _, rfl, ?_, ?_, by decide +kernel⟩
  · have := Prog.run_finished calm (turn Tests.cfg .upload (seeing (unlockId idF) [])) ⟨fsEmptied, [], 0⟩
    rw [show ((turn Tests.cfg .upload (seeing (unlockId idF) [])).run calm ⟨fsEmptied, [], 0⟩).1 =
      (.ok .again, Rdr.new [] eofErr false) by decide +kernel] at this
    exact this
  · exact fun e he => Event.outOk_of (List.all_eq_true.mp (show tryRelease.all Event.outOkB = true by decide +kernel) e he)

end Tests

end Verif
