import Verif.Lemmas.SysInv
import Verif.Lemmas.Names
import Verif.Spec.LockFile
/-!
The content of lock files, in all interleavings.

`Effect` says what one step of the system does to the directory `locks`; the invariants are then shown case by
case.
-/
namespace Verif
open Spec

theorem lockFile_inj {root : Path} {a b : Bytes} (h : lockFile root a = lockFile root b) : a = b := by
  simpa [lockFile] using h

theorem lockTempFile_eq (root : Path) (id : Bytes) : lockTempFile root id = lockFile root (id ++ b!".lock") := rfl

theorem lockTempFile_inj {root : Path} {a b : Bytes} (h : lockTempFile root a = lockTempFile root b) : a = b := by
  simpa [lockTempFile] using h

theorem lockTemp_file (cfg : Cfg) (x : Bytes) :
    lockTemp cfg x = lockTempFile cfg.root (lockName cfg.sha x) := by
  simp [lockTemp, lockTempFile, locksDir, lockId_eq]

theorem dot_not_hex (b : Bytes) : (46 : UInt8) ∉ hex b := by
  intro h
  simp only [hex, List.mem_flatMap, List.mem_cons, List.not_mem_nil, or_false] at h
  obtain ⟨x, _, h⟩ := h
  have key : ∀ n : Fin 16, (46 : UInt8) ≠ lowerHex.getD n.1 0 := by decide
  have hx : x.toNat < 256 := x.toNat_lt
  rcases h with h | h
  · exact key ⟨x.toNat / 16, by omega⟩ h
  · exact key ⟨x.toNat % 16, by omega⟩ h

theorem temp_ne_lock (root : Path) (sha : Bytes → Bytes) (a x : Bytes) :
    lockTempFile root a ≠ lockFile root (lockName sha x) := by
  intro h
  rw [lockTempFile_eq] at h
  have h := lockFile_inj h
  refine dot_not_hex (sha (b!"v1:" ++ x)) ?_
  have : (46 : UInt8) ∈ a ++ b!".lock" := by simp
  rw [h] at this
  exact this

theorem lock_ne_incomplete (root : Path) (n m : Bytes) : lockFile root n ≠ incompleteDir root ++ [m] := by
  rw [← locksDir_join]; exact locks_ne_incomplete _ _ _

theorem lock_ne_obj (root : Path) (n oid : Bytes) : lockFile root n ≠ objPath root oid := by
  rw [← locksDir_join]; exact locks_ne_obj _ _ _

/-- What all steps have in common. -/
structure Frame (root : Path) (fs : FS) (ow : Nat → Own) (l : Option (Nat × Event)) (fs' : FS)
    (ow' : Nat → Own) : Prop where
  tmp : ∀ i p j c, (ow' i).tmp = some (p, j, c) → (∃ c', (ow i).tmp = some (p, j, c')) ∨ fs.next ≤ j
  inos : ∀ i j, j ∈ (ow i).inos → j ∈ (ow' i).inos
  unl : ∀ k id z, l = some (k, ⟨.unlink (lockTempFile root id), z⟩) → (ow' k).win = none

/-- What a step does to the directory `locks`, the inodes, and the bookkeeping. -/
inductive Effect (root : Path) (sha : Bytes → Bytes) (fs : FS) (ow : Nat → Own) (l : Option (Nat × Event))
    (fs' : FS) (ow' : Nat → Own) : Prop
  | other (names : ∀ n, fs'.get (lockFile root n) = fs.get (lockFile root n))
      (data : ∀ j, j < fs.next → near root (fs.inodes j).born = true → (∀ i p c, (ow i).tmp ≠ some (p, j, c)) →
        (fs'.inodes j).data = (fs.inodes j).data)
      (win : ∀ i, (ow' i).win = (ow i).win)
  | new (i : Nat) (x : Bytes) (uid : Nat)
      (lbl : l = some (i, ⟨.createNew (lockTempFile root (lockName sha x)) uid, .ok fs.next⟩))
      (absent : fs.get (lockTempFile root (lockName sha x)) = none)
      (names : ∀ n, fs'.get (lockFile root n) =
        if lockFile root n = lockTempFile root (lockName sha x) then some fs.next else fs.get (lockFile root n))
      (data : ∀ j, j < fs.next → (fs'.inodes j).data = (fs.inodes j).data)
      (fresh : (fs'.inodes fs.next).data = [])
      (tmp : ∀ k, (ow' k).tmp = (ow k).tmp)
      (own : fs.next ∈ (ow' i).inos)
      (win : (ow' i).win = some (lockTempFile root (lockName sha x), some (fs.next, some [])))
      (wins : ∀ k, k ≠ i → (ow' k).win = (ow k).win)
  | fail (i : Nat) (x : Bytes) (uid : Nat) (e : IoErr)
      (lbl : l = some (i, ⟨.createNew (lockTempFile root (lockName sha x)) uid, .error e⟩))
      (same : fs' = fs)
      (win : (ow' i).win = some (lockTempFile root (lockName sha x), none))
      (wins : ∀ k, k ≠ i → (ow' k).win = (ow k).win)
  | write (i : Nat) (t : Int) (x : Bytes) (j : Ino) (d b b' : Bytes) (v : Option Bytes)
      (old : (ow i).win = some (lockTempFile root (lockName sha x), some (j, some d)))
      (rec : d ++ b = lockRecord t x) (pre : b' <+: b)
      (names : ∀ n, fs'.get (lockFile root n) = fs.get (lockFile root n))
      (data : ∀ k, k ≠ j → (fs'.inodes k).data = (fs.inodes k).data)
      (app : (fs'.inodes j).data = (fs.inodes j).data ++ b')
      (win : (ow' i).win = some (lockTempFile root (lockName sha x), some (j, v)))
      (val : v = none ∨ v = some (d ++ b'))
      (wins : ∀ k, k ≠ i → (ow' k).win = (ow k).win)
  | link (i : Nat) (t : Int) (x : Bytes) (j : Ino)
      (old : (ow i).win = some (lockTempFile root (lockName sha x), some (j, some (lockRecord t x))))
      (names : (∀ n, fs'.get (lockFile root n) = fs.get (lockFile root n)) ∨
        ∃ j', fs.get (lockTempFile root (lockName sha x)) = some j' ∧ ∀ n, fs'.get (lockFile root n) =
          if n = lockName sha x then some j' else fs.get (lockFile root n))
      (data : fs'.inodes = fs.inodes)
      (win : (ow' i).win = some (lockTempFile root (lockName sha x), some (j, none)))
      (wins : ∀ k, k ≠ i → (ow' k).win = (ow k).win)
  | drop (i : Nat) (x : Bytes) (v : Option (Ino × Option Bytes))
      (old : (ow i).win = some (lockTempFile root (lockName sha x), v))
      (names : (∀ n, fs'.get (lockFile root n) = fs.get (lockFile root n)) ∨
        ∀ n, fs'.get (lockFile root n) =
          if lockFile root n = lockTempFile root (lockName sha x) then none else fs.get (lockFile root n))
      (data : fs'.inodes = fs.inodes)
      (win : (ow' i).win = none)
      (wins : ∀ k, k ≠ i → (ow' k).win = (ow k).win)
  | unlock (x : Bytes)
      (names : (∀ n, fs'.get (lockFile root n) = fs.get (lockFile root n)) ∨
        ∀ n, fs'.get (lockFile root n) = if n = lockName sha x then none else fs.get (lockFile root n))
      (data : fs'.inodes = fs.inodes)
      (win : ∀ k, (ow' k).win = (ow k).win)

theorem winUpd_unlink (w : Option (Path × Option (Ino × Option Bytes))) (p : Path) (x : Resp (.unlink p)) :
    winUpd w (.unlink p) x = if w.map Prod.fst = some p then none else w := rfl

theorem winUpd_quiet (w : Option (Path × Option (Ino × Option Bytes))) (o : Op) (x : Resp o)
    (h : match o with | .createNew _ _ | .write _ _ | .link _ _ | .unlink _ => False | _ => True) :
    winUpd w o x = w := by
  cases o <;> first | rfl | exact h.elim

/-- The temporary lock files, and the bookkeeping on them. -/
structure LkInv (root : Path) (sha : Bytes → Bytes) (fs : FS) (ow : Nat → Own) : Prop where
  sep : ∀ n j, fs.get (lockFile root n) = some j → ∀ i p c, (ow i).tmp ≠ some (p, j, c)
  win : ∀ i p j d, (ow i).win = some (p, some (j, d)) → j ∈ (ow i).inos ∧
    ∀ d', d = some d' → (fs.inodes j).data = d'
  path : ∀ i p v, (ow i).win = some (p, v) → ∃ x, p = lockTempFile root (lockName sha x)

/-- Frame conditions of a call. -/
theorem Frame.call {root : Path} {fs : FS} {ow : Nat → Own} (hi : Inv root fs ow)
    (cfg : Cfg) (hr : cfg.root = root) (i : Nat) (o : Op) (c : Choice)
    (hm : (ow i).may cfg o) :
    Frame root fs ow (some (i, ⟨o, (sem c fs o).2⟩)) (sem c fs o).1
      (updAt ow i ((ow i).upd o (sem c fs o).2)) := by
  subst hr
  refine ⟨fun k p j d hk => ?_, fun k j hk => ?_, fun k id z hl => ?_⟩
  · by_cases hki : k = i
    · subst hki
      rw [updAt_same] at hk
      rw [Own.upd_tmp] at hk
      cases o with
      | createTemp dir pre uid =>
        simp only [sem] at hk
        split at hk
        · exact .inl ⟨_, hk⟩
        · split at hk
          · simp only [Own.base, Option.some.injEq, Prod.mk.injEq] at hk
            exact .inr (Nat.le_of_eq hk.2.1)
          · exact .inl ⟨_, hk⟩
      | createNew q uid =>
        left
        refine ⟨d, ?_⟩
        cases hx : (sem c fs (.createNew q uid)).2 <;> rw [hx] at hk <;> exact hk
      | write ino b =>
        left
        cases hx : (sem c fs (.write ino b)).2 with
        | ok u =>
          rw [hx] at hk
          obtain ⟨c0, h0, _⟩ := Own.wrote_inv (s := ow k) hk
          exact ⟨c0, h0⟩
        | error e =>
          rw [hx] at hk
          obtain ⟨c0, h0, _⟩ := Own.wrote_inv (s := ow k) hk
          exact ⟨c0, h0⟩
      | rename a b =>
        left
        cases hx : (sem c fs (.rename a b)).2 with
        | ok u => rw [hx] at hk; cases hk
        | error e => rw [hx] at hk; exact ⟨_, hk⟩
      | unlink q =>
        left
        have hk : ((ow k).removed q).tmp = some (p, j, d) := hk
        unfold Own.removed at hk
        split at hk
        · split at hk
          · cases hk
          · exact ⟨_, hk⟩
        · exact ⟨_, hk⟩
      | _ => exact .inl ⟨_, hk⟩
    · rw [updAt_ne _ _ hki] at hk
      exact .inl ⟨_, hk⟩
  · by_cases hki : k = i
    · subst hki
      rw [updAt_same, Own.upd_inos]
      cases o with
      | createTemp dir pre uid =>
        cases hx : (sem c fs (.createTemp dir pre uid)).2 <;> exact hk
      | createNew q uid =>
        cases hx : (sem c fs (.createNew q uid)).2 with
        | ok u => exact List.mem_cons_of_mem _ hk
        | error e => exact hk
      | write ino b =>
        cases hx : (sem c fs (.write ino b)).2 with
        | ok u => show j ∈ ((ow k).wrote _ _ _).inos; rw [Own.wrote_inos]; exact hk
        | error e => show j ∈ ((ow k).wrote _ _ _).inos; rw [Own.wrote_inos]; exact hk
      | rename a b => cases hx : (sem c fs (.rename a b)).2 <;> exact hk
      | unlink q =>
        show j ∈ ((ow k).removed q).inos
        unfold Own.removed
        split
        · split <;> exact hk
        · exact hk
      | _ => exact hk
    · rw [updAt_ne _ _ hki]; exact hk
  · simp only [Option.some.injEq, Prod.mk.injEq] at hl
    obtain ⟨rfl, he⟩ := hl
    have ho : o = .unlink (lockTempFile cfg.root id) := congrArg Sigma.fst he
    subst ho
    rw [updAt_same, Own.upd_win]
    rcases hm with ⟨j, d, ht⟩ | ⟨x, ⟨_, v, hv⟩ | hx⟩
    · obtain ⟨_, ⟨m, g⟩, _⟩ := hi.tmp i _ j d ht
      exact absurd g (lock_ne_incomplete _ _ _)
    · simp [winUpd, hv]
    · rw [lockPath_eq] at hx
      exact absurd hx (temp_ne_lock _ _ _ _)

theorem Effect.call {root : Path} {sha : Bytes → Bytes} {fs : FS} {ow : Nat → Own} (hi : Inv root fs ow)
    (hl : LkInv root sha fs ow) (cfg : Cfg) (hr : cfg.root = root) (hs : cfg.sha = sha) (i : Nat) (o : Op) (c : Choice)
    (hm : (ow i).may cfg o) :
    Effect root sha fs ow (some (i, ⟨o, (sem c fs o).2⟩)) (sem c fs o).1
      (updAt ow i ((ow i).upd o (sem c fs o).2)) := by
  subst hr hs
  have wins : ∀ (s' : Own) k, k ≠ i → (updAt ow i s' k).win = (ow k).win := fun s' k hk => by
    rw [updAt_ne _ _ hk]
  have quiet : ∀ (fs' : FS) (x : Resp o), winUpd (ow i).win o x = (ow i).win →
      (∀ n, fs'.get (lockFile cfg.root n) = fs.get (lockFile cfg.root n)) →
      (∀ j, j < fs.next → (∀ i p c, (ow i).tmp ≠ some (p, j, c)) → (fs'.inodes j).data = (fs.inodes j).data) →
      Effect cfg.root cfg.sha fs ow (some (i, ⟨o, x⟩)) fs' (updAt ow i ((ow i).upd o x)) := by
    intro fs' x hw hn hd
    refine .other hn (fun j hj _ => hd j hj) fun k => ?_
    by_cases hk : k = i
    · subst hk; rw [updAt_same, Own.upd_win, hw]
    · rw [updAt_ne _ _ hk]
  cases o with
  | createTemp dir pre uid =>
    obtain ⟨rfl, hnone⟩ := hm
    simp only [sem]
    split
    · exact quiet _ _ rfl (fun _ => rfl) (fun _ _ _ => rfl)
    · split
      · obtain ⟨sfx, hf⟩ := fs.freshName_dir (incompleteDir cfg.root) (pre ++ c.rand)
        refine quiet _ _ rfl (fun n => ?_) (fun j hj _ => ?_)
        · rw [FS.get_create, if_neg]
          rw [hf]; exact lock_ne_incomplete _ _ _
        · rw [FS.data_create, if_neg (Nat.ne_of_lt hj)]
      · exact quiet _ _ rfl (fun _ => rfl) (fun _ _ _ => rfl)
  | createNew p uid =>
    obtain ⟨x, rfl⟩ := hm
    rw [lockTemp_file]
    have bad : ∀ e : IoErr, Effect cfg.root cfg.sha fs ow
        (some (i, ⟨.createNew (lockTempFile cfg.root (lockName cfg.sha x)) uid, .error e⟩)) fs
        (updAt ow i ((ow i).upd (.createNew (lockTempFile cfg.root (lockName cfg.sha x)) uid) (.error e))) := by
      intro e
      exact .fail i x uid e rfl rfl (by rw [updAt_same]; rfl) (wins _)
    simp only [sem]
    split
    · exact bad _
    · split
      · exact bad _
      · rename_i hex
        simp only [Bool.or_eq_true, not_or, Bool.not_eq_true, Option.isSome_eq_false_iff,
              Option.isNone_iff_eq_none] at hex
        split
        · refine .new i x uid rfl hex.1 (fun n => ?_) (fun j hj => ?_) ?_ (fun k => ?_) ?_ ?_ (wins _)
          · rw [FS.get_create]
          · rw [FS.data_create, if_neg (Nat.ne_of_lt hj)]
          · rw [FS.data_create, if_pos rfl]
          · by_cases hk : k = i
            · subst hk; rw [updAt_same]; rfl
            · rw [updAt_ne _ _ hk]
          · rw [updAt_same]; exact List.mem_cons_self
          · rw [updAt_same]; rfl
        · exact bad _
  | write ino b =>
    rcases hm with ⟨p, d, ht⟩ | ⟨hin, x, t, d, hw, hd⟩
    · -- the temporary upload file
      have hww : ∀ ok, winWrote (ow i).win ino b ok = (ow i).win := by
        intro ok
        cases hq : (ow i).win with
        | none => rfl
        | some q =>
          obtain ⟨q, v⟩ := q
          cases v with
          | none => rfl
          | some v =>
            obtain ⟨j, v⟩ := v
            have : j ≠ ino := by
              rintro rfl
              exact hi.sep i _ _ _ ht (hl.win i _ _ _ hq).1
            simp [winWrote, this]
      have hd : ∀ b' j, j < fs.next → (∀ i p c, (ow i).tmp ≠ some (p, j, c)) →
          ((fs.append ino b').inodes j).data = (fs.inodes j).data := by
        intro b' j _ hj
        have : j ≠ ino := by rintro rfl; exact hj i _ _ ht
        simp [FS.data_append, this]
      simp only [sem]
      split
      · exact quiet _ _ (hww false) (fun n => by simp) (hd _)
      · exact quiet _ _ (hww true) (fun n => by simp) (hd _)
    · rw [lockTemp_file] at hw
      simp only [sem]
      split
      · refine .write i t x ino d b (b.take c.cut) none hw hd (List.take_prefix _ _) (fun n => by simp)
          (fun k hk => ?_) ?_ ?_ (.inl rfl) (wins _)
        · simp [FS.data_append, hk]
        · simp [FS.data_append]
        · rw [updAt_same, Own.upd_win, hw]; simp [winUpd, winWrote]
      · refine .write i t x ino d b b (some (d ++ b)) hw hd (List.prefix_refl _) (fun n => by simp)
          (fun k hk => ?_) ?_ ?_ (.inr rfl) (wins _)
        · simp [FS.data_append, hk]
        · simp [FS.data_append]
        · rw [updAt_same, Own.upd_win, hw]; simp [winUpd, winWrote]
  | rename src dst =>
    obtain ⟨ino, d, ht, hv, rfl⟩ := hm
    obtain ⟨hg, ⟨n, hn⟩, hd⟩ := hi.tmp i src ino _ ht
    have hq : ∀ x, winUpd (ow i).win (.rename src (objPath cfg.root (hexEncode (cfg.sha d)))) x = (ow i).win :=
      fun x => winUpd_quiet _ _ _ trivial
    simp only [sem, hg]
    split
    · exact quiet _ _ (hq _) (fun _ => rfl) (fun _ _ _ => rfl)
    · split
      · exact quiet _ _ (hq _) (fun _ => rfl) (fun _ _ _ => rfl)
      · split
        · exact quiet _ _ (hq _) (fun _ => rfl) (fun _ _ _ => rfl)
        · split
          · exact quiet _ _ (hq _) (fun _ => rfl) (fun _ _ _ => rfl)
          · refine quiet _ _ (hq _) (fun m => ?_) (fun _ _ _ => rfl)
            rw [FS.get_setName, if_neg (lock_ne_obj _ _ _), FS.get_delName,
              if_neg (by rw [hn]; exact lock_ne_incomplete _ _ _)]
  | link src dst =>
    obtain ⟨x, t, j, rfl, rfl, hw⟩ := hm
    rw [lockTemp_file] at hw ⊢
    rw [lockPath_eq]
    have hwin : ∀ y, winUpd (ow i).win (.link (lockTempFile cfg.root (lockName cfg.sha x))
        (lockFile cfg.root (lockName cfg.sha x))) y =
        some (lockTempFile cfg.root (lockName cfg.sha x), some (j, none)) := by
      intro y; rw [hw]; rfl
    have idle : ∀ y, Effect cfg.root cfg.sha fs ow (some (i, ⟨.link (lockTempFile cfg.root (lockName cfg.sha x))
        (lockFile cfg.root (lockName cfg.sha x)), y⟩)) fs (updAt ow i ((ow i).upd
        (.link (lockTempFile cfg.root (lockName cfg.sha x)) (lockFile cfg.root (lockName cfg.sha x))) y)) :=
      fun y => .link i t x j hw (.inl fun _ => rfl) rfl (by rw [updAt_same, Own.upd_win, hwin]) (wins _)
    simp only [sem]
    split
    · exact idle _
    · split
      · exact idle _
      · rename_i ino hg
        split
        · exact idle _
        · split
          · exact idle _
          · refine .link i t x j hw (.inr ⟨ino, hg, fun n => ?_⟩) rfl (by rw [updAt_same, Own.upd_win, hwin])
              (wins _)
            rw [FS.get_setName]
            by_cases hn : n = lockName cfg.sha x
            · rw [if_pos (by rw [hn]), if_pos hn]
            · rw [if_neg (fun h => hn (lockFile_inj h)), if_neg hn]
  | unlink p =>
    have hfs : (sem c fs (.unlink p)).1 = fs ∨ (sem c fs (.unlink p)).1 = fs.delName p := by
      simp only [sem]
      split
      · exact .inl rfl
      · split
        · exact .inr rfl
        · split <;> exact .inl rfl
    have hino : (sem c fs (.unlink p)).1.inodes = fs.inodes := by
      rcases hfs with h | h <;> rw [h] <;> rfl
    rcases hm with ⟨j, d, ht⟩ | ⟨x, ⟨hx, v, hv⟩ | hx⟩
    · obtain ⟨_, ⟨m, g⟩, _⟩ := hi.tmp i p j d ht
      refine quiet _ _ ?_ (fun n => ?_) (fun j _ _ => by rw [hino])
      · rw [winUpd_unlink, if_neg]
        intro h
        cases hq : (ow i).win with
        | none => rw [hq] at h; cases h
        | some q =>
          obtain ⟨q, v⟩ := q
          rw [hq] at h
          simp only [Option.map_some, Option.some.injEq] at h
          obtain ⟨x, hx⟩ := hl.path i _ _ hq
          rw [h, g] at hx
          exact lock_ne_incomplete _ _ _ hx.symm
      · rcases hfs with h | h <;> rw [h]
        rw [FS.get_delName, if_neg]
        rw [g]; exact lock_ne_incomplete _ _ _
    · rw [lockTemp_file] at hx
      subst hx
      refine .drop i x v hv ?_ hino (by rw [updAt_same]; simp [winUpd, hv]) (wins _)
      rcases hfs with h | h <;> rw [h]
      · exact .inl fun _ => rfl
      · exact .inr fun n => by rw [FS.get_delName]
    · rw [lockPath_eq] at hx
      subst hx
      refine .unlock x ?_ hino (fun k => ?_)
      · rcases hfs with h | h <;> rw [h]
        · exact .inl fun _ => rfl
        · refine .inr fun n => ?_
          rw [FS.get_delName]
          by_cases hn : n = lockName cfg.sha x
          · rw [if_pos (by rw [hn]), if_pos hn]
          · rw [if_neg (fun h => hn (lockFile_inj h)), if_neg hn]
      · by_cases hk : k = i
        · subst hk
          rw [updAt_same, Own.upd_win]
          rw [winUpd_unlink, if_neg]
          intro h
          cases hq : (ow k).win with
          | none => rw [hq] at h; cases h
          | some q =>
            obtain ⟨q, v⟩ := q
            rw [hq] at h
            simp only [Option.map_some, Option.some.injEq] at h
            obtain ⟨y, hy⟩ := hl.path k _ _ hq
            rw [h] at hy
            exact temp_ne_lock _ _ _ _ hy.symm
        · rw [updAt_ne _ _ hk]
  | mkdirAll p =>
    refine quiet _ _ (winUpd_quiet _ _ _ trivial) (fun n => ?_) (fun j _ _ => ?_) <;>
      simp only [sem] <;> (repeat' split) <;> rfl
  | chmod p m =>
    refine quiet _ _ (winUpd_quiet _ _ _ trivial) (fun n => ?_) (fun j _ _ => ?_)
    · simp only [sem]; (repeat' split) <;> rfl
    · simp only [sem]
      split
      · rfl
      · split
        · exact fs.data_chmod _ _ j
        · split <;> rfl
  | stat p =>
    refine quiet _ _ rfl (fun n => ?_) (fun j _ _ => ?_) <;> simp only [sem] <;> (repeat' split) <;> rfl
  | openRead p =>
    refine quiet _ _ rfl (fun n => ?_) (fun j _ _ => ?_) <;> simp only [sem] <;> (repeat' split) <;> rfl
  | fstat p =>
    refine quiet _ _ rfl (fun n => ?_) (fun j _ _ => ?_) <;> simp only [sem] <;> (repeat' split) <;> rfl
  | readAll p =>
    refine quiet _ _ rfl (fun n => ?_) (fun j _ _ => ?_) <;> simp only [sem] <;> (repeat' split) <;> rfl
  | readDir p =>
    refine quiet _ _ rfl (fun n => ?_) (fun j _ _ => ?_) <;> simp only [sem] <;> (repeat' split) <;> rfl
  | now => exact quiet _ _ rfl (fun _ => rfl) (fun _ _ _ => rfl)
  | out b =>
    refine quiet _ _ rfl (fun n => ?_) (fun j _ _ => ?_) <;> simp only [sem] <;> (repeat' split) <;> rfl
  | flush =>
    refine quiet _ _ rfl (fun n => ?_) (fun j _ _ => ?_) <;> simp only [sem] <;> (repeat' split) <;> rfl

theorem follows_effect {root : Path} {sha : Bytes → Bytes} {fs fs' : FS} {ow ow' : Nat → Own}
    {l : Option (Nat × Event)} (hi : Inv root fs ow) (hl : LkInv root sha fs ow)
    (h : Follows root sha fs ow l fs' ow') : Frame root fs ow l fs' ow' ∧ Effect root sha fs ow l fs' ow' := by
  cases h with
  | call cfg i o c h1 h2 hm => exact ⟨.call hi cfg h1 i o c hm, .call hi hl cfg h1 h2 i o c hm⟩
  | writeSome cfg i ino b n h1 h2 hm =>
    subst h1 h2
    have hm' : (ow i).may cfg (.write ino (b.take n)) ∨ ∃ x t d, (ow i).win = some (lockTemp cfg x, some (ino, some d)) ∧
        d ++ b = lockRecord t x := by
      rcases hm with h | ⟨_, h⟩
      · exact .inl (.inl h)
      · exact .inr h
    have e1 : (sem { Choice.none with fault := none } fs (.write ino (b.take n))).1 = fs.append ino (b.take n) := rfl
    have e2 : (sem { Choice.none with fault := none } fs (.write ino (b.take n))).2 = .ok () := rfl
    rcases hm' with hm' | ⟨x, t, d, hw, hd⟩
    · obtain ⟨f, e⟩ := And.intro (Frame.call hi cfg rfl i _ { Choice.none with fault := none } hm')
        (Effect.call hi hl cfg rfl rfl i _ { Choice.none with fault := none } hm')
      rw [e1, e2] at f e
      refine ⟨⟨f.tmp, f.inos, fun _ _ _ h => by cases h⟩, ?_⟩
      cases e with
      | other a b c => exact .other a b c
      | new i x uid lbl => cases congrArg (fun z => z.map fun y => y.2.1) lbl
      | fail i x uid e lbl => cases congrArg (fun z => z.map fun y => y.2.1) lbl
      | write i t x j d b b' v a1 a2 a3 a4 a5 a6 a7 a8 a9 => exact .write i t x j d b b' v a1 a2 a3 a4 a5 a6 a7 a8 a9
      | link i t x j a1 a2 a3 a4 a5 => exact .link i t x j a1 a2 a3 a4 a5
      | drop i x v a1 a2 a3 a4 a5 => exact .drop i x v a1 a2 a3 a4 a5
      | unlock x a1 a2 a3 => exact .unlock x a1 a2 a3
    · rw [lockTemp_file] at hw
      refine ⟨⟨fun k p j c hk => ?_, fun k j hk => ?_, fun _ _ _ h => by cases h⟩, ?_⟩
      · by_cases hki : k = i
        · subst hki
          rw [updAt_same] at hk
          obtain ⟨c0, h0, _⟩ := Own.wrote_inv (s := ow k) hk
          exact .inl ⟨c0, h0⟩
        · rw [updAt_ne _ _ hki] at hk; exact .inl ⟨_, hk⟩
      · by_cases hki : k = i
        · subst hki
          rw [updAt_same]
          show j ∈ ((ow k).wrote _ _ _).inos; rw [Own.wrote_inos]; exact hk
        · rw [updAt_ne _ _ hki]; exact hk
      · refine .write i t x ino d b (b.take n) (some (d ++ b.take n)) hw hd (List.take_prefix _ _) (fun n => by simp)
          (fun k hk => ?_) ?_ ?_ (.inr rfl) (fun k hk => by rw [updAt_ne _ _ hk])
        · simp [FS.data_append, hk]
        · simp [FS.data_append]
        · rw [updAt_same, Own.upd_win, hw]; simp [winUpd, winWrote]
  | quiet fs' h1 h2 h3 =>
    refine ⟨⟨fun i p j c h => .inl ⟨c, h⟩, fun i j h => h, fun _ _ _ h => by cases h⟩, .other (fun n => ?_) (fun j hj hb _ => ?_) fun _ => rfl⟩
    · exact h1 _ ⟨_, (by simp [lockFile] : root ++ [b!"locks", n] = lockFile root n)⟩
    · rw [h2 j hj hb]

/-! ### The bookkeeping is right -/

theorem LkInv.init {root : Path} {sha : Bytes → Bytes} {fs : FS} :
    LkInv root sha fs (fun _ => ⟨none, [], none⟩) :=
  ⟨fun _ _ _ _ _ _ h => (by cases h), fun _ _ _ _ h => (by cases h), fun _ _ _ h => (by cases h)⟩

/-- Names in `locks` refer to inodes that had such a name before, or to a new one. -/
theorem Effect.named {root : Path} {sha : Bytes → Bytes} {fs fs' : FS} {ow ow' : Nat → Own}
    {l : Option (Nat × Event)} (h : Effect root sha fs ow l fs' ow') {n : Bytes} {j : Ino}
    (hj : fs'.get (lockFile root n) = some j) :
    (∃ m, fs.get (lockFile root m) = some j) ∨ (j = fs.next ∧ ∀ k, (ow' k).tmp = (ow k).tmp) := by
  cases h with
  | other names => exact .inl ⟨n, by rw [← names]; exact hj⟩
  | new i x uid lbl absent names data fresh tmp =>
    rw [names] at hj
    split at hj
    · cases hj; exact .inr ⟨rfl, tmp⟩
    · exact .inl ⟨n, hj⟩
  | fail i x uid e lbl same => rw [same] at hj; exact .inl ⟨n, hj⟩
  | write i t x j d b b' v old rec pre names => exact .inl ⟨n, by rw [← names]; exact hj⟩
  | link i t x j' old names =>
    rcases names with names | ⟨j2, h1, names⟩
    · exact .inl ⟨n, by rw [← names]; exact hj⟩
    · rw [names] at hj
      split at hj
      · cases hj; exact .inl ⟨_, h1⟩
      · exact .inl ⟨n, hj⟩
  | drop i x v old names =>
    rcases names with names | names
    · exact .inl ⟨n, by rw [← names]; exact hj⟩
    · rw [names] at hj
      split at hj
      · cases hj
      · exact .inl ⟨n, hj⟩
  | unlock x names =>
    rcases names with names | names
    · exact .inl ⟨n, by rw [← names]; exact hj⟩
    · rw [names] at hj
      split at hj
      · cases hj
      · exact .inl ⟨n, hj⟩

theorem LkInv.step {root : Path} {sha : Bytes → Bytes} {fs fs' : FS} {ow ow' : Nat → Own}
    {l : Option (Nat × Event)} (hl : LkInv root sha fs ow) (hi : Inv root fs ow)
    (hf : Frame root fs ow l fs' ow') (he : Effect root sha fs ow l fs' ow') : LkInv root sha fs' ow' := by
  have lt : ∀ {i p j d}, (ow i).win = some (p, some (j, d)) → j < fs.next :=
    fun h => hi.obound _ _ (.inr (hl.win _ _ _ _ h).1)
  refine ⟨fun n j hj i p c ht => ?_, fun i p j d hw => ?_, fun i p v hw => ?_⟩
  · rcases he.named hj with ⟨m, hm⟩ | ⟨rfl, hs⟩
    · rcases hf.tmp i p j c ht with ⟨c', h⟩ | h
      · exact hl.sep m j hm i p c' h
      · exact absurd (hi.bound _ _ hm) (Nat.not_lt.mpr h)
    · rw [hs] at ht
      exact Nat.lt_irrefl _ (hi.obound i _ (.inl ⟨_, _, ht⟩))
  · -- a window that stays as it is, with the data
    have keep : (ow i).win = some (p, some (j, d)) → (fs'.inodes j).data = (fs.inodes j).data →
        j ∈ (ow' i).inos ∧ ∀ d', d = some d' → (fs'.inodes j).data = d' := by
      intro h1 h2
      obtain ⟨h3, h4⟩ := hl.win i p j d h1
      exact ⟨hf.inos i j h3, fun d' e => by rw [h2]; exact h4 d' e⟩
    cases he with
    | other names data win =>
      rw [win] at hw
      refine keep hw (data j (lt hw) (near_of_prefix (hi.ohome _ _ (.inr (hl.win _ _ _ _ hw).1))) fun k q c ht => ?_)
      have hin := (hl.win i p j d hw).1
      have := hi.disj k i j (.inl ⟨_, _, ht⟩) (.inr hin)
      subst this
      exact hi.sep k _ _ _ ht hin
    | new k x uid lbl absent names data fresh tmp own win wins =>
      by_cases hk : i = k
      · subst hk
        rw [win] at hw
        cases hw
        exact ⟨own, by rintro d' ⟨⟩; exact fresh⟩
      · rw [wins i hk] at hw
        exact keep hw (data j (lt hw))
    | fail k x uid e lbl same win wins =>
      by_cases hk : i = k
      · subst hk
        rw [win] at hw; cases hw
      · rw [wins i hk] at hw
        exact keep hw (by rw [same])
    | write k t x j' d' b b' v old rec pre names data app win val wins =>
      by_cases hk : i = k
      · subst hk
        rw [win] at hw
        cases hw
        obtain ⟨h3, h4⟩ := hl.win i _ _ _ old
        refine ⟨hf.inos i _ h3, fun d2 e => ?_⟩
        rcases val with rfl | rfl
        · cases e
        · cases e
          rw [app, h4 _ rfl]
      · rw [wins i hk] at hw
        refine keep hw (data j ?_)
        rintro rfl
        exact hk (hi.disj i k _ (.inr (hl.win _ _ _ _ hw).1) (.inr (hl.win _ _ _ _ old).1))
    | link k t x j' old names data win wins =>
      by_cases hk : i = k
      · subst hk
        rw [win] at hw
        cases hw
        exact ⟨hf.inos i _ (hl.win i _ _ _ old).1, fun d2 e => by cases e⟩
      · rw [wins i hk] at hw
        exact keep hw (by rw [data])
    | drop k x v old names data win wins =>
      by_cases hk : i = k
      · subst hk
        rw [win] at hw; cases hw
      · rw [wins i hk] at hw
        exact keep hw (by rw [data])
    | unlock x names data win =>
      rw [win] at hw
      exact keep hw (by rw [data])
  · cases he with
    | other names data win => rw [win] at hw; exact hl.path i p v hw
    | new k x uid lbl absent names data fresh tmp own win wins =>
      by_cases hk : i = k
      · subst hk; rw [win] at hw; cases hw; exact ⟨x, rfl⟩
      · rw [wins i hk] at hw; exact hl.path i p v hw
    | fail k x uid e lbl same win wins =>
      by_cases hk : i = k
      · subst hk; rw [win] at hw; cases hw; exact ⟨x, rfl⟩
      · rw [wins i hk] at hw; exact hl.path i p v hw
    | write k t x j' d' b b' v' old rec pre names data app win val wins =>
      by_cases hk : i = k
      · subst hk; rw [win] at hw; cases hw; exact ⟨x, rfl⟩
      · rw [wins i hk] at hw; exact hl.path i p v hw
    | link k t x j' old names data win wins =>
      by_cases hk : i = k
      · subst hk; rw [win] at hw; cases hw; exact ⟨x, rfl⟩
      · rw [wins i hk] at hw; exact hl.path i p v hw
    | drop k x v' old names data win wins =>
      by_cases hk : i = k
      · subst hk; rw [win] at hw; cases hw
      · rw [wins i hk] at hw; exact hl.path i p v hw
    | unlock x names data win => rw [win] at hw; exact hl.path i p v hw

/-! ### Lock files contain the beginning of a record -/

structure PreInv (root : Path) (sha : Bytes → Bytes) (fs : FS) (ow : Nat → Own) : Prop where
  pre : ∀ x j, (fs.get (lockTempFile root (lockName sha x)) = some j ∨
    fs.get (lockFile root (lockName sha x)) = some j) →
    StartsRecord sha (lockName sha x) (fs.inodes j).data
  nm : ∀ i p j d, (ow i).win = some (p, some (j, d)) → ∀ x,
    (fs.get (lockTempFile root (lockName sha x)) = some j ∨ fs.get (lockFile root (lockName sha x)) = some j) →
    p = lockTempFile root (lockName sha x)

theorem PreInv.step {root : Path} {sha : Bytes → Bytes} {fs fs' : FS} {ow ow' : Nat → Own}
    {l : Option (Nat × Event)} (hp : PreInv root sha fs ow) (hl : LkInv root sha fs ow) (hi : Inv root fs ow)
    (he : Effect root sha fs ow l fs' ow') : PreInv root sha fs' ow' := by
  have lt : ∀ {i p j d}, (ow i).win = some (p, some (j, d)) → j < fs.next :=
    fun h => hi.obound _ _ (.inr (hl.win _ _ _ _ h).1)
  have bd : ∀ {x j}, (fs.get (lockTempFile root (lockName sha x)) = some j ∨
      fs.get (lockFile root (lockName sha x)) = some j) → j < fs.next := by
    rintro x j (h | h) <;> exact hi.bound _ _ h
  cases he with
  | other names data win =>
    refine ⟨fun x j hx => ?_, fun i p j d hw x hx => ?_⟩
    · rw [lockTempFile_eq, names, names] at hx
      rw [data j (bd hx)]
      · exact hp.pre x j hx
      · rcases hx with h | h <;> exact hi.home _ _ (near_of_prefix (List.prefix_append _ _)) h
      · rcases hx with h | h <;> exact hl.sep _ j h
    · rw [lockTempFile_eq, names, names] at hx
      rw [win] at hw
      exact hp.nm i p j d hw x hx
  | new k y uid lbl absent names data fresh tmp own win wins =>
    have hname : ∀ x j, (fs'.get (lockTempFile root (lockName sha x)) = some j ∨
        fs'.get (lockFile root (lockName sha x)) = some j) →
        (lockName sha x = lockName sha y ∧ j = fs.next) ∨ (fs.get (lockTempFile root (lockName sha x)) = some j ∨
        fs.get (lockFile root (lockName sha x)) = some j) := by
      intro x j hx
      have e1 := names (lockName sha x ++ b!".lock")
      have e2 := names (lockName sha x)
      rw [if_neg (fun h => temp_ne_lock _ _ _ _ h.symm)] at e2
      rw [← lockTempFile_eq] at e1
      rw [e1, e2] at hx
      rcases hx with h | h
      · split at h
        · rename_i he
          cases h
          exact .inl ⟨lockTempFile_inj he, rfl⟩
        · exact .inr (.inl h)
      · exact .inr (.inr h)
    refine ⟨fun x j hx => ?_, fun i p j d hw x hx => ?_⟩
    · rcases hname x j hx with ⟨h1, rfl⟩ | h
      · rw [fresh]
        exact ⟨⟨x, 0, 0⟩, rfl, List.nil_prefix⟩
      · rw [data j (bd h)]
        exact hp.pre x j h
    · by_cases hk : i = k
      · subst hk
        rw [win] at hw
        cases hw
        rcases hname x _ hx with ⟨h1, _⟩ | h
        · rw [h1]
        · exact absurd (bd h) (Nat.lt_irrefl _)
      · rw [wins i hk] at hw
        rcases hname x _ hx with ⟨_, rfl⟩ | h
        · exact absurd (lt hw) (Nat.lt_irrefl _)
        · exact hp.nm i p j d hw x h
  | fail k x uid e lbl same win wins =>
    subst same
    refine ⟨hp.pre, fun i p j d hw x hx => ?_⟩
    by_cases hk : i = k
    · subst hk; rw [win] at hw; cases hw
    · rw [wins i hk] at hw; exact hp.nm i p j d hw x hx
  | write k t y j' d' b b' v' old rec pre names data app win val wins =>
    refine ⟨fun x j hx => ?_, fun i p j d hw x hx => ?_⟩
    · rw [lockTempFile_eq, names, names] at hx
      by_cases hj : j = j'
      · subst hj
        have h1 := lockTempFile_inj (hp.nm k _ _ _ old x hx)
        rw [app, (hl.win k _ _ _ old).2 _ rfl]
        refine ⟨⟨y, t, 0⟩, h1, ?_⟩
        rw [← lockRecord_eq, ← rec]
        exact (List.prefix_append_right_inj _).mpr pre
      · rw [data j hj]
        exact hp.pre x j hx
    · rw [lockTempFile_eq, names, names] at hx
      by_cases hk : i = k
      · subst hk
        rw [win] at hw
        cases hw
        exact hp.nm i _ _ _ old x hx
      · rw [wins i hk] at hw
        exact hp.nm i p j d hw x hx
  | link k t y j' old names data win wins =>
    have hname : ∀ x j, (fs'.get (lockTempFile root (lockName sha x)) = some j ∨
        fs'.get (lockFile root (lockName sha x)) = some j) → (fs.get (lockTempFile root (lockName sha x)) = some j ∨
        fs.get (lockFile root (lockName sha x)) = some j) := by
      intro x j hx
      rcases names with names | ⟨j2, h2, names⟩
      · rwa [lockTempFile_eq, names, names] at hx
      · rw [lockTempFile_eq, names, names] at hx
        rw [if_neg] at hx
        · rcases hx with h | h
          · exact .inl h
          · split at h
            · rename_i he
              cases h
              rw [he]; exact .inl h2
            · exact .inr h
        · intro h
          exact temp_ne_lock root sha (lockName sha x) y (by rw [lockTempFile_eq, h])
    have hold : ∀ i p j d, (ow' i).win = some (p, some (j, d)) → ∃ d', (ow i).win = some (p, some (j, d')) := by
      intro i p j d hw
      by_cases hk : i = k
      · subst hk
        rw [win] at hw
        cases hw
        exact ⟨_, old⟩
      · rw [wins i hk] at hw
        exact ⟨_, hw⟩
    refine ⟨fun x j hx => ?_, fun i p j d hw x hx => ?_⟩
    · rw [data]; exact hp.pre x j (hname x j hx)
    · obtain ⟨d', hw⟩ := hold i p j d hw
      exact hp.nm i p j d' hw x (hname x j hx)
  | drop k y v old names data win wins =>
    have hname : ∀ n j, fs'.get (lockFile root n) = some j → fs.get (lockFile root n) = some j := by
      intro n j hn
      rcases names with names | names
      · rwa [names] at hn
      · rw [names] at hn
        split at hn
        · cases hn
        · exact hn
    refine ⟨fun x j hx => ?_, fun i p j d hw x hx => ?_⟩
    · rw [data]; exact hp.pre x j (hx.imp (hname _ _) (hname _ _))
    · by_cases hk : i = k
      · subst hk; rw [win] at hw; cases hw
      · rw [wins i hk] at hw; exact hp.nm i p j d hw x (hx.imp (hname _ _) (hname _ _))
  | unlock y names data win =>
    have hname : ∀ n j, fs'.get (lockFile root n) = some j → fs.get (lockFile root n) = some j := by
      intro n j hn
      rcases names with names | names
      · rwa [names] at hn
      · rw [names] at hn
        split at hn
        · cases hn
        · exact hn
    refine ⟨fun x j hx => ?_, fun i p j d hw x hx => ?_⟩
    · rw [data]; exact hp.pre x j (hx.imp (hname _ _) (hname _ _))
    · rw [win] at hw; exact hp.nm i p j d hw x (hx.imp (hname _ _) (hname _ _))

/-! ### Complete records -/

structure FullInv (root : Path) (sha : Bytes → Bytes) (id : Bytes) (fs : FS) (ow : Nat → Own)
    (tr : List (Nat × Event)) : Prop where
  full : ∀ j, fs.get (lockFile root id) = some j → IsRecord sha id (fs.inodes j).data ∧
    ∀ i p d, (ow i).win ≠ some (p, some (j, some d))
  here : ∀ i j d, (ow i).win = some (lockTempFile root id, some (j, d)) →
    fs.get (lockTempFile root id) = some j
  uniq : ∀ i k v v', (ow i).win = some (lockTempFile root id, v) →
    (ow k).win = some (lockTempFile root id, v') → i = k
  since : ∀ i v, (ow i).win = some (lockTempFile root id, v) → ∃ a uid x b,
    tr = a ++ (i, (⟨.createNew (lockTempFile root id) uid, x⟩ : Event)) :: b ∧
    (∀ z, (i, (⟨.unlink (lockTempFile root id), z⟩ : Event)) ∉ b) ∧ (v = none → ∀ j, x ≠ .ok j)

theorem Spec.Apart.prefix {root : Path} {id : Bytes} {tr tr' : List (Nat × Event)} (h : Apart root id (tr ++ tr')) :
    Apart root id tr := by
  intro a i uid x b k uid' y c he hne
  exact h a i uid x b k uid' y (c ++ tr') (by rw [he]; simp) hne

theorem FullInv.step {root : Path} {sha : Bytes → Bytes} {id : Bytes} {fs fs' : FS} {ow ow' : Nat → Own}
    {l : Option (Nat × Event)} {tr : List (Nat × Event)} (hid : ∃ x, id = lockName sha x)
    (hp : FullInv root sha id fs ow tr) (hl : LkInv root sha fs ow) (hi : Inv root fs ow)
    (ha : Apart root id (tr ++ l.toList))
    (hf : Frame root fs ow l fs' ow') (he : Effect root sha fs ow l fs' ow') :
    FullInv root sha id fs' ow' (tr ++ l.toList) := by
  obtain ⟨x0, hid⟩ := hid
  have lt : ∀ {i p j d}, (ow i).win = some (p, some (j, d)) → j < fs.next :=
    fun h => hi.obound _ _ (.inr (hl.win _ _ _ _ h).1)
  -- windows that were open before stay accounted for
  have since : ∀ i v, (ow' i).win = some (lockTempFile root id, v) →
      (∃ v', (ow i).win = some (lockTempFile root id, v') ∧ (v = none → v' = none)) → ∃ a uid x b,
      tr ++ l.toList = a ++ (i, (⟨.createNew (lockTempFile root id) uid, x⟩ : Event)) :: b ∧
      (∀ z, (i, (⟨.unlink (lockTempFile root id), z⟩ : Event)) ∉ b) ∧ (v = none → ∀ j, x ≠ .ok j) := by
    rintro i v hv ⟨v', hv', hvv⟩
    obtain ⟨a, uid, x, b, h1, h2, h3⟩ := hp.since i v' hv'
    refine ⟨a, uid, x, b ++ l.toList, by rw [h1]; simp, fun z hz => ?_, fun h => h3 (hvv h)⟩
    rcases List.mem_append.mp hz with h | h
    · exact h2 z h
    · cases l with
      | none => cases h
      | some l =>
        simp only [Option.toList_some, List.mem_singleton] at h
        have := hf.unl i id z (by rw [h])
        rw [hv] at this; cases this
  have other : ∀ i, ∀ v, (ow i).win = some (lockTempFile root id, v) → ∀ k uid y,
      l = some (k, ⟨.createNew (lockTempFile root id) uid, y⟩) → i ≠ k → v = none ∨ (∀ j, y ≠ .ok j) → False := by
    intro i v hv k uid y hlbl hne hor
    obtain ⟨a, uid', x, b, h1, h2, h3⟩ := hp.since i v hv
    rcases ha a i uid' x b k uid y [] (by rw [h1, hlbl]; simp) hne with ⟨j, j', e1, e2⟩ | ⟨z, hz⟩
    · rcases hor with h | h
      · exact h3 h j e1
      · exact h j' e2
    · exact h2 z hz
  cases he with
  | other names data win =>
    refine ⟨fun j hj => ?_, fun i j d hw => ?_, fun i k v v' h1 h2 => ?_, fun i v hv => ?_⟩
    · rw [names] at hj
      obtain ⟨h1, h2⟩ := hp.full j hj
      rw [data j (hi.bound _ _ hj) (hi.home _ _ (near_of_prefix (List.prefix_append _ _)) hj) (hl.sep _ j hj)]
      exact ⟨h1, fun i => by rw [win]; exact h2 i⟩
    · rw [win] at hw
      rw [lockTempFile_eq, names]; exact hp.here i j d hw
    · rw [win] at h1 h2; exact hp.uniq i k v v' h1 h2
    · exact since i v hv ⟨v, by rw [← win]; exact hv, fun h => h⟩
  | new k y uid lbl absent names data fresh tmp own win wins =>
    have hF : fs'.get (lockFile root id) = fs.get (lockFile root id) := by
      rw [names, if_neg]
      rw [hid]; exact fun h => temp_ne_lock _ _ _ _ h.symm
    have noother : ∀ i v, id = lockName sha y → (ow i).win = some (lockTempFile root id, v) → i ≠ k → False := by
      intro i v hy hw hne
      cases v with
      | none => exact other i none hw k uid _ (by rw [hy]; exact lbl) hne (.inl rfl)
      | some v =>
        have := hp.here i v.1 v.2 hw
        rw [hy, absent] at this; cases this
    refine ⟨fun j hj => ?_, fun i j d hw => ?_, fun i k' v v' h1 h2 => ?_, fun i v hv => ?_⟩
    · rw [hF] at hj
      obtain ⟨h1, h2⟩ := hp.full j hj
      rw [data j (hi.bound _ _ hj)]
      refine ⟨h1, fun i p d => ?_⟩
      by_cases hk : i = k
      · subst hk
        rw [win]
        intro h
        cases h
        exact Nat.lt_irrefl _ (hi.bound _ _ hj)
      · rw [wins i hk]; exact h2 i p d
    · by_cases hk : i = k
      · subst hk
        rw [win] at hw
        simp only [Option.some.injEq, Prod.mk.injEq] at hw
        obtain ⟨h1, h2, -⟩ := hw
        rw [lockTempFile_eq, names, ← lockTempFile_eq, if_pos h1.symm, h2]
      · rw [wins i hk] at hw
        have hne : id ≠ lockName sha y := fun h => noother i _ h hw hk
        rw [lockTempFile_eq, names, ← lockTempFile_eq, if_neg (fun h => hne (lockTempFile_inj h))]
        exact hp.here i j d hw
    · by_cases hi' : i = k
      · by_cases hk' : k' = k
        · rw [hi', hk']
        · subst hi'
          rw [win] at h1
          simp only [Option.some.injEq, Prod.mk.injEq] at h1
          rw [wins k' hk'] at h2
          exact (noother k' _ (lockTempFile_inj h1.1).symm h2 hk').elim
      · by_cases hk' : k' = k
        · subst hk'
          rw [win] at h2
          simp only [Option.some.injEq, Prod.mk.injEq] at h2
          rw [wins i hi'] at h1
          exact (noother i _ (lockTempFile_inj h2.1).symm h1 hi').elim
        · rw [wins i hi'] at h1
          rw [wins k' hk'] at h2
          exact hp.uniq i k' v v' h1 h2
    · by_cases hk : i = k
      · subst hk
        rw [win] at hv
        simp only [Option.some.injEq, Prod.mk.injEq] at hv
        obtain ⟨h1, h2⟩ := hv
        exact ⟨tr, uid, .ok fs.next, [], by rw [lbl, h1]; simp, fun z h => (by cases h),
          fun h => by rw [h] at h2; cases h2⟩
      · exact since i v hv ⟨v, by rw [← wins i hk]; exact hv, fun h => h⟩
  | fail k y uid e lbl same win wins =>
    subst same
    have noother : ∀ i v, id = lockName sha y → (ow i).win = some (lockTempFile root id, v) → i ≠ k → False := by
      intro i v hy hw hne
      exact other i v hw k uid _ (by rw [hy]; exact lbl) hne (.inr fun j h => by cases h)
    refine ⟨fun j hj => ?_, fun i j d hw => ?_, fun i k' v v' h1 h2 => ?_, fun i v hv => ?_⟩
    · obtain ⟨h1, h2⟩ := hp.full j hj
      refine ⟨h1, fun i p d => ?_⟩
      by_cases hk : i = k
      · subst hk
        rw [win]
        intro h
        cases h
      · rw [wins i hk]; exact h2 i p d
    · by_cases hk : i = k
      · subst hk
        rw [win] at hw
        simp at hw
      · rw [wins i hk] at hw
        exact hp.here i j d hw
    · by_cases hi' : i = k
      · by_cases hk' : k' = k
        · rw [hi', hk']
        · subst hi'
          rw [win] at h1
          simp only [Option.some.injEq, Prod.mk.injEq] at h1
          rw [wins k' hk'] at h2
          exact (noother k' _ (lockTempFile_inj h1.1).symm h2 hk').elim
      · by_cases hk' : k' = k
        · subst hk'
          rw [win] at h2
          simp only [Option.some.injEq, Prod.mk.injEq] at h2
          rw [wins i hi'] at h1
          exact (noother i _ (lockTempFile_inj h2.1).symm h1 hi').elim
        · rw [wins i hi'] at h1
          rw [wins k' hk'] at h2
          exact hp.uniq i k' v v' h1 h2
    · by_cases hk : i = k
      · subst hk
        rw [win] at hv
        simp only [Option.some.injEq, Prod.mk.injEq] at hv
        exact ⟨tr, uid, .error e, [], by rw [lbl, hv.1]; simp, fun z h => (by cases h),
          fun _ j h => by cases h⟩
      · exact since i v hv ⟨v, by rw [← wins i hk]; exact hv, fun h => h⟩
  | write k t y j' d' b b' v' old rec pre names data app win val wins =>
    have hold : ∀ i v, (ow' i).win = some (lockTempFile root id, v) → ∃ v0,
        (ow i).win = some (lockTempFile root id, v0) ∧ (v = none → v0 = none) ∧ v0.map Prod.fst = v.map Prod.fst := by
      intro i v hv
      by_cases hk : i = k
      · subst hk
        rw [win] at hv
        simp only [Option.some.injEq, Prod.mk.injEq] at hv
        obtain ⟨h1, rfl⟩ := hv
        exact ⟨some (j', some d'), by rw [old, h1], fun h => (by cases h), rfl⟩
      · exact ⟨v, by rw [← wins i hk]; exact hv, fun h => h, rfl⟩
    refine ⟨fun j hj => ?_, fun i j d hw => ?_, fun i k' v v' h1 h2 => ?_, fun i v hv => ?_⟩
    · rw [names] at hj
      obtain ⟨h1, h2⟩ := hp.full j hj
      have hne : j ≠ j' := by rintro rfl; exact h2 k _ _ old
      rw [data j hne]
      refine ⟨h1, fun i p d => ?_⟩
      by_cases hk : i = k
      · subst hk
        rw [win]
        intro h
        simp only [Option.some.injEq, Prod.mk.injEq] at h
        exact hne h.2.1.symm
      · rw [wins i hk]; exact h2 i p d
    · rw [lockTempFile_eq, names]
      obtain ⟨v0, h1, _, h2⟩ := hold i _ hw
      cases v0 with
      | none => cases h2
      | some v0 =>
        simp only [Option.map_some, Option.some.injEq] at h2
        rw [← h2]
        exact hp.here i v0.1 v0.2 h1
    · obtain ⟨_, h1, _⟩ := hold i _ h1
      obtain ⟨_, h2, _⟩ := hold k' _ h2
      exact hp.uniq i k' _ _ h1 h2
    · obtain ⟨v0, h1, h2, _⟩ := hold i _ hv
      exact since i v hv ⟨v0, h1, h2⟩
  | link k t y j' old names data win wins =>
    have hold : ∀ i v, (ow' i).win = some (lockTempFile root id, v) → ∃ v0,
        (ow i).win = some (lockTempFile root id, v0) ∧ (v = none → v0 = none) ∧ v0.map Prod.fst = v.map Prod.fst := by
      intro i v hv
      by_cases hk : i = k
      · subst hk
        rw [win] at hv
        simp only [Option.some.injEq, Prod.mk.injEq] at hv
        obtain ⟨h1, rfl⟩ := hv
        exact ⟨some (j', some (lockRecord t y)), by rw [old, h1], fun h => (by cases h), rfl⟩
      · exact ⟨v, by rw [← wins i hk]; exact hv, fun h => h, rfl⟩
    have hopen : ∀ i p j d, (ow' i).win = some (p, some (j, some d)) → (ow i).win = some (p, some (j, some d)) ∧ i ≠ k := by
      intro i p j d h
      by_cases hk : i = k
      · subst hk; rw [win] at h; cases h
      · rw [wins i hk] at h; exact ⟨h, hk⟩
    have hT : fs'.get (lockTempFile root id) = fs.get (lockTempFile root id) := by
      rcases names with names | ⟨j2, _, names⟩
      · rw [lockTempFile_eq, names]
      · rw [lockTempFile_eq, names, if_neg]
        intro h
        exact temp_ne_lock root sha id y (by rw [lockTempFile_eq, h])
    refine ⟨fun j hj => ?_, fun i j d hw => ?_, fun i k' v v' h1 h2 => ?_, fun i v hv => ?_⟩
    · rw [data]
      have keep : fs.get (lockFile root id) = some j → IsRecord sha id (fs.inodes j).data ∧
          ∀ i p d, (ow' i).win ≠ some (p, some (j, some d)) := by
        intro hj
        obtain ⟨h1, h2⟩ := hp.full j hj
        exact ⟨h1, fun i p d h => h2 i p d (hopen i p j d h).1⟩
      rcases names with names | ⟨j2, hj2, names⟩
      · rw [names] at hj; exact keep hj
      · rw [names] at hj
        split at hj
        · rename_i he
          cases hj
          have h1 := hp.here k j' _ (by rw [he]; exact old)
          rw [he, hj2] at h1
          cases h1
          refine ⟨⟨⟨y, t, 0⟩, he.symm, ?_⟩, fun i p d h => ?_⟩
          · rw [← lockRecord_eq]; exact (hl.win k _ _ _ old).2 _ rfl
          · obtain ⟨h, hne⟩ := hopen i p _ d h
            exact hne (hi.disj i k _ (.inr (hl.win _ _ _ _ h).1) (.inr (hl.win _ _ _ _ old).1))
        · exact keep hj
    · rw [hT]
      obtain ⟨v0, h1, _, h2⟩ := hold i _ hw
      cases v0 with
      | none => cases h2
      | some v0 =>
        simp only [Option.map_some, Option.some.injEq] at h2
        rw [← h2]
        exact hp.here i v0.1 v0.2 h1
    · obtain ⟨_, h1, _⟩ := hold i _ h1
      obtain ⟨_, h2, _⟩ := hold k' _ h2
      exact hp.uniq i k' _ _ h1 h2
    · obtain ⟨v0, h1, h2, _⟩ := hold i _ hv
      exact since i v hv ⟨v0, h1, h2⟩
  | drop k y v0 old names data win wins =>
    have hF : fs'.get (lockFile root id) = fs.get (lockFile root id) := by
      rcases names with names | names
      · rw [names]
      · rw [names, if_neg]
        rw [hid]; exact fun h => temp_ne_lock _ _ _ _ h.symm
    have hold : ∀ i p v, (ow' i).win = some (p, v) → (ow i).win = some (p, v) ∧ i ≠ k := by
      intro i p v h
      by_cases hk : i = k
      · subst hk; rw [win] at h; cases h
      · rw [wins i hk] at h; exact ⟨h, hk⟩
    refine ⟨fun j hj => ?_, fun i j d hw => ?_, fun i k' v v' h1 h2 => ?_, fun i v hv => ?_⟩
    · rw [hF] at hj
      rw [data]
      obtain ⟨h1, h2⟩ := hp.full j hj
      exact ⟨h1, fun i p d h => h2 i p d (hold i _ _ h).1⟩
    · obtain ⟨h1, hne⟩ := hold i _ _ hw
      have h2 := hp.here i j d h1
      rcases names with names | names
      · rw [lockTempFile_eq, names]; exact h2
      · rw [lockTempFile_eq, names, ← lockTempFile_eq, if_neg]
        · exact h2
        · intro h
          rw [← lockTempFile_inj h] at old
          exact hne (hp.uniq i k _ _ h1 old)
    · exact hp.uniq i k' v v' (hold i _ _ h1).1 (hold k' _ _ h2).1
    · exact since i v hv ⟨v, (hold i _ _ hv).1, fun h => h⟩
  | unlock y names data win =>
    have hT : fs'.get (lockTempFile root id) = fs.get (lockTempFile root id) := by
      rcases names with names | names
      · rw [lockTempFile_eq, names]
      · rw [lockTempFile_eq, names, if_neg]
        intro h
        exact temp_ne_lock root sha id y (by rw [lockTempFile_eq, h])
    refine ⟨fun j hj => ?_, fun i j d hw => ?_, fun i k v v' h1 h2 => ?_, fun i v hv => ?_⟩
    · have hj' : fs.get (lockFile root id) = some j := by
        rcases names with names | names
        · rwa [names] at hj
        · rw [names] at hj
          split at hj
          · cases hj
          · exact hj
      rw [data]
      obtain ⟨h1, h2⟩ := hp.full j hj'
      exact ⟨h1, fun i => by rw [win]; exact h2 i⟩
    · rw [win] at hw
      rw [hT]; exact hp.here i j d hw
    · rw [win] at h1 h2; exact hp.uniq i k v v' h1 h2
    · exact since i v hv ⟨v, by rw [← win]; exact hv, fun h => h⟩

end Verif
