import Verif.Lemmas.AmongMain
import Verif.Lemmas.Still
/-! Requests about one lock, served among other processes. -/
namespace Verif
open Spec

variable {cfg : Cfg} {mode : Mode} {V : View cfg.root cfg.sha}

/-! ### Undisturbed -/

theorem Spec.Execution.Disturbed.mono {ρ : Execution} {root : Path} {i a b c : Nat} {id : Bytes}
    (h : ρ.Disturbed root i a b id) (hbc : b ≤ c) : ρ.Disturbed root i a c id := by
  obtain ⟨n, h1, h2, h3⟩ := h
  exact ⟨n, h1, Nat.lt_of_lt_of_le h2 hbc, h3⟩

theorem Spec.LockExcuse.mono {ρ : Execution} {i a b c : Nat} {q : Request} {id : Bytes} (h : LockExcuse ρ i cfg a b q id)
    (hbc : b ≤ c) : LockExcuse ρ i cfg a c q id := h.imp_left (·.mono hbc)

/-- At the moments `m` and `n`, the files of the lock `id` are the same. -/
structure View.Agree (V : View cfg.root cfg.sha) (id : Bytes) (m n : Nat) : Prop where
  file : (V.fs n).get (lockFile cfg.root id) = (V.fs m).get (lockFile cfg.root id)
  temp : (V.fs n).get (lockTempFile cfg.root id) = (V.fs m).get (lockTempFile cfg.root id)
  lock : V.ρ.lockAt cfg.root n id = V.ρ.lockAt cfg.root m id

theorem View.Agree.refl (id : Bytes) (m : Nat) : V.Agree id m m := ⟨rfl, rfl, rfl⟩
theorem View.Agree.trans {id : Bytes} {l m n : Nat} (h : V.Agree id l m) (h' : V.Agree id m n) : V.Agree id l n :=
  ⟨h'.file.trans h.file, h'.temp.trans h.temp, h'.lock.trans h.lock⟩

theorem View.agree_until {id : Bytes} {a m n : Nat} (hd : ¬ V.ρ.Disturbed cfg.root V.i a n id) (ha : a ≤ m)
    (hu : V.ρ.Until V.i m n) : V.Agree id m n := by
  obtain ⟨k, rfl⟩ : ∃ k, n = m + k := ⟨n - m, by have := hu.le; omega⟩
  induction k with
  | zero => exact .refl _ _
  | succ k ih =>
    refine (ih (fun h => hd (h.mono (by omega))) ⟨by omega, fun j h1 h2 => hu.idle j h1 (by omega)⟩).trans ?_
    have hk : V.ρ.Keeps cfg.root (m + k) id := by
      refine Classical.byContradiction fun h => hd ⟨m + k, by omega, by omega, hu.idle _ (by omega) (by omega), h⟩
    exact ⟨hk.file, hk.temp, hk.lock⟩

theorem View.Call.agree_mild {id : Bytes} {g : Gh} {o : Op} {x : Resp o} {n : Nat} (h : V.Call g o x n)
    (ho : o.mild = true) : V.Agree id n (n + 1) := ⟨(h.mild ho id).1, (h.mild ho _).1, (h.mild ho id).2⟩

theorem Spec.Recorded.agree {id : Bytes} {m n : Nat} {o : Option Lock} (hr : Recorded V.ρ cfg m id o)
    (h : V.ρ.lockAt cfg.root n id = V.ρ.lockAt cfg.root m id) : Recorded V.ρ cfg n id o := by
  cases o with
  | none => exact h.trans hr
  | some l => exact ⟨h.trans hr.1, hr.2⟩

/-! ### Facts that need no conditions -/

theorem amid_le {α : Type} (m : M α) (r : Rdr) (g : Gh) : m.amid V r g (fun _ _ g' => g.now ≤ g'.now) := by
  unfold M.amid M.wp
  generalize m r = p
  induction p generalizing g with
  | ret => exact Nat.le_refl _
  | call o k ih =>
    refine ⟨trivial, fun x hx => Prog.wp_mono (ih x _) fun _ _ h => ?_⟩
    exact Nat.le_trans hx.1.le (Nat.le_trans (Nat.le_succ _) h)

/-- Once another process has interfered, nothing is left to show. -/
theorem amid_excuse {α : Type} {id : Bytes} {a : Nat} {m : M α} {r : Rdr} {g : Gh} {Q : Res α → Rdr → Gh → Prop}
    (hQ : ∀ x r g, V.ρ.Disturbed cfg.root V.i a g.now id → Q x r g) (hd : V.ρ.Disturbed cfg.root V.i a g.now id) :
    m.amid V r g Q := amid_mono (amid_le m r g) fun x r' g' h => hQ x r' g' (hd.mono h)

theorem amid_op_calm {α : Type} {id : Bytes} {a : Nat} {o : Op} {f : Resp o → M α} {r : Rdr} {g : Gh} {Q}
    (hQ : ∀ x r g, V.ρ.Disturbed cfg.root V.i a g.now id → Q x r g)
    (k : ∀ x n, V.Call g o x n → ¬ V.ρ.Disturbed cfg.root V.i a n id → (f x).amid V r ⟨n + 1, g.own.upd o x⟩ Q) :
    (M.op o >>= f).amid V r g Q := by
  refine amid_op_bind fun x n h => ?_
  by_cases hd : V.ρ.Disturbed cfg.root V.i a n id
  · exact amid_excuse hQ (hd.mono (Nat.le_succ n))
  · exact k x n h hd

theorem amid_bind_calm {α β : Type} {id : Bytes} {a : Nat} {m : M α} {f : α → M β} {r : Rdr} {g : Gh} {Q}
    {P : Res α → Rdr → Gh → Prop} (hQ : ∀ x r g, V.ρ.Disturbed cfg.root V.i a g.now id → Q x r g)
    (h : m.amid V r g (fun x r g => V.ρ.Disturbed cfg.root V.i a g.now id ∨ P x r g))
    (k : ∀ x r' g', P x r' g' → x.elim (fun a => (f a).amid V r' g' Q)
      (fun e => Q (.err e) r' g') (Q .panic r' g')) : (m >>= f).amid V r g Q := by
  refine amid_bind h fun x r' g' h' => ?_
  rcases h' with h' | h'
  · cases x with
    | ok a => exact amid_excuse hQ h'
    | err e => exact hQ _ _ _ h'
    | panic => exact hQ _ _ _ h'
  · exact k x r' g' h'

/-! ### Reading a lock -/

theorem View.locksDir (V : View cfg.root cfg.sha) {a n : Nat} (hd : Ready cfg (V.fs a)) (h : a ≤ n) :
    (V.fs n).isDir (Verif.locksDir cfg.root) = true := (View.ready_le hd h).locksDir

theorem View.lock_notDir (V : View cfg.root cfg.sha) (hl : NoLockDirs cfg.root (V.fs 0)) (n : Nat) (id : Bytes) :
    (V.fs n).isDir (lockFile cfg.root id) = false := by
  rw [Bool.eq_false_iff, Ne, isDir_iff]
  rintro (e | e)
  · simp [lockFile] at e
  · exact V.env.lockDirs hl n id e

theorem amid_lockFromId {id : Bytes} {a : Nat} {r : Rdr} {g : Gh} {o : Option Lock} (hid : IsOid id)
    (hl : NoLockDirs cfg.root (V.fs 0)) (hd : Ready cfg (V.fs g.now)) (ha : a ≤ g.now)
    (ho : Recorded V.ρ cfg g.now id o) :
    (lockFromId cfg id).amid V r g (fun x r' g' => V.ρ.Disturbed cfg.root V.i a g'.now id ∨
      (r' = r ∧ x = .ok (o.map (lockInfo cfg)) ∧ V.Span g.now g'.now [] ∧ V.Agree id g.now g'.now ∧
        ∃ n, g.now ≤ n ∧ n < g'.now ∧ V.ρ.By V.i n ∧ V.Agree id g.now n ∧ V.Agree id n (n + 1))) := by
  unfold lockFromId
  refine amid_op_calm (fun _ _ _ h => .inl h) fun x n h hc => ?_
  have hag := View.agree_until hc ha h.unt
  have hag1 : V.Agree id n (n + 1) := h.agree_mild rfl
  have hsp := h.span rfl
  obtain ⟨c, hcf, hs⟩ := h.sem rfl
  have hx := congrArg Prod.snd hs
  simp only [Verif.sem, hcf, resolve_id (V.locksDir hd h.unt.le) hid] at hx
  cases o with
  | none =>
    have hn : (V.fs n).get (lockFile cfg.root id) = none := by
      have := hag.lock.trans ho
      simpa [Execution.lockAt, held] using this
    simp only [hn, V.lock_notDir hl, Bool.false_eq_true, if_false] at hx
    subst hx
    exact .inr ⟨rfl, rfl, hsp, hag.trans hag1, n, h.unt.le, Nat.lt_succ_self n, h.made.by, hag, hag1⟩
  | some l =>
    have hr := hag.lock.trans ho.1
    obtain ⟨j, hj, hdat⟩ : ∃ j, (V.fs n).get (lockFile cfg.root id) = some j ∧
        (((V.fs n).inodes j).data, ((V.fs n).inodes j).uid) = (lockText l, l.uid) := by
      simpa [Execution.lockAt, held] using hr
    have same : ∀ {m : Nat}, V.Agree id n m → (V.fs m).get (lockFile cfg.root id) = some j ∧
        ((V.fs m).inodes j).data = lockText l ∧ ((V.fs m).inodes j).uid = l.uid := by
      intro m hm
      have h1 := hm.file.trans hj
      have h2 := hm.lock.trans hr
      simp only [Execution.lockAt, held, show (V.ρ.st m).fs.get _ = _ from h1, Option.map_some, Option.some.injEq,
        Prod.mk.injEq] at h2
      exact ⟨h1, h2⟩
    simp only [hj] at hx
    subst hx
    simp only
    have ha1 : a ≤ n + 1 := Nat.le_trans ha (Nat.le_succ_of_le h.unt.le)
    refine amid_op_calm (fun _ _ _ h => .inl h) fun x n2 h2 hc2 => ?_
    have hag2 := hag1.trans (View.agree_until hc2 ha1 h2.unt)
    have hag3 : V.Agree id n2 (n2 + 1) := h2.agree_mild rfl
    obtain ⟨c2, hcf2, hs2⟩ := h2.sem rfl
    have hx2 := congrArg Prod.snd hs2
    simp only [Verif.sem, hcf2, (same hag2).2.1] at hx2
    subst hx2
    simp only
    unfold userForFile
    have ha2 : a ≤ n2 + 1 := Nat.le_trans ha1 (Nat.le_succ_of_le h2.unt.le)
    refine amid_bind_calm (fun _ _ _ h => .inl h) (P := fun x r' g' => x = .ok (ownerName cfg l.uid) ∧ r' = r ∧
      V.Agree id n g'.now ∧ V.Span (n2 + 1) g'.now []) ?_ ?_
    · refine amid_op_calm (fun _ _ _ h => .inl h) fun x n3 h3 hc3 => ?_
      have hag4 := (hag2.trans hag3).trans (View.agree_until hc3 ha2 h3.unt)
      have hag5 : V.Agree id n3 (n3 + 1) := h3.agree_mild rfl
      obtain ⟨c3, hcf3, hs3⟩ := h3.sem rfl
      have hx3 := congrArg Prod.snd hs3
      obtain ⟨k1, k2, k3⟩ := same hag4
      have hd3 : g.now ≤ n3 := Nat.le_trans h.unt.le (Nat.le_trans (Nat.le_succ _) (Nat.le_trans h2.unt.le
        (Nat.le_trans (Nat.le_succ _) h3.unt.le)))
      simp only [Verif.sem, hcf3, resolve_id (V.locksDir hd hd3) hid, k1, k2, k3] at hx3
      subst hx3
      refine .inr ⟨by simp only [userName_eq], rfl, hag4.trans hag5, h3.span rfl⟩
    · rintro x r' g' ⟨rfl, rfl, h4, h5⟩
      simp only [Res.elim_ok, cutChunks_flatten, parse_lockText ho.2.2]
      refine .inr ⟨rfl, rfl, (hsp.trans0 (h2.span rfl)).trans0 h5, hag.trans h4, n, h.unt.le, ?_, h.made.by, hag, hag1⟩
      have := h5.le
      have := h2.unt.le
      simp only at this
      omega

theorem amid_lockFromPath {path : Bytes} {a : Nat} {r : Rdr} {g : Gh} {o : Option Lock}
    (hsha : ∀ b, (cfg.sha b).length = 32)
    (hl : NoLockDirs cfg.root (V.fs 0)) (hd : Ready cfg (V.fs g.now)) (ha : a ≤ g.now)
    (ho : Recorded V.ρ cfg g.now (lockName cfg.sha path) o) :
    (lockFromPath cfg path).amid V r g (fun x r' g' =>
      V.ρ.Disturbed cfg.root V.i a g'.now (lockName cfg.sha path) ∨
      (r' = r ∧ (x = match o with
        | none => .ok none
        | some l => if l.path = path then .ok (some (lockInfo cfg l)) else .err clashErr) ∧
        V.Span g.now g'.now [] ∧ V.Agree (lockName cfg.sha path) g.now g'.now ∧
        ∃ n, g.now ≤ n ∧ n < g'.now ∧ V.ρ.By V.i n ∧ V.Agree (lockName cfg.sha path) g.now n ∧
          V.Agree (lockName cfg.sha path) n (n + 1))) := by
  unfold lockFromPath
  rw [lockId_eq]
  refine amid_bind_calm (fun _ _ _ h => .inl h) (amid_lockFromId (isOid_lockName hsha path) hl hd ha ho) ?_
  rintro x r' g' ⟨rfl, rfl, h3⟩
  simp only [Res.elim_ok]
  cases o with
  | none => exact .inr ⟨rfl, rfl, h3⟩
  | some l =>
    by_cases h : l.path = path
    · simp only [Option.map_some, lockInfo, h, ne_eq, not_true_eq_false, if_false, if_true]
      exact .inr ⟨rfl, rfl, h3⟩
    · simp only [Option.map_some, lockInfo, h, ne_eq, not_false_eq_true, if_false, if_true]
      exact .inr ⟨rfl, rfl, h3⟩

/-! ### Creating a lock -/

theorem Moves.next {root : Path} {sha : Bytes → Bytes} {s s' : Sys} {ow ow' : Nat → Own}
    {l : Option (Nat × Event)} (hm : Moves root sha s ow l s' ow') : s.fs.next ≤ s'.fs.next := by
  cases hm with
  | call cfg i o k c hp h1 h2 hm => exact sem_next _ _ _
  | writeSome cfg i ino b n k => exact sem_next Choice.none s.fs (.write ino (b.take n))
  | mkdirSome => exact sem_next _ _ _
  | kill => exact Nat.le_refl _
  | elsewhere fs' he => exact he.next

theorem View.next_le (V : View cfg.root cfg.sha) {m n : Nat} (h : m ≤ n) : (V.fs m).next ≤ (V.fs n).next := by
  induction h with
  | refl => exact Nat.le_refl _
  | @step k _ ih =>
    refine Nat.le_trans ih ?_
    rcases V.env.move k with h | ⟨h, _⟩
    · exact h.next
    · exact Nat.le_of_eq (congrArg (fun s : Sys => s.fs.next) h.symm)

/-- The file `j` exists and belongs to this repository. -/
def View.Ours (V : View cfg.root cfg.sha) (n : Nat) (j : Ino) : Prop :=
  j < (V.fs n).next ∧ near cfg.root ((V.fs n).inodes j).born = true

theorem View.ours_of_name {V : View cfg.root cfg.sha} {n : Nat} {j : Ino} {id : Bytes}
    (h : (V.fs n).get (lockFile cfg.root id) = some j) : V.Ours n j :=
  ⟨(V.env.inv n).bound _ _ h, (V.env.inv n).home _ _ (near_lockFile _ _) h⟩

theorem View.ours_le (V : View cfg.root cfg.sha) {m n : Nat} (h : m ≤ n) {j : Ino} (hj : V.Ours m j) :
    V.Ours n j ∧ ((V.fs n).inodes j).uid = ((V.fs m).inodes j).uid := by
  induction h with
  | refl => exact ⟨hj, rfl⟩
  | @step k hk ih =>
    obtain ⟨h1, h2⟩ := V.env.uids k j ih.1.1 ih.1.2
    exact ⟨⟨Nat.lt_of_lt_of_le ih.1.1 (V.next_le (Nat.le_succ k)), (congrArg (near cfg.root) h2).trans ih.1.2⟩,
      h1.trans ih.2⟩

theorem View.uid_le (V : View cfg.root cfg.sha) {m n : Nat} (h : m ≤ n) {j : Ino} (hj : V.Ours m j) :
    ((V.fs n).inodes j).uid = ((V.fs m).inodes j).uid := (V.ours_le h hj).2

theorem View.lock_none_iff (V : View cfg.root cfg.sha) {n : Nat} {id : Bytes} :
    V.ρ.lockAt cfg.root n id = none ↔ (V.fs n).get (lockFile cfg.root id) = none := by
  simp [Execution.lockAt, held]

theorem oid_ne_temp {id id' : Bytes} (h : IsOid id) (h' : IsOid id') :
    lockFile cfg.root id' ≠ lockTempFile cfg.root id := by
  rw [lockTempFile_eq]
  intro e
  have := congrArg List.length (lockFile_inj e)
  rw [h'.1, List.length_append, h.1] at this
  simp at this

/-- At the moments `m` and `n`, the lock file `id` is the same. -/
structure View.Same (V : View cfg.root cfg.sha) (id : Bytes) (m n : Nat) : Prop where
  file : (V.fs n).get (lockFile cfg.root id) = (V.fs m).get (lockFile cfg.root id)
  lock : V.ρ.lockAt cfg.root n id = V.ρ.lockAt cfg.root m id

theorem View.Agree.same {id : Bytes} {m n : Nat} (h : V.Agree id m n) : V.Same id m n := ⟨h.file, h.lock⟩
theorem View.Same.trans {id : Bytes} {l m n : Nat} (h : V.Same id l m) (h' : V.Same id m n) : V.Same id l n :=
  ⟨h'.file.trans h.file, h'.lock.trans h.lock⟩

theorem amid_timestamp {a : Nat} {r : Rdr} {g : Gh} (ha : a ≤ g.now) :
    (timestamp cfg).amid V r g (fun x r' g' => r' = r ∧ g'.own = g.own ∧ V.Span g.now g'.now [] ∧
      (∀ id, ¬ V.ρ.Disturbed cfg.root V.i a g'.now id → V.Agree id g.now g'.now) ∧
      ∃ t, x = .ok t ∧ V.ρ.ClockIn V.i cfg g.now g'.now t) := by
  unfold timestamp
  split
  · rename_i t ht
    exact ⟨rfl, rfl, .refl _, fun _ _ => .refl _ _, t, rfl, .inl ht⟩
  · rename_i ht
    refine amid_op fun x n h => ?_
    refine ⟨rfl, Own.upd_of_quiet _ rfl, h.span rfl, fun id hd => ?_, x, rfl,
      .inr ⟨ht, n, h.unt.le, Nat.lt_succ_self n, (h.made.lab rfl).1⟩⟩
    exact (View.agree_until (fun h' => hd (h'.mono (Nat.le_succ n))) ha h.unt).trans (h.agree_mild rfl)

/-- Removing a temporary lock file changes no lock. -/
theorem call_unlink_temp {id : Bytes} {g : Gh} {n : Nat} {x : Resp (.unlink (lockTempFile cfg.root id))}
    (hid : IsOid id) (h : V.Call g _ x n) {id' : Bytes} (hid' : IsOid id') : V.Same id' n (n + 1) := by
  obtain ⟨c, hc, hs⟩ := h.sem rfl
  have hf := congrArg Prod.fst hs
  simp only [Verif.sem, hc] at hf
  have hget : (V.fs (n + 1)).get (lockFile cfg.root id') = (V.fs n).get (lockFile cfg.root id') := by
    rw [← hf]
    split
    · rw [FS.get_delName, if_neg (oid_ne_temp hid hid')]
    · split <;> rfl
  refine ⟨hget, View.lockAt_eq hget fun j _ => ?_⟩
  rw [← hf]
  split
  · rfl
  · split <;> rfl

/-- Creating the temporary file of a lock. -/
theorem call_createNew {id : Bytes} {g : Gh} {n : Nat} {x : Resp (.createNew (lockTempFile cfg.root id) cfg.uid)}
    (hid : IsOid id) (hl : NoLockDirs cfg.root (V.fs 0)) (hd : Ready cfg (V.fs g.now))
    (hn : (V.fs n).get (lockTempFile cfg.root id) = none) (h : V.Call g _ x n) :
    x = .ok (V.fs n).next ∧ (V.fs (n + 1)).get (lockTempFile cfg.root id) = some (V.fs n).next ∧
    ((V.fs (n + 1)).inodes (V.fs n).next).uid = cfg.uid ∧ V.Ours (n + 1) (V.fs n).next ∧
    ∀ id', IsOid id' → V.Same id' n (n + 1) := by
  obtain ⟨c, hc, hs⟩ := h.sem rfl
  have hnd : (V.fs n).isDir (lockTempFile cfg.root id) = false := V.lock_notDir hl n _
  have hld : (V.fs n).isDir (lockTempFile cfg.root id).dropLast = true := by
    rw [lockTempFile_eq, lockFile_dropLast]; exact V.locksDir hd h.unt.le
  simp only [Verif.sem, hc, hn, hnd, hld, Option.isSome_none, Bool.or_self, Bool.false_eq_true, if_false, if_true] at hs
  have hx := congrArg Prod.snd hs
  have hf : (V.fs n).create (lockTempFile cfg.root id) cfg.uid 0o644 = V.fs (n + 1) := congrArg Prod.fst hs
  refine ⟨hx.symm, ?_, ?_, ?_, fun id' hid' => ?_⟩
  · rw [← hf, FS.get_create, if_pos rfl]
  · rw [← hf]; simp [FS.create]
  · refine View.ours_of_name (id := id ++ b!".lock") ?_
    rw [← lockTempFile_eq, ← hf, FS.get_create, if_pos rfl]
  · have hget : (V.fs (n + 1)).get (lockFile cfg.root id') = (V.fs n).get (lockFile cfg.root id') := by
      rw [← hf, FS.get_create, if_neg (oid_ne_temp hid hid')]
    refine ⟨hget, View.lockAt_eq hget fun j hj => ?_⟩
    have := Nat.ne_of_lt ((V.env.inv n).bound _ _ hj)
    rw [← hf]; simp [FS.create, this]

/-- Writing to the temporary file of a lock. -/
theorem call_write_temp {id : Bytes} {g : Gh} {n j : Nat} {b d : Bytes} (hid : IsOid id)
    (hw : g.own.win = some (lockTempFile cfg.root id, some (j, some d)))
    (hne : (V.fs n).get (lockFile cfg.root id) ≠ some j) (h : V.Call g (.write j b) (.ok ()) n) :
    (∀ p, (V.fs (n + 1)).get p = (V.fs n).get p) ∧ ∀ id', IsOid id' → V.Same id' n (n + 1) := by
  obtain ⟨b', hb⟩ := h.wrote
  have hget : ∀ p, (V.fs (n + 1)).get p = (V.fs n).get p := fun p => by rw [hb]; rfl
  refine ⟨hget, fun id' hid' => ⟨hget _, View.lockAt_eq (hget _) fun k hk => ?_⟩⟩
  rw [hb, FS.data_append, if_neg, List.append_nil]
  rintro rfl
  have hwin : (V.ow (n + 1) V.i).win = some (lockTempFile cfg.root id, some (k, some (d ++ b))) := by
    rw [h.own]; simp [winUpd, winWrote, hw]
  obtain ⟨x, h1, h2⟩ := (V.env.nm (n + 1)).nm V.i _ _ _ hwin id' ((hget _).trans hk)
  rw [lockTempFile_eq, lockTempFile_eq] at h1
  have he : id = lockName cfg.sha x := List.append_cancel_right (lockFile_inj h1)
  rw [← he] at h2
  rcases h2 with rfl | rfl
  · exact hne hk
  · have := hid'.1
    rw [List.length_append, hid.1] at this
    simp at this

/-- Linking the temporary file of a lock to its final name. -/
theorem call_link {id : Bytes} {g : Gh} {n j : Nat} {d : Bytes}
    {x : Resp (.link (lockTempFile cfg.root id) (lockFile cfg.root id))}
    (hl : NoLockDirs cfg.root (V.fs 0)) (hd : Ready cfg (V.fs g.now))
    (hw : g.own.win = some (lockTempFile cfg.root id, some (j, some d)))
    (ht : (V.fs n).get (lockTempFile cfg.root id) = some j) (h : V.Call g _ x n) :
    match (V.fs n).get (lockFile cfg.root id) with
    | none => x = .ok () ∧ (V.fs (n + 1)).get (lockFile cfg.root id) = some j ∧
        V.ρ.lockAt cfg.root (n + 1) id = some (d, ((V.fs n).inodes j).uid) ∧
        ∀ id', id' ≠ id → V.Same id' n (n + 1)
    | some _ => x = .error eexist ∧ ∀ id', V.Same id' n (n + 1) := by
  obtain ⟨c, hc, hs⟩ := h.sem rfl
  have hdat : ((V.fs n).inodes j).data = d :=
    ((V.env.lk n).win V.i _ _ _ ((h.made.lab rfl).2 ▸ hw)).2 d rfl
  cases hg : (V.fs n).get (lockFile cfg.root id) with
  | none =>
    simp only
    simp only [Verif.sem, hc, ht, hg, V.lock_notDir hl n id, lockFile_dropLast, V.locksDir hd h.unt.le,
      Option.isSome_none, Bool.or_self, Bool.false_eq_true, if_false, Bool.not_true] at hs
    have hx := congrArg Prod.snd hs
    have hf : (V.fs n).setName (lockFile cfg.root id) j = V.fs (n + 1) := congrArg Prod.fst hs
    have hgj : (V.fs (n + 1)).get (lockFile cfg.root id) = some j := by rw [← hf, FS.get_setName, if_pos rfl]
    refine ⟨hx.symm, hgj, ?_, fun id' hne => ?_⟩
    · unfold Execution.lockAt held
      rw [show (V.ρ.st (n + 1)).fs.get _ = _ from hgj, show (V.ρ.st (n + 1)).fs = V.fs (n + 1) from rfl, ← hf]
      simp only [Option.map_some, Option.some.injEq, Prod.mk.injEq]
      exact ⟨hdat, rfl⟩
    · have hget : (V.fs (n + 1)).get (lockFile cfg.root id') = (V.fs n).get (lockFile cfg.root id') := by
        rw [← hf, FS.get_setName, if_neg fun e => hne (lockFile_inj e)]
      exact ⟨hget, View.lockAt_eq hget fun _ _ => by rw [← hf]; rfl⟩
  | some k =>
    simp only
    simp only [Verif.sem, hc, ht, hg, Option.isSome_some, Bool.true_or, if_true] at hs
    have hx := congrArg Prod.snd hs
    have hf : V.fs n = V.fs (n + 1) := congrArg Prod.fst hs
    exact ⟨hx.symm, fun id' => ⟨by rw [← hf], View.lockAt_eq (by rw [← hf]) fun _ _ => by rw [← hf]⟩⟩


theorem Spec.Execution.ClockIn.mono {ρ : Execution} {i a b a' b' : Nat} {t : Int} (h : ρ.ClockIn i cfg a b t)
    (ha : a' ≤ a) (hb : b ≤ b') : ρ.ClockIn i cfg a' b' t := by
  rcases h with h | ⟨h, n, h1, h2, h3⟩
  · exact .inl h
  · exact .inr ⟨h, n, Nat.le_trans ha h1, Nat.lt_of_lt_of_le h2 hb, h3⟩

/-- Writing the record and linking it. -/
theorem amid_persist {id d : Bytes} {a : Nat} {r : Rdr} {g : Gh} (hid : IsOid id)
    (hl : NoLockDirs cfg.root (V.fs 0)) (hd : Ready cfg (V.fs g.now)) (ha : a ≤ g.now)
    (ht : (V.fs g.now).get (lockTempFile cfg.root id) = none) :
    M.amid V (do lockWrite cfg (lockTempFile cfg.root id) d
                 lockPersist (lockTempFile cfg.root id) (lockFile cfg.root id)) r g (fun x r' g' =>
      V.ρ.Disturbed cfg.root V.i a g'.now id ∨ (r' = r ∧ V.ρ.Leaves cfg.root V.i g.now g'.now none ∧
        ∃ n, g'.now = n + 1 ∧ g.now ≤ n ∧ V.ρ.By V.i n ∧ V.ρ.LeavesLocks cfg.root V.i g.now g'.now (some (n, id)) ∧
          V.Same id g.now n ∧
          match (V.fs g.now).get (lockFile cfg.root id) with
          | none => x = .ok () ∧ ∃ j, (V.fs (n + 1)).get (lockFile cfg.root id) = some j ∧
              ((V.fs (n + 1)).inodes j).uid = cfg.uid ∧
              V.ρ.lockAt cfg.root (n + 1) id = some (d, cfg.uid)
          | some _ => x = .err (Err.simple .conflict) ∧ V.Same id n (n + 1))) := by
  refine amid_bind_calm (fun _ _ _ h => .inl h) (P := fun x r' g' => r' = r ∧ x = .ok () ∧
      V.Span g.now g'.now [] ∧ V.Same id g.now g'.now ∧
      ∃ j, g'.own.win = some (lockTempFile cfg.root id, some (j, some d)) ∧
        (V.fs g'.now).get (lockTempFile cfg.root id) = some j ∧ ((V.fs g'.now).inodes j).uid = cfg.uid ∧
        V.Ours g'.now j) ?_ ?_
  · unfold lockWrite
    refine amid_op_calm (fun _ _ _ h => .inl h) fun x n h hc => ?_
    have hag := View.agree_until hc ha h.unt
    obtain ⟨rfl, k1, k2, k3, k4⟩ := call_createNew hid hl hd (hag.temp.trans ht) h
    have ha1 : a ≤ n + 1 := Nat.le_trans ha (Nat.le_succ_of_le h.unt.le)
    refine amid_op_calm (fun _ _ _ h => .inl h) fun x n2 h2 hc2 => ?_
    have hx := h2.write_ok
    subst hx
    have hag2 := View.agree_until hc2 ha1 h2.unt
    have hsame := (hag.same.trans (k4 id hid)).trans hag2.same
    have hne : (V.fs n2).get (lockFile cfg.root id) ≠ some (V.fs n).next := by
      rw [hsame.file, ← hag.file]
      exact fun e => Nat.lt_irrefl _ ((V.env.inv n).bound _ _ e)
    obtain ⟨k5, k6⟩ := call_write_temp (d := []) hid rfl hne h2
    have hle : n + 1 ≤ n2 := h2.unt.le
    refine .inr ⟨rfl, rfl, ?_, hsame.trans (k6 id hid), (V.fs n).next, ?_, ?_, ?_, ?_⟩
    · exact (h.span_of rfl fun id' h' => (k4 id' h').lock).trans0 (h2.span_of rfl fun id' h' => (k6 id' h').lock)
    · simp [winUpd, winWrote]
    · exact (k5 _).trans (hag2.temp.trans k1)
    · exact (V.uid_le (Nat.le_succ_of_le hle) k3).trans k2
    · exact (V.ours_le (Nat.le_succ_of_le hle) k3).1
  · rintro x r1 g1 ⟨rfl, rfl, h3, h4, j, h5, h6, h7, h8⟩
    simp only [Res.elim_ok]
    unfold lockPersist
    refine amid_op_calm (fun _ _ _ h => .inl h) fun x n h hc => ?_
    have hag := View.agree_until hc (Nat.le_trans ha h3.le) h.unt
    have hk := call_link hl (View.ready_le hd h3.le) h5 (hag.temp.trans h6) h
    have hsame := h4.trans hag.same
    rw [hsame.file] at hk
    have hu : ((V.fs n).inodes j).uid = cfg.uid := (V.uid_le h.unt.le h8).trans h7
    have hun : ((V.fs (n + 1)).inodes j).uid = cfg.uid := (V.uid_le (Nat.le_succ_of_le h.unt.le) h8).trans h7
    have hlv := h3.leaves.trans (h.leaves_keeps rfl)
    have hle : g.now ≤ n := Nat.le_trans h3.le h.unt.le
    cases hg : (V.fs g.now).get (lockFile cfg.root id) with
    | none =>
      rw [hg] at hk
      obtain ⟨rfl, k1, k2, k3⟩ := hk
      refine .inr ⟨rfl, hlv, n, rfl, hle, h.made.by, ?_, hsame, rfl, j, k1, hun, by rw [k2, hu]⟩
      exact h3.locks.weaken.trans (h.leavesLocks fun id' _ hne => (k3 id' fun e => hne (by rw [e])).lock)
    | some k =>
      rw [hg] at hk
      obtain ⟨rfl, k1⟩ := hk
      refine .inr ⟨rfl, hlv, n, rfl, hle, h.made.by, ?_, hsame, rfl, k1 id⟩
      exact h3.locks.weaken.trans (h.leavesLocks fun id' _ _ => (k1 id').lock)

theorem amid_lockCreate {path : Bytes} {a : Nat} {r : Rdr} {g : Gh} {o : Option Lock}
    (hsha : ∀ b, (cfg.sha b).length = 32)
    (hl : NoLockDirs cfg.root (V.fs 0)) (hd : Ready cfg (V.fs g.now)) (ha : a ≤ g.now)
    (ht : (V.fs g.now).get (lockTempFile cfg.root (lockName cfg.sha path)) = none)
    (ho : Recorded V.ρ cfg g.now (lockName cfg.sha path) o) :
    (lockCreate cfg path).amid V r g (fun x r' g' =>
      V.ρ.Disturbed cfg.root V.i a g'.now (lockName cfg.sha path) ∨
      (r' = r ∧ V.ρ.Leaves cfg.root V.i g.now g'.now none ∧
        ∃ n t, g.now ≤ n ∧ n < g'.now ∧ V.ρ.By V.i n ∧ V.ρ.ClockIn V.i cfg g.now n t ∧
          V.ρ.LeavesLocks cfg.root V.i g.now g'.now (some (n, lockName cfg.sha path)) ∧
          V.Same (lockName cfg.sha path) g.now n ∧
          match (generalizing := false) o with
          | none => V.ρ.lockAt cfg.root (n + 1) (lockName cfg.sha path) = some (lockText ⟨path, t, cfg.uid⟩, cfg.uid) ∧
              ∃ t', V.ρ.ClockIn V.i cfg g.now g'.now t' ∧ x = .ok (lockInfo cfg ⟨path, t', cfg.uid⟩)
          | some _ => V.Same (lockName cfg.sha path) n (n + 1) ∧ V.Same (lockName cfg.sha path) g.now g'.now ∧
              x = .err (Err.simple .conflict))) := by
  unfold lockCreate
  rw [lockTemp_file, lockPath_eq]
  have hid := isOid_lockName hsha path
  generalize lockName cfg.sha path = id at *
  refine amid_bind (amid_timestamp ha) ?_
  rintro x r1 g1 ⟨rfl, e1, h1, h2, t, rfl, hclk⟩
  simp only [Res.elim_ok]
  by_cases hc1 : V.ρ.Disturbed cfg.root V.i a g1.now id
  · exact amid_excuse (fun _ _ _ h => .inl h) hc1
  have hag1 := h2 id hc1
  have ha1 : a ≤ g1.now := Nat.le_trans ha h1.le
  rw [lockRecord_eq ⟨path, t, cfg.uid⟩]
  have hfile : (V.fs g1.now).get (lockFile cfg.root id) = none ↔ o = none := by
    rw [← V.lock_none_iff, hag1.lock]
    cases o with
    | none => exact ⟨fun _ => rfl, fun _ => ho⟩
    | some l => simp [ho.1]
  refine amid_bind_calm (fun _ _ _ h => .inl h) (P := fun x r' g' => r' = r1 ∧
      V.ρ.Leaves cfg.root V.i g1.now g'.now none ∧ ∃ n, n < g'.now ∧ g1.now ≤ n ∧ V.ρ.By V.i n ∧
      V.ρ.LeavesLocks cfg.root V.i g1.now g'.now (some (n, id)) ∧ V.Same id g1.now n ∧ V.Same id (n + 1) g'.now ∧
      match (generalizing := false) o with
      | none => x = .ok () ∧ (∃ j, (V.fs (n + 1)).get (lockFile cfg.root id) = some j ∧
          ((V.fs (n + 1)).inodes j).uid = cfg.uid) ∧
          V.ρ.lockAt cfg.root (n + 1) id = some (lockText ⟨path, t, cfg.uid⟩, cfg.uid)
      | some _ => x = .err (Err.simple .conflict) ∧ V.Same id n (n + 1)) ?_ ?_
  · unfold M.amid
    rw [M.wp_after]
    refine M.wp_mono (amid_persist hid hl (View.ready_le hd h1.le) ha1 (hag1.temp.trans ht)) ?_
    intro x r2 g2 hx
    rcases hx with hx | ⟨rfl, k1, n, k2, k3, k4, k5, k6, k7⟩
    · exact amid_excuse (V := V) (fun _ _ _ h => .inl h) hx
    · unfold dropFile
      refine amid_op_calm (V := V) (fun _ _ _ h => .inl h) fun y m h hc => ?_
      have hag := View.agree_until hc (by omega) h.unt
      have hm := h.unt.le
      refine .inr ⟨rfl, k1.trans (h.leaves_keeps rfl), n, ?_, k3, k4, ?_, k6, ?_, ?_⟩
      · simp only; omega
      · exact k5.trans (h.leavesLocks fun id' h' _ => (call_unlink_temp hid h h').lock)
      · rw [← k2]
        exact hag.same.trans (call_unlink_temp hid h hid)
      · cases o with
        | none =>
          rw [hfile.mpr rfl] at k7
          obtain ⟨q1, j, q2, q3, q4⟩ := k7
          exact ⟨q1, ⟨j, q2, q3⟩, q4⟩
        | some l =>
          cases hg : (V.fs g1.now).get (lockFile cfg.root id) with
          | none => exact absurd (hfile.mp hg) (by simp)
          | some j => rw [hg] at k7; exact k7
  · rintro x r2 g2 ⟨rfl, k1, n, k2, k3, k4, k5, k6, k7, k8⟩
    have hlt : g.now ≤ n := Nat.le_trans h1.le k3
    have hs0 := hag1.same.trans k6
    cases o with
    | some l =>
      obtain ⟨rfl, k8⟩ := k8
      simp only [Res.elim_err]
      exact .inr ⟨trivial, h1.leaves.trans k1, n, t, hlt, k2, k4, hclk.mono (Nat.le_refl _) k3, h1.locks.weaken.trans k5,
        hs0, k8, (hs0.trans k8).trans k7, trivial⟩
    | none =>
      obtain ⟨rfl, ⟨j, q1, q2⟩, q3⟩ := k8
      simp only [Res.elim_ok]
      have ha2 : a ≤ g2.now := by omega
      refine amid_bind_calm (fun _ _ _ h => .inl h) (P := fun x r' g' => r' = r2 ∧ V.Span g2.now g'.now [] ∧
        x = .ok (ownerName cfg cfg.uid)) ?_ ?_
      · unfold userForFile
        refine amid_op_calm (fun _ _ _ h => .inl h) fun y m h hc => ?_
        have hag := View.agree_until hc ha2 h.unt
        obtain ⟨c, hcf, hs⟩ := h.sem rfl
        rw [sem_stat_exact hcf, (k7.trans hag.same).file.trans q1] at hs
        have hx := congrArg Prod.snd hs
        have hle := h.unt.le
        have hu : ((V.fs m).inodes j).uid = cfg.uid :=
          (V.uid_le (by omega) (View.ours_of_name q1)).trans q2
        simp only [hu] at hx
        subst hx
        exact .inr ⟨rfl, h.span rfl, by simp only [userName_eq]⟩
      · rintro x r3 g3 ⟨rfl, p1, rfl⟩
        simp only [Res.elim_ok]
        refine amid_bind (amid_timestamp (Nat.le_trans ha2 p1.le)) ?_
        rintro x r4 g4 ⟨rfl, _, p2, _, t', rfl, hclk'⟩
        simp only [Res.elim_ok]
        have := p1.le
        have := p2.le
        refine .inr ⟨rfl, ((h1.leaves.trans k1).trans p1.leaves).trans p2.leaves, n, t, hlt, ?_, k4,
          hclk.mono (Nat.le_refl _) k3, ((h1.locks.weaken.trans k5).trans p1.locks.weaken).trans p2.locks.weaken, hs0, q3,
          t', hclk'.mono ?_ (Nat.le_refl _), rfl⟩ <;> omega


/-! ### The commands -/

/-- What a handler of a request about the lock `id`, started at moment `a`, has found out: it is excused, or has the
answer. -/
def View.Found (V : View cfg.root cfg.sha) (mode : Mode) (q : Request) (id : Bytes) (a : Nat) (x : Res Status)
    (g : Gh) : Prop :=
  LockExcuse V.ρ V.i cfg a g.now q id ∨ ∃ st ans, outcome x = some st ∧ Answers V.ρ V.i cfg mode a g.now q ans ∧
    V.StatusFor st ans g.now

theorem View.Found.of_disturbed {q : Request} {id : Bytes} {a : Nat} {x : Res Status} {g : Gh}
    (h : V.ρ.Disturbed cfg.root V.i a g.now id) : V.Found mode q id a x g := .inl (.inl h)

/-- A handler has to be examined only if the lock file is a complete record, or absent. -/
theorem amid_found {q : Request} {id : Bytes} {m : M Status} {r : Rdr} {g : Gh}
    (h : ∀ o, Recorded V.ρ cfg g.now id o → m.amid V r g (fun x _ g' => V.Found mode q id g.now x g')) :
    m.amid V r g (fun x _ g' => V.Found mode q id g.now x g') := by
  by_cases ho : ∃ o, Recorded V.ρ cfg g.now id o
  · obtain ⟨o, ho⟩ := ho
    exact h o ho
  · exact amid_mono (amid_le m r g) fun _ _ _ _ => .inl (.inr (.inl fun o h => ho ⟨o, h⟩))

/-- A step that leaves the lock as it is. -/
theorem View.lockStep_same {q : Request} {id : Bytes} {a n : Nat} {o : Option Lock} {ans : Answer}
    (h1 : a ≤ n) (h2 : V.ρ.By V.i n) (h3 : Recorded V.ρ cfg n id o) (h4 : V.ρ.lockAt cfg.root (n + 1) id =
      V.ρ.lockAt cfg.root n id) (h5 : answer cfg mode ⟨fun _ => none, o.toList⟩ 0 0 q = (ans, ⟨fun _ => none, o.toList⟩)) :
    LockStep V.ρ V.i cfg mode a n q id 0 0 ans :=
  ⟨h1, h2, o, o, h3, h3.agree h4, h5, fun h h' => absurd h h'⟩

theorem find_single {o : Option Lock} {id : Bytes} (h : ∀ l, o = some l → lockName cfg.sha l.path = id) :
    Store.find cfg ⟨fun _ => none, o.toList⟩ id = o := by
  cases o with
  | none => rfl
  | some l => simp [Store.find, h l rfl]

theorem Spec.Recorded.find {ρ : Execution} {n : Nat} {o : Option Lock} {id : Bytes} (h : Recorded ρ cfg n id o) :
    Store.find cfg ⟨fun _ => none, o.toList⟩ id = o := by
  refine find_single fun l e => ?_
  subst e
  exact h.2.1

theorem amid_listPath {path : Bytes} {cursor : Option Bytes} {limit : Option Nat} {r : Rdr} {g : Gh}
    (hsha : ∀ b, (cfg.sha b).length = 32) (hl : NoLockDirs cfg.root (V.fs 0)) (hd : Ready cfg (V.fs g.now)) :
    (listLocksForPath cfg path cursor (mode = .upload)).amid V r g (fun x _ g' =>
      V.Found mode (.listLocks (some path) cursor limit) (lockName cfg.sha path) g.now x g') := by
  refine amid_found fun o ho => ?_
  unfold listLocksForPath
  refine amid_bind_calm (fun _ _ _ h => .of_disturbed h) (amid_lockFromPath hsha hl hd (Nat.le_refl _) ho) ?_
  rintro x r' g' ⟨rfl, rfl, h3, h4, n, h5, h6, h7, h8, h9⟩
  have fin : ∀ {y : Res Status} {st : Status} {ans : Answer}, outcome y = some st →
      (answer cfg mode ⟨fun _ => none, o.toList⟩ 0 0 (.listLocks (some path) cursor limit)).1 = ans →
      V.StatusFor st ans g'.now → V.Found mode (.listLocks (some path) cursor limit) (lockName cfg.sha path) g.now y g' := by
    intro y st ans e1 e2 e3
    refine .inr ⟨st, ans, e1, ⟨n, 0, 0, h6, View.lockStep_same h5 h7 (ho.agree h8.lock) h9.lock ?_, ?_, h3.locks.weaken,
      h3.leaves⟩, e3⟩
    · rw [← e2]
      refine Prod.ext rfl ?_
      simp only [answer]
      split
      · rfl
      · split
        · rfl
        · split <;> rfl
    · rw [← e2]
      simp only [answer]
      split
      · simp [notFound]
      · split
        · simp [clash, badRequest]
        · split <;> simp [notFound]
  have hf := ho.find
  cases o with
  | none =>
    simp only
    exact fin rfl (by simp only [answer, hf]) (.of (statusFor_notFound (V.fs 0)) (by simp [notFound]))
  | some l =>
    simp only
    by_cases hpp : l.path = path
    · rw [if_pos hpp]
      simp only [Res.elim_ok]
      have hid : lockId cfg (lockInfo cfg l).path = lockName cfg.sha path := by
        rw [lockId_eq]; exact congrArg _ hpp
      rw [hid]
      by_cases hcc : ∃ c ∈ cursor, lockName cfg.sha path < c
      · obtain ⟨c, hc', hlt⟩ := hcc
        have : cursor = some c := hc'
        subst this
        simp only [(bytesLt_iff _ _).mpr hlt, if_true]
        have hcc : ∃ c' ∈ some c, lockName cfg.sha path < c' := ⟨c, rfl, hlt⟩
        refine fin rfl ?_ (.of (statusFor_notFound (V.fs 0)) (by simp [notFound]))
        simp only [answer, hf, hpp, ne_eq, not_true_eq_false, if_false]
        rw [if_pos hcc]
      · rw [if_neg (by
          split
          · rw [bytesLt_iff]
            exact fun hlt => hcc ⟨_, rfl, hlt⟩
          · simp)]
        rw [lockSpec_eq ho.2.2]
        refine fin (st := Status.newSuccess (lockLines cfg mode l)) (ans := ⟨200, [], .lines (lockLines cfg mode l)⟩) rfl ?_
          ⟨⟨rfl, c200, rfl, by simp⟩, rfl, lockLines_ne _ _ _⟩
        simp only [answer, hf, hpp, ne_eq, not_true_eq_false, if_false]
        rw [if_neg hcc]
    · rw [if_neg hpp]
      simp only [Res.elim_err]
      refine fin rfl ?_ (.of (statusFor_clash (V.fs 0)) (by simp [clash, badRequest]))
      simp only [answer, hf, hpp, ne_eq, not_false_eq_true, if_true]

theorem amid_unlock {kv : List (Bytes × Bytes)} {u rest id : Bytes} {r : Rdr} {g : Gh} (hid : IsOid id)
    (hF : Frames (argPackets kv ++ [.flush]) u) (hi : r.input = u ++ rest)
    (hl : NoLockDirs cfg.root (V.fs 0)) (hd : Ready cfg (V.fs g.now)) :
    (unlockCmd cfg id).amid V r g (fun x _ g' => V.Found mode (.unlock id) id g.now x g') := by
  refine amid_found fun o ho => ?_
  unfold unlockCmd
  refine amid_rdr_bind (readToFlush_args hF hi) ?_
  simp only [oid_utf8 hid, Bool.not_true, Bool.false_eq_true, if_false]
  refine amid_bind_calm (fun _ _ _ h => .of_disturbed h) (amid_lockFromId hid hl hd (Nat.le_refl _) ho) ?_
  rintro x r' g' ⟨rfl, rfl, h3, h4, n, h5, h6, h7, h8, h9⟩
  simp only [Res.elim_ok]
  have hf := ho.find
  cases o with
  | none =>
    simp only [Option.map_none]
    refine .inr ⟨errStatus 404 b!"not found", notFound, rfl, ⟨n, 0, 0, h6,
      View.lockStep_same h5 h7 (ho.agree h8.lock) h9.lock ?_, by simp [notFound], h3.locks.weaken, h3.leaves⟩,
      .of (statusFor_notFound (V.fs 0)) (by simp [notFound])⟩
    simp only [answer, hf]
  | some l =>
    simp only [Option.map_some, lockArgs_eq ho.2.2]
    refine amid_pure_bind ?_
    have hpath : lockPath cfg (lockInfo cfg l).path = lockFile cfg.root id := by
      rw [lockPath_eq]; exact congrArg _ ho.2.1
    refine amid_bind_calm (fun _ _ _ h => .of_disturbed h) (P := fun x r2 g2 => x = .ok (.ok ()) ∧
      V.ρ.Leaves cfg.root V.i g'.now g2.now none ∧
      ∃ n, g'.now ≤ n ∧ n < g2.now ∧ V.ρ.By V.i n ∧ V.Agree id g'.now n ∧ V.ρ.lockAt cfg.root (n + 1) id = none ∧
        V.ρ.LeavesLocks cfg.root V.i g'.now g2.now (some (n, id))) ?_ ?_
    · unfold M.amid
      rw [M.wp_attempt]
      unfold lockUnlock
      rw [hpath]
      refine amid_op_calm (fun x _ _ h => by cases x <;> exact .inl h) fun x m h hc => ?_
      have hag := View.agree_until hc h3.le h.unt
      obtain ⟨c, hcf, hs⟩ := h.sem rfl
      obtain ⟨j, hj, _⟩ : ∃ j, (V.fs m).get (lockFile cfg.root id) = some j ∧
          (((V.fs m).inodes j).data, ((V.fs m).inodes j).uid) = (lockText l, l.uid) := by
        simpa [Execution.lockAt, held] using (h4.trans hag).lock.trans ho.1
      simp only [Verif.sem, hcf, hj, Option.isSome_some, if_true] at hs
      have hx := congrArg Prod.snd hs
      have hf : (V.fs m).delName (lockFile cfg.root id) = V.fs (m + 1) := congrArg Prod.fst hs
      subst hx
      refine .inr ⟨rfl, ?_, m, h.unt.le, Nat.lt_succ_self m, h.made.by, hag, ?_, ?_⟩
      · exact h.leaves_keeps rfl
      · unfold Execution.lockAt held
        rw [show (V.ρ.st (m + 1)).fs = V.fs (m + 1) from rfl, ← hf, FS.get_delName, if_pos rfl]; rfl
      · refine h.leavesLocks fun id' _ hne => ?_
        refine View.lockAt_eq ?_ fun j _ => by rw [← hf]; rfl
        rw [← hf, FS.get_delName, if_neg]
        intro e
        exact hne (by rw [lockFile_inj e])
    · rintro x r2 g2 ⟨rfl, k1, m, k2, k3, k4, k5, k6, k7⟩
      simp only [Res.elim_ok]
      have hrm := ho.agree (h4.trans k5).lock
      refine .inr ⟨Status.successWithCode 200 (lockFields cfg l), ⟨200, lockFields cfg l, .none⟩, rfl,
        ⟨m, 0, 0, k3, ⟨Nat.le_trans h3.le k2, k4, some l, none, hrm, k6, ?_, by simp⟩, by simp,
          h3.locks.weaken.trans k7, h3.leaves.trans k1⟩, ⟨rfl, c200, rfl, lockFields_ne _ _⟩, rfl, rfl⟩
      simp only [answer, hf]
      simp [ho.2.1]

theorem amid_lock {kv : List (Bytes × Bytes)} {u rest path ref : Bytes} {r : Rdr} {g : Gh}
    (hsha : ∀ b, (cfg.sha b).length = 32) (hclk : ∀ a b t, V.ρ.ClockIn V.i cfg a b t → TimeOk cfg t)
    (ha : ArgsOk kv) (hpa : lookup kv b!"path" = some path) (href : lookup kv b!"refname" = some ref)
    (hF : Frames (argPackets kv ++ [.flush]) u) (hi : r.input = u ++ rest)
    (hl : NoLockDirs cfg.root (V.fs 0)) (hd : Ready cfg (V.fs g.now)) :
    (lockCmd cfg).amid V r g (fun x _ g' => V.Found mode (.lock path) (lockName cfg.sha path) g.now x g') := by
  refine amid_found fun o ho => ?_
  by_cases ht : (V.fs g.now).get (lockTempFile cfg.root (lockName cfg.sha path)) = none
  swap
  · exact amid_mono (amid_le _ r g) fun _ _ _ _ => .inl (.inr (.inr ⟨⟨path, rfl⟩, ht⟩))
  obtain ⟨m, hm, hget⟩ := C09_args_exact kv ha
  unfold lockCmd
  refine amid_readToFlushParse (readToFlush_args hF hi) ?_
  refine amid_ofRes_bind hm ?_
  simp only [hget, hpa, href]
  unfold lockLoop
  have hf := ho.find
  refine amid_bind_calm (fun _ _ _ h => .of_disturbed h) (P := fun x r' g' =>
      V.ρ.Leaves cfg.root V.i g.now g'.now none ∧
        ∃ n t, g.now ≤ n ∧ n < g'.now ∧ V.ρ.By V.i n ∧ V.ρ.ClockIn V.i cfg g.now n t ∧
          V.ρ.LeavesLocks cfg.root V.i g.now g'.now (some (n, lockName cfg.sha path)) ∧
          V.Same (lockName cfg.sha path) g.now n ∧
          match (generalizing := false) o with
          | none => V.ρ.lockAt cfg.root (n + 1) (lockName cfg.sha path) = some (lockText ⟨path, t, cfg.uid⟩, cfg.uid) ∧
              ∃ t', V.ρ.ClockIn V.i cfg g.now g'.now t' ∧ x = .ok (.ok (lockInfo cfg ⟨path, t', cfg.uid⟩))
          | some _ => V.Same (lockName cfg.sha path) n (n + 1) ∧ V.Same (lockName cfg.sha path) g.now g'.now ∧
              x = .ok (.error (Err.simple .conflict))) ?_ ?_
  · unfold M.amid
    rw [M.wp_attempt]
    refine M.wp_mono (amid_lockCreate hsha hl hd (Nat.le_refl _) ht ho) ?_
    rintro x r' g' (h | ⟨_, h1, n, t, h2, h3, h4, h5, h6, h7, h8⟩)
    · cases x <;> exact .inl h
    · cases o with
      | none =>
        obtain ⟨h8, t', h9, rfl⟩ := h8
        exact .inr ⟨h1, n, t, h2, h3, h4, h5, h6, h7, h8, t', h9, rfl⟩
      | some l =>
        obtain ⟨h8, h9, rfl⟩ := h8
        exact .inr ⟨h1, n, t, h2, h3, h4, h5, h6, h7, h8, h9, rfl⟩
  · rintro x r' g' ⟨h1, n, t, h2, h3, h4, h5, h6, h7, h8⟩
    cases o with
    | none =>
      obtain ⟨h8, t', h9, rfl⟩ := h8
      simp only [Res.elim_ok]
      rw [lockArgs_eq (hclk _ _ t' h9)]
      refine .inr ⟨Status.successWithCode 201 (lockFields cfg ⟨path, t', cfg.uid⟩),
        ⟨201, lockFields cfg ⟨path, t', cfg.uid⟩, .none⟩, rfl,
        ⟨n, t, t', h3, ⟨h2, h4, none, some ⟨path, t, cfg.uid⟩, ho.agree h7.lock, ⟨h8, rfl, hclk _ _ t h5⟩, ?_, fun _ _ => h5⟩,
          fun _ => h9, h6, h1⟩, ⟨rfl, c201, rfl, lockFields_ne _ _⟩, rfl, rfl⟩
      simp only [answer, hf]
      rfl
    | some l =>
      obtain ⟨h8, h9, rfl⟩ := h8
      simp only [Res.elim_ok]
      rw [if_pos (show (Err.simple .conflict).kind = .conflict from rfl)]
      have hle : g.now ≤ g'.now := by omega
      refine amid_bind_calm (fun _ _ _ h => .of_disturbed h)
        (amid_lockFromPath hsha hl (View.ready_le hd hle) hle (ho.agree h9.lock)) ?_
      rintro x r2 g2 ⟨rfl, rfl, k1, _, _⟩
      have fin : ∀ {y : Res Status} {st : Status} {ans : Answer}, outcome y = some st →
          answer cfg mode ⟨fun _ => none, [l]⟩ 0 0 (.lock path) = (ans, ⟨fun _ => none, [l]⟩) → ans.code ≠ 201 →
          V.StatusFor st ans g2.now → V.Found mode (.lock path) (lockName cfg.sha path) g.now y g2 := by
        intro y st ans e1 e2 e3 e4
        exact .inr ⟨st, ans, e1, ⟨n, 0, 0, Nat.lt_of_lt_of_le h3 k1.le, View.lockStep_same h2 h4 (ho.agree h7.lock) h8.lock e2,
          fun h => absurd h e3, h6.trans k1.locks.weaken, h1.trans k1.leaves⟩, e4⟩
      simp only
      by_cases hpp : l.path = path
      · rw [if_pos hpp]
        simp only [Res.elim_ok]
        rw [lockArgs_eq ho.2.2]
        refine fin (st := Status.failureWithArgs 409 (lockFields cfg l) b!"conflict\n")
          (ans := ⟨409, lockFields cfg l, .lines [b!"conflict\n"]⟩) rfl ?_ (by simp)
          ⟨⟨rfl, c409, rfl, lockFields_ne _ _⟩, rfl, by simp⟩
        have hf' : Store.find cfg ⟨fun _ => none, [l]⟩ (lockName cfg.sha path) = some l := hf
        simp only [answer, hf', if_pos hpp]
      · rw [if_neg hpp]
        simp only [Res.elim_err]
        refine fin rfl ?_ ?_ (.of (statusFor_clash (V.fs 0)) (by simp [clash, badRequest]))
        · have hf' : Store.find cfg ⟨fun _ => none, [l]⟩ (lockName cfg.sha path) = some l := hf
          simp only [answer, hf', if_neg hpp]
        · simp [clash, badRequest]

end Verif
