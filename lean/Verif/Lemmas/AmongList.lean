import Verif.Lemmas.AmongLock
import Verif.Lemmas.ServeList
/-! Listings of all locks, served among other processes. -/
namespace Verif
open Spec

variable {cfg : Cfg} {mode : Mode} {V : View cfg.root cfg.sha}

/-! ### Names -/

theorem sem_oneEach (c : Choice) (fs : FS) (o : Op) (h : OneEach fs) : OneEach (sem c fs o).1 := by
  have h1 := fun p i => FS.Evo.alSet_nodup (l := fs.names) p i h
  have h2 := fun p => FS.Evo.alDel_nodup (l := fs.names) p h
  have h3 := fun p q i => FS.Evo.alSet_nodup (l := alDel fs.names p) q i (FS.Evo.alDel_nodup p h)
  cases o <;> simp only [sem] <;> (repeat' split) <;> first
    | exact h
    | exact h1 _ _
    | exact h2 _
    | exact h3 _ _ _

theorem View.oneEach (V : View cfg.root cfg.sha) (h : OneEach (V.fs 0)) (n : Nat) : OneEach (V.fs n) := by
  induction n with
  | zero => exact h
  | succ n ih =>
    rcases V.env.move n with hm | ⟨hm, _⟩
    · unfold View.fs
      generalize V.ρ.st (n + 1) = s' at hm
      generalize V.ow (n + 1) = ow' at hm
      generalize V.ρ.lab n = lb at hm
      cases hm with
      | call cfg i o k c hp h1 h2 hm => exact sem_oneEach _ _ _ ih
      | writeSome => exact ih
      | mkdirSome => exact sem_oneEach _ _ _ ih
      | kill => exact ih
      | elsewhere fs' he => exact he.once ih
    · rw [View.fs, hm]; exact ih

theorem lockFiles_entries {n : Nat} (hl : NoLockDirs cfg.root (V.fs n)) (h1 : OneEach (V.fs n)) :
    LockFiles V.ρ cfg n (sortNames ((V.fs n).entries (locksDir cfg.root))) := by
  have e : (V.fs n).entries (locksDir cfg.root) =
      ((V.fs n).names.map (·.1)).filterMap (entryOf (locksDir cfg.root)) := by
    have e : (V.fs n).entries (locksDir cfg.root) =
      (((V.fs n).names.map (·.1)) ++ (V.fs n).dirs).filterMap (entryOf (locksDir cfg.root)) := rfl
    rw [e, List.filterMap_append]
    have hd : (V.fs n).dirs.filterMap (entryOf (locksDir cfg.root)) = [] := by
      rw [List.filterMap_eq_nil_iff]
      intro p hp
      cases h' : entryOf (locksDir cfg.root) p with
      | none => rfl
      | some n =>
        rw [entryOf_iff, locksDir_join] at h'
        exact absurd (h' ▸ hp) (hl n)
    rw [hd, List.append_nil]
  rw [e]
  refine ⟨sortNames_sorted ?_, fun name => ?_⟩
  · unfold OneEach List.Nodup at h1
    refine List.Pairwise.filterMap _ ?_ h1
    intro p q hpq n hn m hm
    rw [entryOf_iff] at hn hm
    intro e
    subst e
    exact hpq (hn.trans hm.symm)
  · rw [mem_sortNames, List.mem_filterMap, Ne, V.lock_none_iff]
    constructor
    · rintro ⟨p, hp, hn⟩
      rw [entryOf_iff, locksDir_join] at hn
      rw [← get_isSome_iff, hn] at hp
      intro h
      rw [h] at hp
      cases hp
    · intro h
      refine ⟨lockFile cfg.root name, ?_, ?_⟩
      · rw [← get_isSome_iff]
        exact Option.isSome_iff_ne_none.mpr h
      · rw [entryOf_iff, locksDir_join]

/-! ### Reading the files -/

theorem Spec.Execution.Touched.mono {ρ : Execution} {root : Path} {i a b c d : Nat} {name : Bytes}
    (h : ρ.Touched root i a b name) (h1 : c ≤ a) (h2 : b ≤ d) : ρ.Touched root i c d name := by
  obtain ⟨n, k1, k2, k3⟩ := h
  exact ⟨n, by omega, by omega, k3⟩

theorem View.same_until {name : Bytes} {a b m n : Nat} (hd : ¬ V.ρ.Touched cfg.root V.i a b name) (ha : a ≤ m)
    (hb : n ≤ b) (hu : V.ρ.Until V.i m n) : V.Same name m n := by
  obtain ⟨k, rfl⟩ : ∃ k, n = m + k := ⟨n - m, by have := hu.le; omega⟩
  induction k with
  | zero => exact ⟨rfl, rfl⟩
  | succ k ih =>
    refine (ih (by omega) ⟨by omega, fun j h1 h2 => hu.idle j h1 (by omega)⟩).trans ?_
    have hk := Classical.byContradiction fun h =>
      hd ⟨m + k, by omega, by omega, hu.idle _ (by omega) (by omega), h⟩
    exact ⟨hk.1, hk.2⟩

/-- What a listing shows of a lock that was read. -/
def seenInfo (l : LockInfo) : Seen := ⟨l.path, l.time, l.owner⟩

theorem seenInfo_lockInfo (l : Lock) : seenInfo (lockInfo cfg l) = Seen.of cfg l := rfl

/-- What was read of a lock file, if anything. -/
def readOf : Except Err (Option LockInfo) → Option LockInfo
  | .ok o => o
  | .error _ => none

/-- One file has been looked at since moment `a`. -/
def View.Read (V : View cfg.root cfg.sha) (name : Bytes) (a : Nat) (y : Except Err (Option LockInfo)) (g : Gh) : Prop :=
  V.Span a g.now [] ∧ ∃ n m, a ≤ n ∧ n ≤ m ∧ m + 1 = g.now ∧ V.ρ.By V.i n ∧ V.ρ.By V.i m ∧
    ((∃ l : Option Lock, Recorded V.ρ cfg n name l ∧ (readOf y).map seenInfo = l.map (Seen.of cfg)) ∨
      Blurred V.ρ V.i cfg n m name)

theorem amid_readLock {name : Bytes} {r : Rdr} {g : Gh} (hl : NoLockDirs cfg.root (V.fs 0))
    (hd : Ready cfg (V.fs g.now)) :
    (M.attempt (lockFromId cfg (utf8Lossy name))).amid V r g (fun x r' g' => r' = r ∧
      ∃ y, x = .ok y ∧ V.Read name g.now y g') := by
  unfold M.amid
  rw [M.wp_attempt]
  show (lockFromId cfg (utf8Lossy name)).amid V r g _
  unfold lockFromId
  refine amid_op_bind fun x n h => ?_
  have hsp := h.span rfl
  obtain ⟨c, hcf, hs⟩ := h.sem rfl
  have hx := congrArg Prod.snd hs
  simp only [Verif.sem, hcf] at hx
  by_cases hex : IsOid name ∧ ∃ o, Recorded V.ρ cfg n name o
  swap
  · -- nothing to show but the shape
    have hbl : ∀ m, Blurred V.ρ V.i cfg n m name := fun m => by
      by_cases h1 : IsOid name
      · exact .inr (.inl fun o ho => hex ⟨h1, o, ho⟩)
      · exact .inl h1
    cases x with
    | error e =>
      simp only
      split
      · exact ⟨rfl, _, rfl, hsp, n, n, h.unt.le, Nat.le_refl _, rfl, h.made.by, h.made.by, .inr (hbl _)⟩
      · exact ⟨rfl, _, rfl, hsp, n, n, h.unt.le, Nat.le_refl _, rfl, h.made.by, h.made.by, .inr (hbl _)⟩
    | ok j =>
      simp only
      refine amid_op_bind fun x n2 h2 => ?_
      have hsp2 := hsp.trans0 (h2.span rfl)
      have hle : n ≤ n2 := Nat.le_trans (Nat.le_succ _) h2.unt.le
      obtain ⟨cs, e⟩ := x
      cases e with
      | some e => exact ⟨rfl, _, rfl, hsp2, n, n2, h.unt.le, hle, rfl, h.made.by, h2.made.by, .inr (hbl _)⟩
      | none =>
        simp only
        unfold userForFile
        refine amid_bind (P := fun x r' g' => (∃ u, x = .ok u) ∧ r' = r ∧ ∃ n3, n3 + 1 = g'.now ∧ n2 ≤ n3 ∧
          V.ρ.By V.i n3 ∧ V.Span (n2 + 1) g'.now []) ?_ ?_
        · refine amid_op_bind fun x n3 h3 => ?_
          have hle3 : n2 ≤ n3 := Nat.le_trans (Nat.le_succ _) h3.unt.le
          cases x with
          | ok s => exact ⟨⟨_, rfl⟩, rfl, n3, rfl, hle3, h3.made.by, h3.span rfl⟩
          | error e => exact ⟨⟨_, rfl⟩, rfl, n3, rfl, hle3, h3.made.by, h3.span rfl⟩
        · rintro x r' g' ⟨⟨u, rfl⟩, rfl, n3, e3, h3, h4, h5⟩
          simp only [Res.elim_ok]
          have fin : ∀ y, V.Read name g.now y g' := fun y =>
            ⟨hsp2.trans0 h5, n, n3, h.unt.le, Nat.le_trans hle h3, e3, h.made.by, h4, .inr (hbl _)⟩
          split
          · exact ⟨rfl, _, rfl, fin _⟩
          · exact ⟨rfl, _, rfl, fin _⟩
  obtain ⟨hid, o, ho⟩ := hex
  rw [oid_lossy hid] at hx ⊢
  simp only [resolve_id (V.locksDir hd h.unt.le) hid] at hx
  cases o with
  | none =>
    have hn : (V.fs n).get (lockFile cfg.root name) = none := V.lock_none_iff.mp ho
    simp only [hn, V.lock_notDir hl, Bool.false_eq_true, if_false] at hx
    subst hx
    exact ⟨rfl, _, rfl, hsp, n, n, h.unt.le, Nat.le_refl _, rfl, h.made.by, h.made.by, .inl ⟨none, ho, rfl⟩⟩
  | some l =>
    obtain ⟨j, hj, hdat⟩ : ∃ j, (V.fs n).get (lockFile cfg.root name) = some j ∧
        (((V.fs n).inodes j).data, ((V.fs n).inodes j).uid) = (lockText l, l.uid) := by
      simpa [Execution.lockAt, held] using ho.1
    have same : ∀ {m : Nat}, V.Same name n m → (V.fs m).get (lockFile cfg.root name) = some j ∧
        ((V.fs m).inodes j).data = lockText l ∧ ((V.fs m).inodes j).uid = l.uid := by
      intro m hm
      have h1 := hm.file.trans hj
      have h2 := hm.lock.trans ho.1
      simp only [Execution.lockAt, held, show (V.ρ.st m).fs.get _ = _ from h1, Option.map_some, Option.some.injEq,
        Prod.mk.injEq] at h2
      exact ⟨h1, h2⟩
    have hag1 : V.Same name n (n + 1) := (h.agree_mild rfl).same
    simp only [hj] at hx
    subst hx
    simp only
    refine amid_op_bind fun x n2 h2 => ?_
    have hsp2 := hsp.trans0 (h2.span rfl)
    have hle : n ≤ n2 := Nat.le_trans (Nat.le_succ _) h2.unt.le
    have hag2 : V.Same name n2 (n2 + 1) := (h2.agree_mild rfl).same
    obtain ⟨c2, hcf2, hs2⟩ := h2.sem rfl
    have hx2 := congrArg Prod.snd hs2
    simp only [Verif.sem, hcf2] at hx2
    subst hx2
    simp only
    unfold userForFile
    refine amid_bind (P := fun x r' g' => (∃ u, x = .ok u ∧ ∃ n3, n3 + 1 = g'.now ∧ n2 ≤ n3 ∧ V.ρ.By V.i n3 ∧
      (V.ρ.Touched cfg.root V.i n n3 name ∨ (u = ownerName cfg l.uid ∧ ((V.fs n2).inodes j).data = lockText l))) ∧
      r' = r ∧ V.Span (n2 + 1) g'.now []) ?_ ?_
    · refine amid_op_bind fun x n3 h3 => ?_
      have hle3 : n2 ≤ n3 := Nat.le_trans (Nat.le_succ _) h3.unt.le
      by_cases ht : V.ρ.Touched cfg.root V.i n n3 name
      · cases x with
        | ok s => exact ⟨⟨_, rfl, n3, rfl, hle3, h3.made.by, .inl ht⟩, rfl, h3.span rfl⟩
        | error e => exact ⟨⟨_, rfl, n3, rfl, hle3, h3.made.by, .inl ht⟩, rfl, h3.span rfl⟩
      · have s2 : V.Same name n n2 := hag1.trans (View.same_until ht (Nat.le_succ _) hle3 h2.unt)
        have s3 : V.Same name n n3 := (s2.trans hag2).trans
          (View.same_until ht (Nat.le_trans hle (Nat.le_succ _)) (Nat.le_refl _) h3.unt)
        obtain ⟨c3, hcf3, hs3⟩ := h3.sem rfl
        have hx3 := congrArg Prod.snd hs3
        obtain ⟨k1, k2, k3⟩ := same s3
        have hd3 : g.now ≤ n3 := Nat.le_trans h.unt.le (Nat.le_trans hle hle3)
        simp only [Verif.sem, hcf3, resolve_id (V.locksDir hd hd3) hid, k1, k2, k3] at hx3
        subst hx3
        exact ⟨⟨_, rfl, n3, rfl, hle3, h3.made.by, .inr ⟨by simp only [userName_eq], (same s2).2.1⟩⟩, rfl,
          h3.span rfl⟩
    · rintro x r' g' ⟨⟨u, rfl, n3, e3, h3, h4, h5⟩, rfl, h6⟩
      simp only [Res.elim_ok, cutChunks_flatten]
      rcases h5 with h5 | ⟨rfl, h5⟩
      · have fin : ∀ y, V.Read name g.now y g' := fun y =>
          ⟨hsp2.trans0 h6, n, n3, h.unt.le, Nat.le_trans hle h3, e3, h.made.by, h4, .inr (.inr (.inr h5))⟩
        split
        · exact ⟨rfl, _, rfl, fin _⟩
        · exact ⟨rfl, _, rfl, fin _⟩
      · rw [h5, parse_lockText ho.2.2]
        exact ⟨rfl, _, rfl, hsp2.trans0 h6, n, n3, h.unt.le, Nat.le_trans hle h3, e3, h.made.by, h4,
          .inl ⟨some l, ho, rfl⟩⟩

theorem View.Read.looked {name : Bytes} {names : List Bytes} {a e : Nat} {y : Except Err (Option LockInfo)} {g : Gh}
    {es : List Seen} (h : V.Read name a y g) (hl : Looked V.ρ V.i cfg g.now names es e) :
    Looked V.ρ V.i cfg a (name :: names) (((readOf y).map seenInfo).toList ++ es) e := by
  obtain ⟨_, n, m, h1, h2, h3, h4, h5, h6⟩ := h
  refine .cons h1 h2 h4 h5 ?_ (h3 ▸ hl)
  rcases h6 with ⟨l, k1, k2⟩ | h6
  · exact .inl ⟨l, k1, k2⟩
  · exact .inr h6

theorem amid_collectLocks (cursor : Option Bytes) (hl : NoLockDirs cfg.root (V.fs 0)) :
    ∀ (names : List Bytes) (skipping : Bool) (k : Nat) (r : Rdr) (g : Gh), Ready cfg (V.fs g.now) →
    (collectLocks cfg cursor skipping k names).amid V r g (fun x r' g' => r' = r ∧ V.Span g.now g'.now [] ∧
      ∃ now later es infos, names = now ++ later ∧ Looked V.ρ V.i cfg g.now now es g'.now ∧ x = .ok infos ∧
        infos.map seenInfo = (if skipping then seenFrom cfg cursor es else es).take k ∧
        (later = [] ∨ k ≤ (if skipping then seenFrom cfg cursor es else es).length))
  | names, skipping, 0, r, g, _ => by
    rw [collectLocks.eq_1]
    exact ⟨rfl, .refl _, [], names, [], [], rfl, .nil (Nat.le_refl _), rfl, by simp, .inr (Nat.zero_le _)⟩
  | [], skipping, k + 1, r, g, _ => by
    rw [collectLocks.eq_2]
    refine ⟨rfl, .refl _, [], [], [], [], rfl, .nil (Nat.le_refl _), rfl, ?_, .inl rfl⟩
    cases skipping <;> cases cursor <;> simp [seenFrom]
  | name :: names, skipping, k + 1, r, g, hd => by
    rw [collectLocks.eq_3]
    refine amid_bind (amid_readLock hl hd) ?_
    rintro x r' g' ⟨rfl, y, rfl, hr⟩
    have hd' := View.ready_le hd hr.1.le
    simp only [Res.elim_ok]
    have miss : readOf y = none → (collectLocks cfg cursor skipping (k + 1) names).amid V r' g' (fun x r2 g2 => r2 = r' ∧
        V.Span g.now g2.now [] ∧ ∃ now later es infos, name :: names = now ++ later ∧
        Looked V.ρ V.i cfg g.now now es g2.now ∧ x = .ok infos ∧
        infos.map seenInfo = (if skipping then seenFrom cfg cursor es else es).take (k + 1) ∧
        (later = [] ∨ k + 1 ≤ (if skipping then seenFrom cfg cursor es else es).length)) := by
      intro hy
      refine amid_mono (amid_collectLocks cursor hl names skipping (k + 1) r' g' hd') ?_
      rintro x r2 g2 ⟨rfl, f1, now, later, es, infos, rfl, f3, f4, f5, f6⟩
      refine ⟨rfl, hr.1.trans0 f1, name :: now, later, es, infos, rfl, ?_, f4, f5, f6⟩
      have := hr.looked f3
      rw [hy] at this
      exact this
    rcases y with e | (_ | l)
    · exact miss rfl
    · exact miss rfl
    simp only
    have keep : (∀ es, (if skipping then seenFrom cfg cursor (seenInfo l :: es) else seenInfo l :: es) =
        seenInfo l :: es) → (collectLocks cfg cursor false k names >>= fun ls => pure (l :: ls)).amid V r' g'
        (fun x r2 g2 => r2 = r' ∧
        V.Span g.now g2.now [] ∧ ∃ now later es infos, name :: names = now ++ later ∧
        Looked V.ρ V.i cfg g.now now es g2.now ∧ x = .ok infos ∧
        infos.map seenInfo = (if skipping then seenFrom cfg cursor es else es).take (k + 1) ∧
        (later = [] ∨ k + 1 ≤ (if skipping then seenFrom cfg cursor es else es).length)) := by
      intro hk
      refine amid_bind (amid_collectLocks cursor hl names false k r' g' hd') ?_
      rintro x r2 g2 ⟨rfl, f1, now, later, es, infos, rfl, f3, rfl, f5, f6⟩
      simp only [Bool.false_eq_true, if_false] at f5 f6
      refine ⟨rfl, hr.1.trans0 f1, name :: now, later, seenInfo l :: es, l :: infos, rfl, hr.looked f3, rfl, ?_, ?_⟩
      · rw [hk, List.map_cons, f5, List.take_succ_cons]
      · rw [hk, List.length_cons]
        exact f6.imp id Nat.succ_le_succ
    have hid : lockId cfg l.path = (seenInfo l).id cfg := lockId_eq cfg l.path
    cases skipping with
    | false =>
      simp only [Bool.false_and, Bool.false_eq_true, if_false]
      exact keep fun es => by simp
    | true =>
      cases cursor with
      | none =>
        simp only [Bool.and_false, Bool.false_eq_true, if_false]
        exact keep fun es => by simp [seenFrom]
      | some c =>
        simp only [hid, Bool.true_and]
        by_cases hlt : (seenInfo l).id cfg < c
        · rw [if_pos ((bytesLt_iff _ _).mpr hlt)]
          refine amid_mono (amid_collectLocks (some c) hl names true (k + 1) r' g' hd') ?_
          rintro x r2 g2 ⟨rfl, f1, now, later, es, infos, rfl, f3, f4, f5, f6⟩
          have hes : seenFrom cfg (some c) (seenInfo l :: es) = seenFrom cfg (some c) es := by
            simp only [seenFrom, List.dropWhile_cons, hlt, decide_true, if_true]
          refine ⟨rfl, hr.1.trans0 f1, name :: now, later, seenInfo l :: es, infos, rfl, hr.looked f3, f4, ?_, ?_⟩
          · simp only [if_true, hes] at f5 ⊢; exact f5
          · simp only [if_true, hes] at f6 ⊢; exact f6
        · rw [if_neg (fun h => hlt ((bytesLt_iff _ _).mp h))]
          refine keep fun es => ?_
          simp only [if_true, seenFrom, List.dropWhile_cons, hlt, decide_false, Bool.false_eq_true, if_false]

theorem amid_iterLocks (cursor : Option Bytes) (limit : Option Nat) {r : Rdr} {g : Gh}
    (hl : NoLockDirs cfg.root (V.fs 0)) (h1 : OneEach (V.fs 0)) (hd : Ready cfg (V.fs g.now)) :
    (iterLocks cfg cursor (pageSize limit + 1)).amid V r g (fun x r' g' => r' = r ∧ V.Span g.now g'.now [] ∧
      ∃ es infos, Listed V.ρ V.i cfg g.now g'.now cursor limit es ∧ x = .ok infos ∧
        infos.map seenInfo = seenPage cfg cursor limit es) := by
  unfold iterLocks
  refine amid_op_bind fun x n h => ?_
  obtain ⟨c, hcf, hs⟩ := h.sem rfl
  have hx := congrArg Prod.snd hs
  simp only [Verif.sem, hcf, V.locksDir hd h.unt.le, if_true] at hx
  subst hx
  refine amid_ofIo_bind ?_
  have hle : g.now ≤ n + 1 := Nat.le_succ_of_le h.unt.le
  refine amid_mono (amid_collectLocks cursor hl _ true _ r ⟨n + 1, _⟩ (View.ready_le hd hle)) ?_
  rintro x r' g' ⟨rfl, f1, now, later, es, infos, f2, f3, f4, f5, f6⟩
  simp only [if_true] at f5 f6
  refine ⟨rfl, (h.span rfl).trans0 f1, es, infos, ⟨n, now, later, h.unt.le, h.made.by, ?_, f3, f6⟩, f4, f5⟩
  rw [← f2]
  exact lockFiles_entries (V.env.lockDirs hl n) (V.oneEach h1 n)

/-! ### The reply -/

theorem lockSpec_seen {l : LockInfo} (h : TimeOk cfg l.time) :
    lockSpec cfg (mode = .upload) l = pure (Seen.lines cfg mode (seenInfo l)) := by
  obtain ⟨path, time, owner⟩ := l
  show _ = pure (Seen.lines cfg mode ⟨path, time, owner⟩)
  unfold lockSpec fmtTimestamp
  simp only [fmt_eq h, lockId_eq, userName_eq, Seen.lines, Seen.id]
  cases mode
  · by_cases h : ownerName cfg cfg.uid = owner
    · rw [if_pos h, if_pos h.symm]; rfl
    · rw [if_neg h, if_neg (Ne.symm h)]; rfl
  · rfl

theorem lockSpecs_seen : ∀ (ls : List LockInfo), (∀ l ∈ ls, TimeOk cfg l.time) →
    lockSpecs cfg (mode = .upload) ls = pure ((ls.map seenInfo).flatMap (Seen.lines cfg mode))
  | [], _ => rfl
  | l :: ls, h => by
    rw [lockSpecs, lockSpec_seen (h l (by simp)), lockSpecs_seen ls fun m hm => h m (by simp [hm])]
    rfl

/-- Locks that are listed as they are: this is what the simple server says. -/
theorem listing_of (cursor : Option Bytes) (limit : Option Nat) (ls : List Lock) (t t' : Int) (f : Bytes → Option Bytes) :
    listing cfg mode cursor limit (ls.map (Seen.of cfg)) = (answer cfg mode ⟨f, ls⟩ t t' (.listLocks none cursor limit)).1 := by
  have hfrom : seenFrom cfg cursor (ls.map (Seen.of cfg)) = (fromCursor cfg cursor ls).map (Seen.of cfg) := by
    cases cursor with
    | none => rfl
    | some c =>
      simp only [seenFrom, fromCursor]
      rw [List.dropWhile_map]
      rfl
  have hlines : ∀ l, Seen.lines cfg mode (Seen.of cfg l) = lockLines cfg mode l := fun l => rfl
  simp only [listing, answer, seenPage, hfrom]
  rw [← List.map_take]
  simp only [List.getElem?_map, Option.map_map, List.flatMap_map, hlines]
  rfl

theorem Spec.Looked.mono {ρ : Execution} {i a e e' : Nat} {names : List Bytes} {es : List Seen}
    (h : Looked ρ i cfg a names es e) (he : e ≤ e') : Looked ρ i cfg a names es e' := by
  induction h with
  | nil h => exact .nil (Nat.le_trans h he)
  | cons h1 h2 h3 h4 h5 _ ih => exact .cons h1 h2 h3 h4 h5 (ih he)

theorem Spec.Listed.mono {ρ : Execution} {i a e e' : Nat} {cursor : Option Bytes} {limit : Option Nat} {es : List Seen}
    (h : Listed ρ i cfg a e cursor limit es) (he : e ≤ e') : Listed ρ i cfg a e' cursor limit es := by
  obtain ⟨d, names, later, h1, h2, h3, h4, h5⟩ := h
  exact ⟨d, names, later, h1, h2, h3, h4.mono he, h5⟩

theorem seenLines_ne (cfg : Cfg) (mode : Mode) (e : Seen) : ∀ x ∈ e.lines cfg mode, x ≠ [] := by
  intro x hx
  unfold Seen.lines at hx
  rcases List.mem_append.mp hx with hx | hx
  · simp only [List.mem_cons, List.not_mem_nil, or_false] at hx
    rcases hx with rfl | rfl | rfl | rfl <;> simp
  · split at hx
    · rw [List.mem_singleton] at hx; subst hx; simp
    · cases hx

/-- `list-lock` without a path, after its arguments were read. -/
theorem amid_listAll {cursor : Option Bytes} {limit : Option Nat} {r : Rdr} {g : Gh}
    (hl : NoLockDirs cfg.root (V.fs 0)) (h1 : OneEach (V.fs 0)) (hd : Ready cfg (V.fs g.now)) :
    (iterLocks cfg cursor (pageSize limit + 1) >>= fun items =>
      lockSpecs cfg (mode = .upload) items >>= fun specs =>
      pure (Status.successWithData 200 (match items[pageSize limit]? with
        | some l => [b!"next-cursor=" ++ lockId cfg l.path ++ b!"\n"]
        | none => []) specs)).amid V r g (fun x _ g' =>
      ListExcuse V.ρ V.i cfg g.now g'.now cursor limit ∨ ∃ st ans, outcome x = some st ∧
        Answers V.ρ V.i cfg mode g.now g'.now (.listLocks none cursor limit) ans ∧ V.StatusFor st ans g'.now) := by
  refine amid_bind (amid_iterLocks cursor limit hl h1 hd) ?_
  rintro x r' g' ⟨rfl, f1, es, infos, f2, rfl, f3⟩
  simp only [Res.elim_ok]
  by_cases ht : ∃ x ∈ seenPage cfg cursor limit es, ¬ TimeOk cfg x.time
  · exact amid_mono (amid_le _ _ _) fun _ _ _ h => .inl ⟨es, f2.mono h, ht⟩
  have hok : ∀ l ∈ infos, TimeOk cfg l.time := by
    intro l hm
    refine Classical.byContradiction fun h => ht ⟨seenInfo l, ?_, h⟩
    rw [← f3]
    exact List.mem_map_of_mem hm
  rw [lockSpecs_seen infos hok]
  refine amid_pure_bind (.inr ⟨_, listing cfg mode cursor limit es, rfl, ⟨⟨f1.leaves, es, f2, rfl⟩, f1.locks⟩, ?_⟩)
  refine .of (fs := V.fs 0) ⟨⟨rfl, c200, ?_, ?_⟩, ?_, ?_⟩ (by intro d h; cases h)
  · simp only [listing, ← f3]
    rw [List.getElem?_map]
    cases infos[pageSize limit]? with
    | none => rfl
    | some l =>
      have hid : lockId cfg l.path = (seenInfo l).id cfg := lockId_eq cfg l.path
      simp only [Option.map_some, Option.toList, Status.successWithData, Option.getD_some, hid]
  · simp only [listing]
    cases (seenPage cfg cursor limit es)[pageSize limit]? <;> simp
  · rw [f3]; rfl
  · intro x hx
    obtain ⟨l, _, hl⟩ := List.mem_flatMap.mp hx
    exact seenLines_ne _ _ _ x hl

end Verif
