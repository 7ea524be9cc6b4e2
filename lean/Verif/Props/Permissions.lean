import Verif.Spec.Tools
import Verif.Props.Store
import Verif.Lemmas.Run
import Verif.Tests.States
/-!
C50: the permissions of uploaded objects.
-/
namespace Verif
open Spec

namespace Transfer

/-! ### Modes and umasks -/

theorem testBit_777 (i : Nat) : Nat.testBit 0o777 i = decide (i < 9) :=
  Nat.testBit_two_pow_sub_one 9 i

theorem testBit_objMode (u i : Nat) :
    (objMode u).testBit i = (decide (i < 9) && !u.testBit i) := by
  unfold objMode
  rw [Nat.testBit_and, testBit_777, Nat.testBit_xor,
    show (0xFFFFFFFF : Nat) = 2 ^ 32 - 1 from rfl, Nat.testBit_two_pow_sub_one]
  by_cases h : i < 9
  · have : i < 32 := by omega
    simp [h, this]
  · simp [h]

theorem shift_div (v : Nat) : v >>> 2 = v / 4 := Nat.shiftRight_eq_div_pow v 2

/-- The mode of an object under the umask computed from permissions. -/
theorem objMode_umaskFor (v : Nat) : objMode (umaskFor v) = plusX v &&& 0o777 := by
  apply Nat.eq_of_testBit_eq
  intro i
  have hv : v ||| ((v &&& 0o444) >>> 2) = plusX v := by unfold plusX; rw [shift_div]
  unfold umaskFor
  simp only [hv]
  rw [testBit_objMode, Nat.testBit_and, Nat.testBit_and, testBit_777, Nat.testBit_xor,
    show (0xFFFF : Nat) = 2 ^ 16 - 1 from rfl, Nat.testBit_two_pow_sub_one]
  by_cases h : i < 9
  · have : i < 16 := by omega
    simp [h, this]
  · simp [h]

/-! ### What the configuration asks for -/

theorem setPermissions_asks {v : Option (Option Bytes)} {want : Option Nat} (h : Asks v want)
    {missing bad : GitErr} (hm : missing.code = .notFound) (u : Nat) :
    ∃ u', setPermissions (.ok (answers v missing bad)) u = .ok u' ∧
      match want with
      | some m => objMode u' = m
      | none => u' = u := by
  cases h with
  | unset =>
    refine ⟨u, ?_, rfl⟩
    simp [setPermissions, answers, wantedPerms, ofGit, hm, bind, Except.bind, pure, Except.pure]
  | umask =>
    refine ⟨u, ?_, rfl⟩
    have : parseBool (some b!"umask") = none := by decide +kernel
    simp [setPermissions, answers, this, wantedPerms, ofGit, bind, Except.bind, pure, Except.pure]
  | no =>
    refine ⟨u, ?_, rfl⟩
    have : parseBool (some b!"false") = some false := by decide +kernel
    simp [setPermissions, answers, this, wantedPerms, ofGit, bind, Except.bind, pure, Except.pure]
  | group =>
    refine ⟨umaskFor 0o660, ?_, rfl⟩
    have : parseBool (some b!"group") = none := by decide +kernel
    simp [setPermissions, answers, this, wantedPerms, ofGit, bind, Except.bind, pure, Except.pure]
  | yes =>
    refine ⟨umaskFor 0o660, ?_, rfl⟩
    have : parseBool (some b!"true") = some true := by decide +kernel
    simp [setPermissions, answers, this, wantedPerms, ofGit, bind, Except.bind, pure, Except.pure]
  | all =>
    refine ⟨umaskFor 0o664, ?_, rfl⟩
    have : parseBool (some b!"all") = none := by decide +kernel
    simp [setPermissions, answers, this, wantedPerms, ofGit, bind, Except.bind, pure, Except.pure]
  | world =>
    refine ⟨umaskFor 0o664, ?_, rfl⟩
    have : parseBool (some b!"world") = none := by decide +kernel
    simp [setPermissions, answers, this, wantedPerms, ofGit, bind, Except.bind, pure, Except.pure]
  | everybody =>
    refine ⟨umaskFor 0o664, ?_, rfl⟩
    have : parseBool (some b!"everybody") = none := by decide +kernel
    simp [setPermissions, answers, this, wantedPerms, ofGit, bind, Except.bind, pure, Except.pure]

/-! ### Octal values -/

theorem toNat_digit {d : Nat} (hd : d < 8) : (UInt8.ofNat (48 + d)).toNat = 48 + d := by
  have : 48 + d < 256 := by omega
  simp [UInt8.toNat_ofNat', Nat.mod_eq_of_lt this]

theorem digit_range {d : Nat} (hd : d < 8) :
    (48 : UInt8) ≤ UInt8.ofNat (48 + d) ∧ UInt8.ofNat (48 + d) ≤ 55 := by
  constructor
  · rw [UInt8.le_iff_toNat_le, toNat_digit hd]
    show 48 ≤ 48 + d
    omega
  · rw [UInt8.le_iff_toNat_le, toNat_digit hd]
    show 48 + d ≤ 55
    omega

theorem digitVal_digit {d : Nat} (hd : d < 8) : digitVal (UInt8.ofNat (48 + d)) = d := by
  obtain ⟨h1, h2⟩ := digit_range hd
  have h3 : UInt8.ofNat (48 + d) ≤ 57 := UInt8.le_trans h2 (by decide)
  unfold digitVal
  rw [if_pos ⟨h1, h3⟩, toNat_digit hd]
  omega

theorem digitsIn_snoc {c : UInt8} (hc : digitVal c < 8) : ∀ {ds : Bytes} {k a k' n : Nat},
    digitsIn 8 k a ds = (k', n, []) →
    digitsIn 8 k a (ds ++ [c]) = (k' + 1, n * 8 + digitVal c, [])
  | [], k, a, k', n, h => by
    simp only [digitsIn, Prod.mk.injEq, and_true] at h
    obtain ⟨rfl, rfl⟩ := h
    simp [digitsIn, hc]
  | d :: ds, k, a, k', n, h => by
    simp only [List.cons_append, digitsIn] at h ⊢
    split at h
    · rename_i hd
      rw [if_pos hd]
      exact digitsIn_snoc hc h
    · simp at h

theorem octal_digits {x : Bytes} {n : Nat} (h : Octal x n) :
    ∃ k, digitsIn 8 0 0 x = (k + 1, n, []) := by
  induction h with
  | zero => exact ⟨0, by decide⟩
  | digit _ hd ih =>
    obtain ⟨k, ih⟩ := ih
    refine ⟨k + 1, ?_⟩
    have := digitsIn_snoc (c := UInt8.ofNat (48 + _)) (by rw [digitVal_digit hd]; exact hd) ih
    rw [this, digitVal_digit hd]

theorem octal_head {x : Bytes} {n : Nat} (h : Octal x n) : ∃ t, x = 48 :: t := by
  induction h with
  | zero => exact ⟨[], rfl⟩
  | digit _ _ ih =>
    obtain ⟨t, rfl⟩ := ih
    exact ⟨_, rfl⟩

theorem octal_mem {x : Bytes} {n : Nat} (h : Octal x n) : ∀ b ∈ x, 48 ≤ b ∧ b ≤ 55 := by
  induction h with
  | zero => intro b hb; simp at hb; subst hb; decide
  | digit _ hd ih =>
    intro b hb
    rcases List.mem_append.1 hb with hb | hb
    · exact ih b hb
    · rw [List.mem_singleton] at hb
      subst hb
      exact digit_range hd

/-- libgit2 takes an octal value for a number. -/
theorem parseInt32_octal {x : Bytes} {n : Nat} (h : Octal x n) (hn : n < 2147483648) :
    parseInt32 x = some (n : Int) := by
  obtain ⟨k, hk⟩ := octal_digits h
  obtain ⟨t, rfl⟩ := octal_head h
  have hbase : baseOf (48 :: t) = (8, 48 :: t) := by
    cases t with
    | nil => rfl
    | cons y t =>
      cases t with
      | nil => rfl
      | cons z t =>
        have hy := octal_mem h y (by simp)
        have : ¬ lower y = 120 := by
          unfold lower
          have : ¬ ((65 : UInt8) ≤ y ∧ y ≤ 90) := by
            rintro ⟨h1, _⟩
            have := UInt8.le_trans h1 hy.2
            exact absurd this (by decide)
          rw [if_neg this]
          rintro rfl
          exact absurd hy.2 (by decide)
        simp [baseOf, this]
  have hsp : (48 :: t : Bytes).dropWhile isSpace = 48 :: t := by
    simp [isSpace]
  have hf : ∀ k, 31 ≤ k → fits k (n : Int) = true := by
    intro k hk
    have h2 : (2 : Nat) ^ 31 ≤ 2 ^ k := Nat.pow_le_pow_right (by decide) hk
    rw [show (2 : Nat) ^ 31 = 2147483648 from rfl] at h2
    have h3 : ((2 : Int) ^ k) = ((2 ^ k : Nat) : Int) := by simp
    unfold fits
    rw [h3]
    generalize (2 : Nat) ^ k = x at *
    simp
    omega
  have hs : scaled [] (n : Int) = some (n : Int) := rfl
  have h1 : ¬ (List.head? (48 :: t : Bytes) = some 45 ∨
      List.head? (48 :: t : Bytes) = some 43) := by simp
  have h2 : ¬ (List.head? (48 :: t : Bytes) = some 45) := by simp
  have h63 := hf 63 (by omega)
  have h31 := hf 31 (by omega)
  clear hf
  unfold parseInt32
  simp only [hsp, if_neg h1, if_neg h2, hbase, hk]
  rw [if_neg (by rw [h63]; simp), hs, Option.bind_some, if_pos h31]

theorem octal_not_word {x : Bytes} {n : Nat} (h : Octal x n) :
    ¬ (x.map lower = b!"true" ∨ x.map lower = b!"yes" ∨ x.map lower = b!"on") ∧
    ¬ (x.map lower = b!"false" ∨ x.map lower = b!"no" ∨ x.map lower = b!"off" ∨
      x.map lower = []) := by
  obtain ⟨t, rfl⟩ := octal_head h
  have : lower 48 = 48 := by decide
  simp [this]

/-- libgit2 reads an octal value as a boolean. -/
theorem parseBool_octal {x : Bytes} {n : Nat} (h : Octal x n) (hn : n < 2147483648) :
    parseBool (some x) = some (decide (n ≠ 0)) := by
  obtain ⟨h1, h2⟩ := octal_not_word h
  unfold parseBool
  simp only [h1, h2, if_false, parseInt32_octal h hn, Option.map_some]
  congr 1
  have : ((n : Int) = 0) ↔ n = 0 := by omega
  simp

theorem octDigits_snoc {c : UInt8} (hc : 48 ≤ c ∧ c ≤ 55) : ∀ {ds : Bytes} {a n : Nat},
    octDigits a ds = some n → n * 8 + (c.toNat - 48) < 65536 →
    octDigits a (ds ++ [c]) = some (n * 8 + (c.toNat - 48))
  | [], a, n, h, hlt => by
    simp only [octDigits, Option.some.injEq] at h
    subst h
    simp [octDigits, hc, hlt]
  | d :: ds, a, n, h, hlt => by
    simp only [List.cons_append, octDigits] at h ⊢
    split at h
    · rename_i hd
      rw [if_pos hd]
      split at h
      · rename_i hd'
        rw [if_pos hd']
        exact octDigits_snoc hc h hlt
      · simp at h
    · simp at h

theorem parseOctal_octal {x : Bytes} {n : Nat} (h : Octal x n) (hn : n < 65536) :
    parseOctal x = some n := by
  have hd : octDigits 0 x = some n := by
    induction h with
    | zero => decide
    | @digit ds n d _ hd ih =>
      have := octDigits_snoc (c := UInt8.ofNat (48 + d)) (digit_range hd) (ih (by omega))
        (by rw [toNat_digit hd]; omega)
      rw [this, toNat_digit hd]
      congr 1
      omega
  obtain ⟨t, rfl⟩ := octal_head h
  unfold parseOctal
  simp [hd]

/-! ### Objects -/

theorem run_any {σ : Type} {L : Logic σ} (hL : ∀ s o, L.pre s o) {α : Type} (p : Prog α) (s : σ) :
    p.wp L s (fun _ _ => True) := by
  induction p generalizing s with
  | ret a => trivial
  | call o k ih => exact ⟨hL _ _, fun x _ => ih x _⟩

theorem run_fixPermissions (cfg : Cfg) (p : Path) (ch : Nat → Choice) (r : Rdr) (w : World)
    {i : Ino} (hg : w.fs.get p = some i) :
    (fixPermissions cfg p).wp (Logic.run ch) r w (fun x _ w' => x = .ok () →
      w'.fs.get p = some i ∧ (w'.fs.inodes i).mode = objMode cfg.umask) := by
  unfold fixPermissions
  rw [M.wp_bind, M.wp_op]
  refine ⟨trivial, fun x hx => ?_⟩
  simp only [Res.elim_ok]
  rw [M.wp_bind, M.wp_ofIo]
  have hfs : ((Logic.run ch).upd w (.stat (.exact p)) x).fs = w.fs := by
    simp only [Logic.run, sem]
    (repeat' split) <;> rfl
  cases x with
  | error e => rintro ⟨⟩
  | ok st =>
    simp only [Res.elim_ok]
    rw [M.wp_bind, M.wp_op]
    refine ⟨trivial, fun y hy => ?_⟩
    simp only [Res.elim_ok]
    rw [M.wp_ofIo]
    cases y with
    | error e => rintro ⟨⟩
    | ok u =>
      intro _
      generalize (Logic.run ch).upd w (.stat (.exact p)) (.ok st) = w1 at *
      have hg1 : w1.fs.get p = some i := by rw [hfs]; exact hg
      cases hf : (ch w1.tick).fault with
      | some e =>
        have hy : (Except.ok u : Except IoErr Unit) = _ := hy
        simp [sem, hf] at hy
      | none =>
        have : ((Logic.run ch).upd w1 (.chmod p (objMode cfg.umask)) (.ok u)).fs =
            w1.fs.setInode i { w1.fs.inodes i with mode := objMode cfg.umask } := by
          simp [Logic.run, sem, hf, hg1]
        simp only [this]
        exact ⟨hg1, by simp [FS.setInode]⟩

theorem run_finishUpload (cfg : Cfg) (oid : Bytes) (tmp : Path) (ch : Nat → Choice) (r : Rdr)
    (w : World) : (finishUpload cfg oid tmp).wp (Logic.run ch) r w (fun x _ w' => x = .ok () →
      ∃ i, w'.fs.get (objPath cfg.root oid) = some i ∧
        (w'.fs.inodes i).mode = objMode cfg.umask) := by
  have any : ∀ {α : Type} (m : M α) r s, m.wp (Logic.run ch) r s (fun _ _ _ => True) :=
    fun m r s => run_any (fun _ _ => trivial) (m r) s
  unfold finishUpload
  rw [M.wp_bind]
  refine M.wp_mono (Q := fun x _ w' => x = .ok () →
    ∃ i, w'.fs.get (objPath cfg.root oid) = some i) ?_ ?_
  · rw [M.wp_onFail, M.wp_bind, M.wp_op]
    refine ⟨trivial, fun x _ => ?_⟩
    simp only [Res.elim_ok]
    rw [M.wp_bind, M.wp_ofIo]
    cases x with
    | error e =>
      simp only [Res.elim_err]
      exact M.wp_mono (any _ _ _) (fun _ _ _ _ h => by cases h)
    | ok u =>
      simp only [Res.elim_ok]
      rw [M.wp_bind, M.wp_op]
      refine ⟨trivial, fun y hy => ?_⟩
      simp only [Res.elim_ok]
      cases y with
      | error e =>
        simp only [M.wp_throw, Res.elim_err]
        exact M.wp_mono (any _ _ _) (fun _ _ _ _ h => by cases h)
      | ok u' =>
        intro _
        generalize (Logic.run ch).upd w _ _ = w1 at *
        have hy : (Except.ok u' : Except IoErr Unit) = _ := hy
        cases hf : (ch w1.tick).fault with
        | some e => simp [sem, hf] at hy
        | none =>
          simp only [Logic.run, sem, hf] at hy ⊢
          cases hs : w1.fs.get tmp with
          | none => simp [hs] at hy
          | some i =>
            simp only [hs] at hy ⊢
            split
            · rename_i hd; rw [if_pos hd] at hy; simp at hy
            · rename_i hd
              rw [if_neg hd] at hy
              split
              · rename_i hd'; rw [if_pos hd'] at hy; simp at hy
              · split
                · rename_i hg
                  exact ⟨i, hg⟩
                · exact ⟨i, by rw [FS.get_setName]; simp⟩
  · intro x r' w' h
    cases x with
    | ok u =>
      obtain ⟨i, hi⟩ := h rfl
      simp only [Res.elim_ok]
      exact M.wp_mono (run_fixPermissions cfg _ ch r' w' hi) fun x _ w'' h hx => ⟨i, h hx⟩
    | err e => rintro ⟨⟩
    | panic => rintro ⟨⟩

theorem run_putObject (cfg : Cfg) (a : Bytes) (ch : Nat → Choice) (r : Rdr) (w : World) :
    (putObject cfg a).wp (Logic.run ch) r w (fun x _ w' => ∀ st, x = .ok st →
      ∃ i, w'.fs.get (objPath cfg.root a) = some i ∧
        (w'.fs.inodes i).mode = objMode cfg.umask) := by
  have any : ∀ {α : Type} (m : M α) r s, m.wp (Logic.run ch) r s (fun _ _ _ => True) :=
    fun m r s => run_any (fun _ _ => trivial) (m r) s
  have bind_any : ∀ {α β : Type} (m : M α) (f : α → M β) (r : Rdr) (w : World)
      (Q : Res β → Rdr → World → Prop),
      (∀ e r w, Q (.err e) r w) → (∀ r w, Q .panic r w) →
      (∀ a r w, (f a).wp (Logic.run ch) r w Q) → (m >>= f).wp (Logic.run ch) r w Q := by
    intro α β m f r w Q he hp hk
    rw [M.wp_bind]
    refine M.wp_mono (any m r w) fun x r' w' _ => ?_
    cases x with
    | ok a => exact hk a r' w'
    | err e => exact he e r' w'
    | panic => exact hp r' w'
  have bad : ∀ (e : Err) (r : Rdr) (w : World), ∀ st, (Res.err e : Res Status) = .ok st →
      ∃ i, w.fs.get (objPath cfg.root a) = some i ∧
        (w.fs.inodes i).mode = objMode cfg.umask := by
    intro e r w st h; cases h
  have bad' : ∀ (r : Rdr) (w : World), ∀ st, (Res.panic : Res Status) = .ok st →
      ∃ i, w.fs.get (objPath cfg.root a) = some i ∧
        (w.fs.inodes i).mode = objMode cfg.umask := by
    intro r w st h; cases h
  unfold putObject
  rw [M.wp_bind, wp_oidNew]
  split
  · simp only [Res.elim_ok]
    refine bind_any _ _ _ _ _ bad bad' fun items r w => ?_
    refine bind_any _ _ _ _ _ bad bad' fun args r w => ?_
    refine bind_any _ _ _ _ _ bad bad' fun expected r w => ?_
    refine bind_any _ _ _ _ _ bad bad' fun x r w => ?_
    refine bind_any _ _ _ _ _ bad bad' fun _ r w => ?_
    rw [M.wp_bind]
    refine M.wp_mono (run_finishUpload cfg a x.1 ch r w) fun y r w h => ?_
    cases y with
    | ok u =>
      simp only [Res.elim_ok, M.wp_pure]
      intro st _
      exact h rfl
    | err e => exact bad e r w
    | panic => exact bad' r w
  · exact bad _ r w

end Transfer

/-- The mode objects are to have: the one asked for, or that of the umask of the process, whose bits
are taken away. -/
def ObjectMode (want : Option Nat) (umask mode : Nat) : Prop :=
  match want with
  | some m => mode = m
  | none => ∀ i, mode.testBit i = (decide (i < 9) && !umask.testBit i)

/-- C50, except for octal values: for every other value of core.sharedRepository, whatever the
client sends and the OS answers, the server sets the mode of nothing but object files, and sets it
to the one asked for. Missing: octal values, for which this is wrong (`C50_refuted`). -/
theorem C50_partial {v : Option (Option Bytes)} {want : Option Nat} (h : Asks v want)
    {missing bad : GitErr} (hm : missing.code = .notFound) (cfg : Cfg)
    (op : Bytes) (r : Rdr) (tr : List Event)
    (hd : (Transfer.process (.ok (.ok (Transfer.answers v missing bad))) cfg op r).Did tr)
    {p : Path} {m : Nat} {x : Resp (.chmod p m)} (he : (⟨.chmod p m, x⟩ : Event) ∈ tr) :
    ObjectMode want cfg.umask m ∧ ∃ oid, IsOid oid ∧ p = objectFile cfg.root oid := by
  obtain ⟨u, hu, hw⟩ := Transfer.setPermissions_asks h (bad := bad) hm cfg.umask
  have hd : (mainProg { cfg with umask := u } op r).Did tr := by
    simpa only [Transfer.process, Transfer.main, hu] using hd
  have key : ∀ (tr : List Event) (s : Own), (Logic.own { cfg with umask := u }).PreTr s tr →
      (⟨.chmod p m, x⟩ : Event) ∈ tr →
      m = objMode u ∧ ∃ oid, oidValid oid = true ∧ p = objPath cfg.root oid := by
    intro tr
    induction tr with
    | nil => intro s _ h; simp at h
    | cons e tr ih =>
      intro s hs h
      rcases List.mem_cons.1 h with rfl | h
      · exact hs.1
      · exact ih _ hs.2 h
  obtain ⟨hmode, oid, ho, hp⟩ := key tr ⟨none, [], none⟩
    (Prog.wp_did (own_mainProg _ op r) hd (Logic.legalTr_of_forall fun _ _ _ => trivial)) he
  refine ⟨?_, oid, (oidValid_iff _).mp ho, by rw [hp]; simp [objPath, objectFile, objectDir]⟩
  unfold ObjectMode
  cases want with
  | some w =>
    simp only at hw ⊢
    rw [hmode, hw]
  | none =>
    simp only at hw ⊢
    subst hw
    intro i
    rw [hmode]
    exact Transfer.testBit_objMode _ i

/-- C50: when `put-object` has succeeded, the object has that mode: the mode the server sets
(`C50_partial`) was set, and on the object. -/
theorem C50_put {v : Option (Option Bytes)} {want : Option Nat} (h : Asks v want)
    {missing bad : GitErr} (hm : missing.code = .notFound) (cfg : Cfg) {u : Nat}
    (hu : Transfer.setPermissions (.ok (Transfer.answers v missing bad)) cfg.umask = .ok u)
    (oid : Bytes) (ch : Nat → Choice) (r r' : Rdr) (w w' : World) (st : Status)
    (hr : (putObject { cfg with umask := u } oid r).run ch w = ((.ok st, r'), w')) :
    ∃ i, w'.fs.get (objectFile cfg.root oid) = some i ∧
      ObjectMode want cfg.umask (w'.fs.inodes i).mode := by
  obtain ⟨u', hu', hw⟩ := Transfer.setPermissions_asks h (bad := bad) hm cfg.umask
  rw [hu] at hu'
  cases hu'
  have hrun : ∀ st', ((putObject { cfg with umask := u } oid r).run ch w).1.1 = .ok st' →
      ∃ i, ((putObject { cfg with umask := u } oid r).run ch w).2.fs.get (objPath cfg.root oid) =
        some i ∧ (((putObject { cfg with umask := u } oid r).run ch w).2.fs.inodes i).mode =
          objMode u :=
    (Prog.wp_run ch (putObject { cfg with umask := u } oid r) w
      (fun x w' => ∀ st, x.1 = .ok st → ∃ i, w'.fs.get (objPath cfg.root oid) = some i ∧
        (w'.fs.inodes i).mode = objMode u)).1
      (Transfer.run_putObject { cfg with umask := u } oid ch r w)
  rw [hr] at hrun
  obtain ⟨i, hi, hmode⟩ := hrun st rfl
  refine ⟨i, by rw [← hi]; simp [objPath, objectFile, objectDir], ?_⟩
  unfold ObjectMode
  cases want with
  | some w =>
    simp only at hw ⊢
    rw [hmode, hw]
  | none =>
    simp only at hw ⊢
    subst hw
    intro i
    rw [hmode]
    exact Transfer.testBit_objMode _ i

/-- Non-vacuous: with `all`, under a umask that would leave others nothing, an upload succeeds and the
object is readable to others. -/
def everyone : Cfg := { Tests.cfg with umask := Transfer.umaskFor 0o664 }

def uploaded : (Res Status × Rdr) × World :=
  (putObject everyone Tests.oidA (Tests.seeing ((Tests.putA [b!"abc", b!"123"]).drop 1) [])).run
    Tests.calm ⟨Tests.fsA, [], 0⟩

example : Transfer.setPermissions
    (.ok (Transfer.answers (some (some b!"all")) ⟨.notFound, []⟩ ⟨.other 0, []⟩)) 0o077 =
      .ok everyone.umask := rfl

example : (∃ st, uploaded.1.1 = .ok st) ∧
    (uploaded.2.fs.get (objectFile everyone.root Tests.oidA)).map
      (fun i => (uploaded.2.fs.inodes i).mode) = some 0o775 := by
  constructor
  · have : (match uploaded.1.1 with | .ok _ => true | _ => false) = true := by decide +kernel
    split at this
    · rename_i st h; exact ⟨st, h⟩
    · simp at this
  · decide +kernel

/-- Without a value the umask of the process counts. -/
example : ObjectMode none 0o022 0o755 := by
  intro i
  rw [show (0o755 : Nat) = objMode 0o022 by decide]
  exact Transfer.testBit_objMode _ i

/-- C50 is wrong for octal values: libgit2 reads them as booleans, so every non-zero one means the
same as `group`, and a zero one the same as `umask`. -/
theorem C50_octal_refuted {x : Bytes} {n : Nat} (h : Octal x n) (hn : n < 2147483648)
    (missing bad : GitErr) (umask : Nat) :
    ∃ u, Transfer.setPermissions (.ok (Transfer.answers (some (some x)) missing bad)) umask =
      .ok u ∧ if n = 0 then u = umask else objMode u = 0o770 := by
  have hb := Transfer.parseBool_octal h hn
  by_cases h0 : n = 0
  · subst h0
    obtain ⟨t, rfl⟩ := Transfer.octal_head h
    refine ⟨umask, ?_, by simp⟩
    simp [Transfer.setPermissions, Transfer.answers, hb, Transfer.wantedPerms, ofGit, bind,
      Except.bind, pure, Except.pure]
  · refine ⟨Transfer.umaskFor 0o660, ?_, by rw [if_neg h0]; decide⟩
    simp [Transfer.setPermissions, Transfer.answers, hb, h0, Transfer.wantedPerms, ofGit, bind,
      Except.bind, pure, Except.pure]

/-- C50: what the code would do with an octal value, were it not read as a boolean. -/
theorem C50_octal_intended {x : Bytes} {n : Nat} (h : Octal x n) (hn : n ≤ 0o777) (e : GitErr)
    (umask : Nat) :
    ∃ u, Transfer.setPermissions (.ok ⟨.ok x, .error e⟩) umask = .ok u ∧ objMode u = plusX n := by
  refine ⟨Transfer.umaskFor n, ?_, ?_⟩
  · obtain ⟨t, rfl⟩ := Transfer.octal_head h
    simp [Transfer.setPermissions, Transfer.wantedPerms, ofGit, bind, Except.bind, pure,
      Except.pure, Transfer.parseOctal_octal h (by omega)]
  · rw [Transfer.objMode_umaskFor]
    have hlt : plusX n < 2 ^ 9 := by
      unfold plusX
      refine Nat.or_lt_two_pow (by omega) ?_
      have : n &&& 0o444 ≤ 0o444 := Nat.and_le_right
      omega
    rw [show (0o777 : Nat) = 2 ^ 9 - 1 from rfl, Nat.and_two_pow_sub_one_eq_mod]
    exact Nat.mod_eq_of_lt hlt

theorem octal_0640 : Octal b!"0640" 0o640 :=
  .digit (d := 0) (.digit (d := 4) (.digit (d := 6) .zero (by decide)) (by decide)) (by decide)

/-- C50 is wrong: with core.sharedRepository = 0640, which asks for 0750, objects get 0770: members of
the group may write them. -/
theorem C50_refuted : ∃ (x : Bytes) (n u : Nat), Octal x n ∧ n ≤ 0o777 ∧
    (∀ missing bad umask,
      Transfer.setPermissions (.ok (Transfer.answers (some (some x)) missing bad)) umask = .ok u) ∧
    objMode u ≠ plusX n := by
  refine ⟨b!"0640", 0o640, Transfer.umaskFor 0o660, octal_0640, by decide, ?_, by decide⟩
  intro missing bad umask
  have hb := Transfer.parseBool_octal octal_0640 (by decide)
  simp [Transfer.setPermissions, Transfer.answers, hb, Transfer.wantedPerms, ofGit, bind,
    Except.bind, pure, Except.pure]

end Verif
