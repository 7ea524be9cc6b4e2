import Verif.Lemmas.Own
import Verif.Spec.Paths
import Verif.Props.Parsing
import Verif.Tests.Demo
/-! Properties C14, C21, C53: what a server process does to the file system. -/
namespace Verif
open Spec

/-! ### C21 -/

theorem isOid_hexEncode {b : Bytes} (h : b.length = 32) : IsOid (hexEncode b) := by
  refine ⟨by rw [hexEncode_length, h], ?_⟩
  clear h
  induction b with
  | nil => intro x hx; cases hx
  | cons y b ih =>
    have hd : ∀ n, n < 16 → hexDigit n ∈ b!"0123456789abcdef" := by
      intro n hn
      have : ∀ n : Fin 16, hexDigit n.1 ∈ b!"0123456789abcdef" := by decide +kernel
      exact this ⟨n, hn⟩
    intro x hx
    have hy : y.toNat < 256 := y.toNat_lt
    simp only [hexEncode, List.mem_cons] at hx
    rcases hx with rfl | rfl | hx
    · exact hd _ (by omega)
    · exact hd _ (by omega)
    · exact ih x hx

/-- Everything the ghost state says is owned was created before. -/
def Own.From (cfg : Cfg) (past : List Event) (s : Own) : Prop :=
  (∀ p i c, s.tmp = some (p, i, c) → MyTemp cfg.root past p ∧
    ∃ pre uid, (⟨.createTemp (cfg.root ++ [b!"incomplete"]) pre uid, .ok (p, i)⟩ : Event) ∈ past) ∧
  (∀ i ∈ s.inos, ∃ x uid, (⟨.createNew (lockTemp cfg x) uid, .ok i⟩ : Event) ∈ past)

theorem MyTemp.mono {root : Path} {past : List Event} {p : Path} (e : Event)
    (h : MyTemp root past p) : MyTemp root (past ++ [e]) p := by
  obtain ⟨a, b, c, d, h1, h2⟩ := h
  exact ⟨a, b, c, d, h1, by simp [h2]⟩

theorem Own.From.mono {cfg : Cfg} {past : List Event} {s : Own} (e : Event) (h : s.From cfg past) :
    s.From cfg (past ++ [e]) := by
  refine ⟨fun p i c hp => ?_, fun i hi => ?_⟩
  · obtain ⟨h1, a, b, h2⟩ := h.1 p i c hp
    exact ⟨MyTemp.mono e h1, a, b, by simp [h2]⟩
  · obtain ⟨x, u, h2⟩ := h.2 i hi
    exact ⟨x, u, by simp [h2]⟩

theorem Own.From.step {cfg : Cfg} {past : List Event} {s : Own} {o : Op} {x : Resp o}
    (h : s.From cfg past) (hm : s.may cfg o) (hp : Event.Possible ⟨o, x⟩) :
    (s.upd o x).From cfg (past ++ [⟨o, x⟩]) := by
  show (s.base o x).From cfg (past ++ [⟨o, x⟩])
  have h' := h.mono ⟨o, x⟩
  have wr : ∀ i b ok, (s.wrote i b ok).From cfg (past ++ [⟨o, x⟩]) := by
    intro i b ok
    unfold Own.wrote
    split
    · rename_i p j c hs
      split
      · refine ⟨fun p' i' c' e => ?_, h'.2⟩
        simp only [Option.some.injEq, Prod.mk.injEq] at e
        obtain ⟨rfl, rfl, _⟩ := e
        exact h'.1 _ _ _ hs
      · exact h'
    · exact h'
  cases o with
  | createTemp d pre uid =>
    obtain ⟨rfl, _⟩ := hm
    cases x with
    | error e => exact h'
    | ok pi =>
      obtain ⟨p, i⟩ := pi
      obtain ⟨sfx, hs⟩ := hp
      refine ⟨fun p' i' c' e => ?_, h'.2⟩
      simp only [Own.base, Option.some.injEq, Prod.mk.injEq] at e
      obtain ⟨rfl, rfl, _⟩ := e
      have hmem : (⟨.createTemp (cfg.root ++ [b!"incomplete"]) pre uid, .ok (p, i)⟩ : Event) ∈
          past ++ [⟨.createTemp (incompleteDir cfg.root) pre uid, .ok (p, i)⟩] := by
        simp [incompleteDir]
      refine ⟨⟨pre, uid, i, pre ++ sfx, ?_, hmem⟩, pre, uid, hmem⟩
      simp [hs, incompleteDir]
  | createNew p uid =>
    obtain ⟨y, rfl⟩ := hm
    cases x with
    | error e => exact h'
    | ok i =>
      refine ⟨h'.1, fun j hj => ?_⟩
      simp only [Own.base, List.mem_cons] at hj
      rcases hj with rfl | hj
      · exact ⟨y, uid, by simp⟩
      · exact h'.2 j hj
  | write i b => cases x <;> exact wr _ _ _
  | rename a b =>
    cases x with
    | error e => exact h'
    | ok u => exact ⟨fun p i c e => (by cases e), h'.2⟩
  | unlink p =>
    show (s.removed p).From _ _
    unfold Own.removed
    split
    · split
      · exact ⟨fun p i c e => (by cases e), h'.2⟩
      · exact h'
    · exact h'
  | _ => exact h'

/-- **C21.** Whatever the client sends, whatever the OS answers, and wherever the process is
stopped: every call it made only concerns the places allowed. (SHA-256 yields 32 bytes.) -/
theorem C21_confined (cfg : Cfg) (hsha : ∀ b, (cfg.sha b).length = 32) (op : Bytes) (r : Rdr)
    (tr : List Event) (h : (mainProg cfg op r).Did tr) (hp : ∀ e ∈ tr, e.Possible) :
    ∀ past e future, tr = past ++ e :: future → Confined cfg.root past e.1 := by
  have hid : ∀ x, IsOid (lockId cfg x) := fun x => isOid_hexEncode (hsha _)
  suffices H : ∀ (tr past : List Event) (s : Own), s.From cfg past → (Logic.own cfg).PreTr s tr →
      (∀ e ∈ tr, e.Possible) → ∀ p e f, tr = p ++ e :: f → Confined cfg.root (past ++ p) e.1 by
    intro past e future he
    have := H tr [] ⟨none, [], none⟩ ⟨fun _ _ _ h => (by cases h), fun _ h => (by cases h)⟩
      (Prog.wp_did (own_mainProg cfg op r) h (Logic.legalTr_of_forall fun _ _ _ => trivial)) hp past e future he
    simpa using this
  intro tr
  induction tr with
  | nil => intro _ _ _ _ _ p e f he; simp at he
  | cons e0 tr ih =>
    intro past s hs hpre hposs p e f he
    cases p with
    | cons p0 p =>
      simp only [List.cons_append, List.cons.injEq] at he
      obtain ⟨rfl, he⟩ := he
      have := ih (past ++ [e0]) _ (hs.step hpre.1 (hposs e0 (by simp))) hpre.2
        (fun e he => hposs e (by simp [he])) p e f he
      simpa using this
    | nil =>
      simp only [List.nil_append, List.cons.injEq] at he
      obtain ⟨rfl, rfl⟩ := he
      simp only [List.append_nil]
      have hm : s.may cfg e0.1 := hpre.1
      obtain ⟨o, x⟩ := e0
      cases o with
      | mkdirAll p =>
        rcases hm with h | ⟨oid, h1, h2⟩
        · exact .inl h
        · refine .inr ⟨oid, (oidValid_iff _).mp h1, ?_⟩
          subst h2
          have e : objPath cfg.root oid = objectDir cfg.root oid ++ [oid] := by
            simp [objPath, objectDir]
          rw [e, List.dropLast_concat]
      | createTemp d pre uid => exact hm.1
      | createNew p uid =>
        obtain ⟨y, rfl⟩ := hm
        exact ⟨lockId cfg y, hid y, by simp [lockTemp, lockTempFile, locksDir]⟩
      | write i b =>
        rcases hm with ⟨p, c, h⟩ | h
        · obtain ⟨_, a, b, h2⟩ := hs.1 _ _ _ h
          exact .inl ⟨a, b, p, h2⟩
        · obtain ⟨y, u, h2⟩ := hs.2 _ h.1
          refine .inr ⟨lockId cfg y, u, hid y, ?_⟩
          have e : lockTempFile cfg.root (lockId cfg y) = lockTemp cfg y := by
            simp [lockTemp, lockTempFile, locksDir]
          rw [e]; exact h2
      | rename a b =>
        obtain ⟨i, c, h1, h2, rfl⟩ := hm
        refine ⟨(hs.1 _ _ _ h1).1, _, (oidValid_iff _).mp h2, ?_⟩
        simp [objPath, objectFile, objectDir]
      | link a b =>
        obtain ⟨y, _, _, rfl, rfl, _⟩ := hm
        exact ⟨lockId cfg y, hid y, by simp [lockTemp, lockTempFile, locksDir],
          by simp [lockPath, lockFile, locksDir]⟩
      | unlink p =>
        rcases hm with ⟨i, c, h⟩ | ⟨y, ⟨rfl, _⟩ | rfl⟩
        · exact .inl (hs.1 _ _ _ h).1
        · exact .inr ⟨lockId cfg y, hid y, .inl (by simp [lockTemp, lockTempFile, locksDir])⟩
        · exact .inr ⟨lockId cfg y, hid y, .inr (by simp [lockPath, lockFile, locksDir])⟩
      | chmod p m =>
        obtain ⟨_, oid, h, rfl⟩ := hm
        exact ⟨oid, (oidValid_iff _).mp h, by simp [objPath, objectFile, objectDir]⟩
      | _ => trivial

/-! ### C53 -/

/-- `p` was removed, or moved away, in this event. -/
def Event.Gone (p : Path) : Event → Prop
  | ⟨.rename src _, x⟩ => src = p ∧ x = .ok ()
  | ⟨.unlink q, _⟩ => q = p
  | _ => False

theorem own_gone (cfg : Cfg) : ∀ (tr : List Event) (s : Own) (p : Path) (i : Ino) (c : Option Bytes),
    s.tmp = some (p, i, c) → (Logic.own cfg).PreTr s tr → ((Logic.own cfg).fold s tr).tmp = none →
    ∃ e ∈ tr, Event.Gone p e
  | [], s, p, i, c, h, _, hf => by
    simp only [Logic.fold] at hf
    rw [hf] at h; cases h
  | ⟨o, x⟩ :: tr, s, p, i, c, h, hpre, hf => by
    have hm : s.may cfg o := hpre.1
    have key : ∀ i' c', (s.upd o x).tmp = some (p, i', c') → ∃ e ∈ (⟨o, x⟩ : Event) :: tr, Event.Gone p e := by
      intro i' c' h'
      obtain ⟨e, he, hg⟩ := own_gone cfg tr _ p i' c' h' hpre.2 hf
      exact ⟨e, by simp [he], hg⟩
    have wr : ∀ j b ok, ∃ c', (s.wrote j b ok).tmp = some (p, i, c') := by
      intro j b ok
      unfold Own.wrote
      rw [h]
      simp only []
      split
      · exact ⟨_, rfl⟩
      · exact ⟨_, h⟩
    cases o with
    | createTemp d pre uid => rw [hm.2] at h; cases h
    | createNew q u => cases x <;> exact key _ _ h
    | write j b =>
      cases x with
      | ok u => obtain ⟨c', hc⟩ := wr j b true; exact key _ _ hc
      | error e => obtain ⟨c', hc⟩ := wr j b false; exact key _ _ hc
    | rename a b =>
      cases x with
      | error e => exact key _ _ h
      | ok u =>
        obtain ⟨i', c', h1, _⟩ := hm
        rw [h] at h1
        simp only [Option.some.injEq, Prod.mk.injEq] at h1
        exact ⟨⟨.rename a b, .ok u⟩, by simp, h1.1.symm, rfl⟩
    | unlink q =>
      by_cases hq : p = q
      · exact ⟨⟨.unlink q, x⟩, by simp, hq.symm⟩
      · refine key i c ?_
        show (s.removed q).tmp = _
        simp [Own.removed, h, hq]
    | _ => exact key _ _ h

/-- **C53.** When `put-object` returns, in whatever way, with whatever responses from the OS, every
temporary file it created was afterwards moved away by a successful rename, or its removal was
requested. -/
theorem C53_no_temp_left (cfg : Cfg) (oid : Bytes) (r r' : Rdr) (tr : List Event) (x : Res Status)
    (h : (putObject cfg oid r).Finished tr (x, r'))
    (past future : List Event) (d : Path) (pre : Bytes) (uid : Nat) (p : Path) (i : Ino)
    (he : tr = past ++ ⟨.createTemp d pre uid, .ok (p, i)⟩ :: future) :
    ∃ e ∈ future, Event.Gone p e := by
  have hw := tidy_putObject cfg oid r ⟨none, [], none⟩ rfl
  have hl : (Logic.own cfg).LegalTr ⟨none, [], none⟩ tr := Logic.legalTr_of_forall fun _ _ _ => trivial
  have hpre := Prog.wp_did hw h.did hl
  have hfin : ((Logic.own cfg).fold ⟨none, [], none⟩ tr).tmp = none := Prog.wp_finished hw h hl
  subst he
  generalize (⟨none, [], none⟩ : Own) = s at hpre hfin
  clear hw hl h
  induction past generalizing s with
  | nil =>
    simp only [List.nil_append, Logic.PreTr, Logic.fold] at hpre hfin
    exact own_gone cfg future _ p i (some []) rfl hpre.2 hfin
  | cons e past ih => exact ih _ hpre.2 hfin

/-- The hypotheses of `C53_no_temp_left` are met by an upload whose data has the wrong size. -/
example : ((putObject Tests.cfg Tests.oidA (Rdr.new b!"000bsize=7\n0001000aabc1230000" eofErr false)).events
    Tests.calm ⟨Tests.fsA, [], 0⟩).map Sigma.fst =
    [.createTemp (incompleteDir Tests.cfg.root) Tests.oidA 1000, .write 1 b!"abc123",
     .unlink (incompleteDir Tests.cfg.root ++ [Tests.oidA])] := by decide +kernel

/-! ### C14 -/

/-- A successful rename to an object path. -/
def Event.Installed : Event → Prop
  | ⟨.rename _ _, x⟩ => x = .ok ()
  | _ => False

/-- Remembers whether a rename succeeded. -/
def Logic.installed : Logic Bool where
  pre _ _ := True
  upd s o x := match o, x with
    | .rename _ _, .ok _ => true
    | _, _ => s
  legal _ _ _ := True

theorem installed_fold : ∀ (tr : List Event) (s : Bool),
    (s = true ∨ ∃ e ∈ tr, e.Installed) → Logic.installed.fold s tr = true
  | [], s, h => by
    rcases h with h | ⟨e, he, _⟩
    · exact h
    · cases he
  | ⟨o, x⟩ :: tr, s, h => by
    refine installed_fold tr _ ?_
    rcases h with h | ⟨e, he, hi⟩
    · left
      subst h
      cases o <;> first | rfl | (cases x <;> rfl)
    · rcases List.mem_cons.mp he with rfl | he
      · left
        cases o <;> first | (cases hi; done) | (cases hi; rfl)
      · exact .inr ⟨e, he, hi⟩

/-- Not a rename. -/
def Op.notRename : Op → Prop
  | .rename _ _ => False
  | _ => True

theorem installed_of_all {α : Type} {m : M α} (h : m.All Op.notRename) (r : Rdr) (s : Bool) :
    m.wp Logic.installed r s (fun _ _ s' => s' = s) := by
  refine M.All.wp h r s (fun _ _ => trivial) ?_
  intro o x ho _
  cases o <;> first | rfl | cases ho

theorem installed_put (cfg : Cfg) (oid : Bytes) (r : Rdr) :
    (putObject cfg oid).wp Logic.installed r false (fun x _ s' =>
      s' = true → x = .ok Status.success ∨ ∃ e, x = .err e ∧ e.kind = .ioError) := by
  have nr : ∀ {α β : Type} {m : M α} {f : α → M β} {r : Rdr} {Q : Res β → Rdr → Bool → Prop},
      m.All Op.notRename → (∀ e r, Q (.err e) r false) → (∀ r, Q .panic r false) →
      (∀ a r, (f a).wp Logic.installed r false Q) → (m >>= f).wp Logic.installed r false Q := by
    intro α β m f r Q hm he hp hf
    rw [M.wp_bind]
    refine M.wp_mono (installed_of_all hm r false) ?_
    rintro (a | e | _) r' s' rfl
    · exact hf a r'
    · exact he e r'
    · exact hp r'
  have bad : ∀ {x : Res Status}, false = true → x = .ok Status.success ∨ ∃ e, x = .err e ∧ e.kind = .ioError :=
    fun h => by cases h
  unfold putObject
  refine nr (by unfold oidNew; all_ops) (fun _ _ => bad) (fun _ => bad) fun a r => ?_
  refine nr (.rdr _) (fun _ _ => bad) (fun _ => bad) fun items r => ?_
  refine nr (.ofRes _) (fun _ _ => bad) (fun _ => bad) fun args r => ?_
  refine nr (.ofRes _) (fun _ _ => bad) (fun _ => bad) fun n r => ?_
  refine nr ?_ (fun _ _ => bad) (fun _ => bad) fun t r => ?_
  · have hc : ∀ f i k acc, (copyInF cfg.copyBuf i f k acc).All Op.notRename := by
      intro f i
      induction f with
      | zero => intro k acc; exact .panic
      | succ f ih =>
        intro k acc
        unfold copyInF
        refine .bind (.rdr _) fun d => ?_
        split
        · exact .pure _
        · exact .bind (.op trivial) fun _ => .bind (.ofIo _) fun _ => ih _ _
    have hd : ∀ p, (dropFile p).All Op.notRename := fun p => .bind (.op trivial) fun _ => .pure _
    unfold startUpload
    refine .bind (.op trivial) fun t => .bind (.ofIo _) fun pi => .onFail (.bind ?_ fun _ => .pure _) (hd _)
    exact fun r => hc _ _ _ _ r
  obtain ⟨p, data⟩ := t
  simp only []
  have hd : (dropFile p).All Op.notRename := .bind (.op trivial) fun _ => .pure _
  refine nr (.onFail ?_ hd) (fun _ _ => bad) (fun _ => bad) fun u r => ?_
  · unfold checkUpload oidNew
    all_ops
  rw [M.wp_bind]
  unfold finishUpload
  rw [M.wp_bind, M.wp_onFail]
  refine nr (.op trivial) ?_ ?_ fun d r => ?_
  · intro e r
    exact M.wp_mono (installed_of_all hd r false) fun _ _ s h => h ▸ bad
  · intro r
    exact M.wp_mono (installed_of_all hd r false) fun _ _ s h => h ▸ bad
  refine nr (.ofIo _) ?_ ?_ fun u r => ?_
  · intro e r
    exact M.wp_mono (installed_of_all hd r false) fun _ _ s h => h ▸ bad
  · intro r
    exact M.wp_mono (installed_of_all hd r false) fun _ _ s h => h ▸ bad
  rw [M.wp_bind, M.wp_op]
  refine ⟨trivial, fun y _ => ?_⟩
  cases y with
  | error e => exact M.wp_mono (installed_of_all hd r false) fun _ _ s h => h ▸ bad
  | ok u =>
    simp only [Res.elim_ok, M.wp_pure]
    unfold fixPermissions
    rw [M.wp_bind, M.wp_op]
    refine ⟨trivial, fun y _ => ?_⟩
    simp only [Res.elim_ok]
    rw [M.wp_bind, M.wp_ofIo]
    cases y with
    | error e => exact fun _ => .inr ⟨_, rfl, rfl⟩
    | ok st =>
      simp only [Res.elim_ok]
      rw [M.wp_bind, M.wp_op]
      refine ⟨trivial, fun z _ => ?_⟩
      simp only [Res.elim_ok]
      rw [M.wp_ofIo]
      cases z with
      | error e => exact fun _ => .inr ⟨_, rfl, rfl⟩
      | ok u => exact fun _ => .inl trivial

/-- **C14**, replies: if a `put-object` made a successful rename, it ends with success or with an
I/O error (answered with 500), whatever the OS answers. So a reply with status 400 means that no
rename was made; and nothing but a rename changes an object path (`C14_only_rename`). -/
theorem C14_refused (cfg : Cfg) (oid : Bytes) (r r' : Rdr) (tr : List Event) (x : Res Status)
    (h : (putObject cfg oid r).Finished tr (x, r')) (hi : ∃ e ∈ tr, e.Installed) :
    x = .ok Status.success ∨ ∃ e, x = .err e ∧ (errorStatus e).code = 500 := by
  have hl : Logic.installed.LegalTr false tr := Logic.legalTr_of_forall fun _ _ _ => trivial
  rcases Prog.wp_finished (installed_put cfg oid r) h hl (installed_fold tr false (.inr hi)) with h | ⟨e, h1, h2⟩
  · exact .inl h
  · refine .inr ⟨e, h1, ?_⟩
    unfold errorStatus
    rw [h2]
    rfl

end Verif
