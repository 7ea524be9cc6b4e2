import Verif.Lemmas.AmongList
/-! Turns and whole sessions with requests about locks, among other processes. -/
namespace Verif
open Spec

variable {cfg : Cfg} {mode : Mode} {V : View cfg.root cfg.sha}

/-! ### Facts that need no conditions -/

/-- Calls that print nothing and leave the objects alone. -/
def Op.hushed : Op → Bool
  | .out _ | .rename _ _ => false
  | _ => true

abbrev Hushed (o : Op) : Prop := o.hushed = true

theorem Looks.hushed {o : Op} (h : Looks o) : Hushed o := by
  cases o <;> simp_all [Looks, Hushed, Op.looks, Op.hushed]

theorem hushed_dropFile (p : Path) : (dropFile p).All Hushed := by
  unfold dropFile
  exact .bind (.op rfl) fun _ => .pure _

theorem hushed_lockCreate (cfg : Cfg) (p : Bytes) : (lockCreate cfg p).All Hushed := by
  unfold lockCreate lockWrite lockPersist
  have h1 := (looks_timestamp cfg).mono fun _ => Looks.hushed
  have h2 := (looks_userForFile cfg (.exact (lockPath cfg p))).mono fun _ => Looks.hushed
  have h3 := hushed_dropFile (lockTemp cfg p)
  refine .bind h1 fun _ => .bind (.after (.bind (.bind (.op rfl) fun x => ?_) fun _ =>
    .bind (.op rfl) fun _ => ?_) h3) fun _ => .bind h2 fun _ => .bind h1 fun _ => .pure _
  · split
    · all_ops
    · exact .bind (.op rfl) fun _ => .ofIo _
  · all_ops

theorem hushed_lockCmd (cfg : Cfg) : (lockCmd cfg).All Hushed := by
  unfold lockCmd lockLoop
  have h1 := looks_readToFlushParse.mono fun _ => Looks.hushed
  have h2 := hushed_lockCreate cfg
  have h3 := fun p => (looks_lockFromPath cfg p).mono fun _ => Looks.hushed
  have h4 := fun p => (looks_lockArgs cfg p).mono fun _ => Looks.hushed
  repeat first
    | exact h2 _
    | exact h3 _
    | exact h4 _
    | all_op

theorem hushed_unlockCmd (cfg : Cfg) (id : Bytes) : (unlockCmd cfg id).All Hushed := by
  unfold unlockCmd readToFlush
  have h2 := (looks_lockFromId cfg id).mono fun _ => Looks.hushed
  have h4 := fun p => (looks_lockArgs cfg p).mono fun _ => Looks.hushed
  have h5 : ∀ l, (lockUnlock cfg l).All Hushed := fun l => by
    unfold lockUnlock
    exact .bind (.op rfl) fun _ => .ofIo _
  repeat first
    | exact h4 _
    | exact h5 _
    | all_op

theorem amid_hushed {α : Type} {m : M α} (hm : m.All Hushed) (r : Rdr) (g : Gh) :
    m.amid V r g (fun _ _ g' => g.now ≤ g'.now ∧ V.ρ.out V.i g.now g'.now = [] ∧
      V.ρ.Leaves cfg.root V.i g.now g'.now none) := by
  have hm := hm r
  unfold M.amid M.wp
  generalize m r = p at hm
  induction p generalizing g with
  | ret => exact ⟨Nat.le_refl _, out_self _ _ _, (View.Span.refl (V := V) _).leaves⟩
  | call o k ih =>
    refine ⟨trivial, fun x hx => Prog.wp_mono (ih x _ (hm.2 x)) ?_⟩
    rintro a g' ⟨h1, h2, h3⟩
    have hcall : V.Call g o x (V.next g.now) := ⟨hx.1, hx.2.1, hx.2.2⟩
    have hp : o.prints = [] := by
      have := hm.1
      cases o <;> first | rfl | exact absurd this Bool.false_ne_true
    have hk : o.keeps = true := by
      have := hm.1
      cases o <;> first | rfl | exact absurd this Bool.false_ne_true
    have hle : g.now ≤ V.next g.now + 1 := Nat.le_succ_of_le hx.1.le
    refine ⟨Nat.le_trans hle h1, ?_, (hcall.leaves_keeps hk).trans h3⟩
    rw [out_append _ _ hle h1, hcall.printed, hp]
    exact h2

/-- Calls that only look change no lock. -/
theorem amid_looks {α : Type} {m : M α} (hm : m.All Looks) (r : Rdr) (g : Gh) :
    m.amid V r g (fun _ _ g' => V.ρ.LeavesLocks cfg.root V.i g.now g'.now none) := by
  have hm := hm r
  unfold M.amid M.wp
  generalize m r = p at hm
  induction p generalizing g with
  | ret => exact (View.Span.refl (V := V) _).locks
  | call o k ih =>
    refine ⟨trivial, fun x hx => Prog.wp_mono (ih x _ (hm.2 x)) ?_⟩
    rintro a g' h3
    have hcall : V.Call g o x (V.next g.now) := ⟨hx.1, hx.2.1, hx.2.2⟩
    have hk : o.mild = true := by
      have := hm.1
      cases o <;> first | rfl | exact absurd this Bool.false_ne_true
    exact (hcall.leavesLocks fun id _ _ => (hcall.mild hk id).2).trans h3

theorem wp_of_only {σ α : Type} {L : Logic σ} (hL : ∀ s o, L.pre s o) {m : M α} {r : Rdr} {Q : Res α → Rdr → Prop}
    (h : m.wp (Logic.only fun _ => True) r () (fun x r' _ => Q x r')) (s : σ) :
    m.wp L r s (fun x r' _ => Q x r') := by
  unfold M.wp at *
  generalize m r = p at h
  induction p generalizing s with
  | ret => exact h
  | call o k ih => exact ⟨hL s o, fun x _ => ih x _ (h.2 x trivial)⟩

/-- A status that can be sent without reading a file. -/
structure Sendable (st : Status) : Prop where
  code : CodeOk st
  data : st.messages.isSome ∨ st.reader = none

macro "plain" : tactic => `(tactic| (
  refine M.Post.pure ⟨?_, by first | exact .inl rfl | exact .inr rfl⟩
  first | exact c200 | exact c201 | exact c400 | exact c403 | exact c404 | exact c409 | exact c500))

theorem plain_lockCmd (cfg : Cfg) : (lockCmd cfg).Post Sendable := by
  unfold lockCmd lockLoop
  refine .bind fun _ => .bind fun _ => ?_
  split
  · refine .bind fun _ => ?_
    split
    · refine .bind fun _ => ?_
      plain
    · refine .ite ?_ (.throw _)
      refine .bind fun x => ?_
      cases x with
      | none => exact .panic
      | some l =>
        refine .bind fun _ => ?_
        plain
  · exact .throw _

theorem plain_unlock (cfg : Cfg) (a : Bytes) : (unlockCmd cfg a).Post Sendable := by
  unfold unlockCmd
  refine .bind fun _ => ?_
  split
  · exact .throw _
  refine .bind fun _ => ?_
  split
  · plain
  refine .bind fun _ => .bind fun _ => ?_
  repeat' (first | split | exact .throw _ | plain)

theorem plain_list (cfg : Cfg) (o : Bool) : (listLocks cfg o).Post Sendable := by
  unfold listLocks listLocksForPath
  refine .bind fun _ => .bind fun _ => .bind fun _ => ?_
  simp only []
  split
  · refine .bind fun x => ?_
    cases x with
    | none => plain
    | some l =>
      refine .ite ?_ ?_
      · plain
      · refine .bind fun _ => ?_
        plain
  · refine .bind fun _ => .bind fun _ => ?_
    plain

theorem plain_errorStatus (e : Err) : Sendable (errorStatus e) := by
  refine ⟨codeOk_errorStatus e, ?_⟩
  unfold errorStatus
  split <;> exact .inl rfl

/-! ### Handlers -/

/-- What a handler of a request about locks, started at moment `a`, has found out. -/
def View.FoundOut (V : View cfg.root cfg.sha) (mode : Mode) (q : Request) (a : Nat) (x : Res Status) (g : Gh) : Prop :=
  Excused V.ρ V.i cfg a g.now q ∨ ∃ st ans, outcome x = some st ∧ Answers V.ρ V.i cfg mode a g.now q ans ∧
    V.StatusFor st ans g.now

/-- What a handler of a request about locks, started at moment `a`, has done. -/
structure View.Coped (V : View cfg.root cfg.sha) (mode : Mode) (q : Request) (r' : Rdr) (a : Nat)
    (x : Res Status) (r : Rdr) (g : Gh) : Prop where
  rdr : r = r'
  le : a ≤ g.now
  out : V.ρ.out V.i a g.now = []
  leaves : V.ρ.Leaves cfg.root V.i a g.now none
  plain : ∀ st, x = .ok st → Sendable st
  found : V.FoundOut mode q a x g
  locks : lockOf cfg q = none → V.ρ.LeavesLocks cfg.root V.i a g.now none

theorem amid_coped {q : Request} {m : M Status} {r r' : Rdr} {g : Gh} (h1 : m.All Hushed)
    (h2 : m.EndsAt (fun _ => True) r r') (h3 : m.Post Sendable) (h0 : lockOf cfg q = none → m.All Looks)
    (h4 : m.amid V r g (fun x _ g' => V.FoundOut mode q g.now x g')) :
    m.amid V r g (V.Coped mode q r' g.now) := by
  have e0 : m.amid V r g (fun _ _ g' => lockOf cfg q = none → V.ρ.LeavesLocks cfg.root V.i g.now g'.now none) := by
    by_cases hq : lockOf cfg q = none
    · exact amid_mono (amid_looks (h0 hq) r g) fun _ _ _ h _ => h
    · exact amid_mono (amid_le m r g) fun _ _ _ _ h => absurd h hq
  have e1 := amid_hushed (V := V) h1 r g
  have e2 := wp_of_only (L := V.L) (fun _ _ => trivial) h2 g
  have e3 := h3 Gh V.L r g fun _ _ => trivial
  refine Prog.wp_mono (Prog.wp_and (Prog.wp_and e1 e2) (Prog.wp_and e3 (Prog.wp_and h4 e0))) ?_
  rintro ⟨x, r1⟩ g1 ⟨⟨⟨k1, k2, k3⟩, k4⟩, k5, k6, k7⟩
  exact ⟨k4, k1, k2, k3, k5, k6, k7⟩

/-- What a turn started at moment `a` has to do for request `q` about a lock. -/
def View.Managed (V : View cfg.root cfg.sha) (mode : Mode) (q : Request) (tn : Turn) (r' : Rdr) (a : Nat)
    (x : Res Turn) (r : Rdr) (g : Gh) : Prop :=
  V.Turned mode q tn r' a x r g ∨ ∃ e, a ≤ e ∧ e ≤ g.now ∧ V.ρ.out V.i a e = [] ∧
    Excused V.ρ V.i cfg a e q ∧ V.ρ.Leaves cfg.root V.i a g.now none ∧
    (lockOf cfg q = none → V.ρ.LeavesLocks cfg.root V.i a g.now none) ∧
    ((x = .ok tn ∧ r = r' ∧ IsReply (V.ρ.out V.i e g.now)) ∨ (x = .panic ∧ V.ρ.out V.i e g.now = []))

theorem amid_turn_coped {q : Request} {l rest1 : Bytes} {hw : Bytes} {r r' : Rdr} {g : Gh} {cmd : Bytes}
    {args : List Bytes} (hf : Spec.Frame (.data l) hw) (hi : r.input = hw ++ rest1) (hl : l ≠ [])
    (hwords : commandWords l = cmd :: args) (hq : cmd ≠ b!"quit")
    (hd : (dispatch cfg mode cmd args.head?).amid V { r with input := rest1 } g (V.Coped mode q r' g.now)) :
    (turn cfg mode).amid V r g (V.Managed mode q .again r' g.now) := by
  unfold turn
  refine amid_bind (P := fun x r2 g2 => x = .ok (.ok (.data l)) ∧ r2 = { r with input := rest1 } ∧ g2 = g) ?_ ?_
  · unfold M.amid
    rw [M.wp_attempt, M.wp_rdr, readPacket_frame hf r rest1 hi]
    exact show _ ∧ _ ∧ _ from ⟨rfl, rfl, rfl⟩
  rintro x r2 g ⟨rfl, rfl, rfl⟩
  simp only [Res.elim_ok, Packet.data?, hl, if_false, hwords, List.head?_cons, Option.getD_some, List.tail_cons, hq,
    false_and]
  refine amid_bind (P := fun x r2 g2 => ∃ y, V.Coped mode q r' g.now y r2 g2 ∧
    x = match y with | .ok st => .ok (.ok st) | .err e => .ok (.error e) | .panic => .panic) ?_ ?_
  · unfold M.amid
    rw [M.wp_attempt]
    refine M.wp_mono hd ?_
    rintro (st | e | _) r2 w2 h <;> exact ⟨_, h, rfl⟩
  rintro x r2 g2 ⟨y, ⟨rfl, k1, k2, k3, k4, k5, k6⟩, rfl⟩
  have fin : ∀ st, Sendable st → outcome y = some st → (sendStatus st >>= fun _ => (pure Turn.again : M Turn)).amid V r2 g2
      (V.Managed mode q .again r2 g.now) := by
    intro st hst hy
    rcases k5 with k5 | ⟨st', ans, hy', h3, h4⟩
    · refine amid_bind (says_sendStatus st hst.data V r2 g2) ?_
      rintro x r3 g3 ⟨rfl, rfl, f1, f2⟩
      refine .inr ⟨g2.now, k1, f2.le, k2, k5, k3.trans f2.leaves, fun h => (k6 h).trans f2.locks, .inl ⟨rfl, rfl, ?_⟩⟩
      rw [f2.out]
      exact isReply_replyWith _ _ hst.code
    · obtain rfl : st = st' := Option.some.inj (hy.symm.trans hy')
      refine amid_bind (amid_status h4) ?_
      rintro x r3 g3 ⟨rfl, rfl, f1, b, f2, f3⟩
      exact .inl ⟨rfl, rfl, g2.now, ans, k1, f2.le, k2, h3, by rw [f2.out]; exact f3, f2.leaves, f2.locks⟩
  cases y with
  | ok st' => exact fin _ (k4 _ rfl) rfl
  | err e => exact fin _ (plain_errorStatus e) rfl
  | panic =>
    rcases k5 with k5 | ⟨st', ans, hy', _⟩
    · exact .inr ⟨g2.now, k1, Nat.le_refl _, k2, k5, k3, k6, .inr ⟨rfl, out_self _ _ _⟩⟩
    · cases hy'

/-- **One request.** -/
theorem amid_turn_one {q : Request} {ps : List Packet} {wire rest : Bytes} {r : Rdr} {g : Gh}
    (hsha : ∀ b, (cfg.sha b).length = 32) (hclk : ∀ a b t, V.ρ.ClockIn V.i cfg a b t → TimeOk cfg t)
    (hl : NoLockDirs cfg.root (V.fs 0)) (hone : OneEach (V.fs 0))
    (he : Encodes q ps) (hF : Frames ps wire) (hi : r.input = wire ++ rest) (hp : r.pending = [])
    (hal : Allowed mode q) (hd : Ready cfg (V.fs g.now)) :
    (turn cfg mode).amid V r g (V.Managed mode q (turnOf q) { r with input := rest } g.now) := by
  by_cases hob : OnObjects q
  · exact amid_mono (amid_turn hsha he hF hi hp hal hob hd) fun _ _ _ h => .inl h
  cases he with
  | version => exact absurd trivial hob
  | quit => exact absurd trivial hob
  | batch => exact absurd trivial hob
  | put => exact absurd trivial hob
  | verify => exact absurd trivial hob
  | get => exact absurd trivial hob
  | @lock l kv path ref hline ha hpa href =>
    obtain ⟨v, u, rfl, hv, hu⟩ := frames_split (ps := [Packet.data l]) hF
    rw [List.append_assoc] at hi
    have hm : mode = .upload := hal
    subst hm
    refine amid_turn_coped (frames_singleton hv) hi (isLine_ne hline (by simp))
      (cmd := b!"lock") (args := []) ?_ (by decide) (amid_coped (hushed_lockCmd cfg)
        (endsAt_lock (readToFlush_args hu rfl)) (plain_lockCmd cfg)
        (fun h => by cases h) (amid_lock hsha hclk ha hpa href hu rfl hl hd))
    rw [commandWords_line hline (by decide)]; decide
  | @listLocks l kv path cursor limit hline ha hlim hpa hcur =>
    obtain ⟨v, u, rfl, hv, hu⟩ := frames_split (ps := [Packet.data l]) hF
    rw [List.append_assoc] at hi
    refine amid_turn_coped (frames_singleton hv) hi (isLine_ne hline (by simp))
      (cmd := b!"list-lock") (args := []) ?_ (by decide) (amid_coped ((looks_listLocks cfg _).mono fun _ => Looks.hushed)
        (endsAt_listLocks (readToFlush_args hu rfl)) (plain_list cfg _) (fun _ => looks_listLocks cfg _) ?_)
    · rw [commandWords_line hline (by decide)]; decide
    · obtain ⟨m, hm, hget⟩ := C09_args_exact kv ha
      show (listLocks cfg (mode = .upload)).amid V _ g _
      unfold listLocks
      refine amid_readToFlushParse (readToFlush_args hu rfl) ?_
      refine amid_ofRes_bind hm ?_
      refine amid_ofRes_bind (limit_parse hlim hget) ?_
      simp only [hget, hpa, hcur]
      cases path with
      | none => exact amid_listAll hl hone hd
      | some path => exact amid_listPath hsha hl hd
  | @unlock l kv id hid hline =>
    obtain ⟨v, u, rfl, hv, hu⟩ := frames_split (ps := [Packet.data l]) hF
    rw [List.append_assoc] at hi
    obtain ⟨h1, h2⟩ := words_oid (cmd := b!"unlock") hid (by decide) hline
    have hm : mode = .upload := hal
    subst hm
    exact amid_turn_coped (frames_singleton hv) hi h2 h1 (by decide) (amid_coped (hushed_unlockCmd cfg _)
      (endsAt_unlock (readToFlush_args hu rfl)) (plain_unlock cfg _) (fun h => by cases h)
      (amid_unlock hid hu rfl hl hd))


/-! ### Sessions -/

/-- What the server has done with the requests `qs` since moment `a`, when it ends with `x`. -/
def View.Through (V : View cfg.root cfg.sha) (mode : Mode) (qs : List Request) (a : Nat) (x : Res Unit) (g : Gh) : Prop :=
  a ≤ g.now ∧ ((x = .ok () ∧ Serves V.ρ V.i cfg mode a qs g.now []) ∨
    (x = .panic ∧ ∃ b e q rest, Serves V.ρ V.i cfg mode a qs b (q :: rest) ∧ b ≤ e ∧ e ≤ g.now ∧
      V.ρ.out V.i b g.now = [] ∧ Excused V.ρ V.i cfg b e q ∧ V.ρ.Leaves cfg.root V.i b g.now none ∧
      (lockOf cfg q = none → V.ρ.LeavesLocks cfg.root V.i b g.now none)))

theorem amid_process_all (hsha : ∀ b, (cfg.sha b).length = 32) {qs : List Request} {wire : Bytes}
    (hclk : ∀ a b t, V.ρ.ClockIn V.i cfg a b t → TimeOk cfg t) (hl : NoLockDirs cfg.root (V.fs 0))
    (hone : OneEach (V.fs 0)) (hs : Session mode qs wire) :
    ∀ (f : Nat) (r : Rdr) (g : Gh), r.input = wire → r.pending = [] →
    r.fin.kind = .unexpectedEof → wire.length < f → Ready cfg (V.fs g.now) →
    (processF cfg mode f).amid V r g (fun x _ g' => V.Through mode qs g.now x g') := by
  induction hs with
  | eof =>
    intro f r g hi hp hfin hf hd
    obtain ⟨f, rfl⟩ : ∃ g, f = g + 1 := ⟨f - 1, by omega⟩
    rw [processF]
    refine amid_bind (amid_turn_eof hi hfin) ?_
    rintro x r' g' ⟨rfl, rfl, rfl⟩
    exact ⟨Nat.le_refl _, .inl ⟨rfl, .nil⟩⟩
  | @quit ps w1 rest he hF =>
    intro f r g hi hp hfin hf hd
    obtain ⟨f, rfl⟩ : ∃ g, f = g + 1 := ⟨f - 1, by omega⟩
    rw [processF]
    refine amid_bind (amid_turn hsha he hF hi hp trivial trivial hd) ?_
    rintro x r' g' ⟨rfl, rfl, e, ans, h1, h2, h3, h4, h5, h6, h7⟩
    exact ⟨Nat.le_trans h1 h2, .inl ⟨rfl, .cons h1 h2 h3 h4 h5 h6 h7 .nil⟩⟩
  | @cons q qs ps w1 ws he hF hal hq hS ih =>
    intro f r g hi hp hfin hf hd
    obtain ⟨f, rfl⟩ : ∃ g, f = g + 1 := ⟨f - 1, by omega⟩
    rw [processF]
    refine amid_bind (amid_turn_one hsha hclk hl hone he hF hi hp hal hd) ?_
    have hlen : 4 ≤ w1.length := by
      have := frames_length hF
      have := List.length_pos_iff.mpr (encodes_ne he)
      omega
    have htn : turnOf q = .again := by
      cases q <;> first | rfl | exact absurd rfl hq
    rw [htn]
    have next : ∀ g' : Gh, g.now ≤ g'.now → (∀ {c rest}, Serves V.ρ V.i cfg mode g'.now qs c rest →
        Serves V.ρ V.i cfg mode g.now (q :: qs) c rest) →
        (processF cfg mode f).amid V { r with input := ws } g' (fun x _ g2 => V.Through mode (q :: qs) g.now x g2) := by
      intro g' hle hcons
      refine amid_mono (ih f _ g' rfl hp hfin
        (by simp only [List.length_append] at hf; omega) (View.ready_le hd hle)) ?_
      rintro x r2 g2 ⟨k1, k2⟩
      refine ⟨Nat.le_trans hle k1, ?_⟩
      rcases k2 with ⟨k2, k3⟩ | ⟨k2, b, e, q', rest, k3, k4⟩
      · exact .inl ⟨k2, hcons k3⟩
      · exact .inr ⟨k2, b, e, q', rest, hcons k3, k4⟩
    rintro x r' g' (⟨rfl, rfl, e, ans, h1, h2, h3, h4, h5, h6, h7⟩ |
      ⟨e, h2, h3, h4, h5, h6, h1, ⟨rfl, rfl, h7⟩ | ⟨rfl, h7⟩⟩)
    · exact next g' (Nat.le_trans h1 h2) (.cons h1 h2 h3 h4 h5 h6 h7)
    · exact next g' (Nat.le_trans h2 h3) (.excused h2 h3 h4 h5 h7 h6 h1)
    · refine ⟨Nat.le_trans h2 h3, .inr ⟨rfl, g.now, e, q, qs, .nil, h2, h3, ?_, h5, h6, h1⟩⟩
      rw [out_append _ _ h2 h3, h4, h7]; rfl

theorem amid_program_all (hsha : ∀ b, (cfg.sha b).length = 32) {qs : List Request} {wire : Bytes}
    (hclk : ∀ a b t, V.ρ.ClockIn V.i cfg a b t → TimeOk cfg t) (hl : NoLockDirs cfg.root (V.fs 0))
    (hone : OneEach (V.fs 0)) (hs : Session mode qs wire)
    {r : Rdr} {g : Gh} (hi : r.input = wire) (hp : r.pending = []) (hfin : r.fin.kind = .unexpectedEof) :
    (runProgram cfg (Mode.operation mode)).amid V r g (fun x _ g' => ∃ a,
      V.Span g.now a b!"000eversion=1\n0000" ∧ V.Through mode qs a x g') := by
  unfold runProgram
  refine amid_bind (P := fun x r' g' => x = .ok () ∧ r' = r ∧ V.Span g.now g'.now [] ∧ Ready cfg (V.fs g'.now))
    (amid_mkdirs (V := V) (topDirs cfg.root) r g (fun _ h => h)) ?_
  rintro x r' g1 ⟨rfl, rfl, e1, hd1⟩
  simp only [Res.elim_ok]
  refine amid_bind (says_sendCapabilities V r' g1) ?_
  rintro x r2 g2 ⟨rfl, rfl, _, e3⟩
  have hcap : encMsg b!"version=1\n" ++ b!"0000" = b!"000eversion=1\n0000" := by decide
  rw [hcap] at e3
  simp only [Res.elim_ok]
  have main := amid_process_all (V := V) hsha hclk hl hone hs (r2.input.length + 1) r2 g2 hi hp hfin (by rw [hi]; omega)
    (View.ready_le hd1 e3.le)
  have main' : (processF cfg mode (r2.input.length + 1)).amid V r2 g2 (fun x _ g' => ∃ a,
      V.Span g.now a b!"000eversion=1\n0000" ∧ V.Through mode qs a x g') :=
    amid_mono main fun _ _ _ h => ⟨_, e1.trans0 e3, h⟩
  cases mode with
  | upload => exact main'
  | download => exact main'

/-- A whole server among others. -/
theorem through_among {ρ : Execution} {i : Nat} {r : Rdr} {qs : List Request} {wire : Bytes}
    (hstart : ρ.Begins cfg.root cfg.sha) (htidy : Tidy cfg.root (ρ.st 0).fs)
    (hl : NoLockDirs cfg.root (ρ.st 0).fs) (hone : OneEach (ρ.st 0).fs)
    (hp : (ρ.st 0).procs i = mainProg cfg (Mode.operation mode) r)
    (hsha : ∀ b, (cfg.sha b).length = 32) (hclk : ∀ a b t, ρ.ClockIn i cfg a b t → TimeOk cfg t)
    (hs : Session mode qs wire)
    (hi : r.input = wire) (hpend : r.pending = []) (hfin : r.fin.kind = .unexpectedEof)
    (hc : ∀ N, ρ.NoFault i N) (hk : ∀ N, ρ.NotKilled i N) {N : Nat} {x : Exit} (hx : (ρ.st N).procs i = .ret x) :
    ∃ a c, a ≤ c ∧ c ≤ N ∧ ρ.out i 0 a = b!"000eversion=1\n0000" ∧ ρ.Leaves cfg.root i 0 a none ∧
      ρ.LeavesLocks cfg.root i 0 a none ∧
      ((x = ⟨0, []⟩ ∧ Serves ρ i cfg mode a qs c []) ∨
        (x = ⟨101, []⟩ ∧ ∃ b e q rest, Serves ρ i cfg mode a qs b (q :: rest) ∧ b ≤ e ∧ e ≤ c ∧
          ρ.out i b c = [] ∧ Excused ρ i cfg b e q ∧ ρ.Leaves cfg.root i b c none ∧
          (lockOf cfg q = none → ρ.LeavesLocks cfg.root i b c none))) ∧
      ∀ n, c ≤ n → n < N → ¬ ρ.By i n := by
  obtain ⟨ow, E, hE⟩ := Env.of_start hstart htidy hc
  obtain ⟨next, hnext⟩ := isNext_exists ρ i
  let V : View cfg.root cfg.sha := ⟨ρ, i, ow, next, E, hnext⟩
  have hw : ((ρ.st 0).procs i).wp (Logic.among ρ i ow next) ⟨0, ow 0 i⟩ (fun x g => ∃ a,
      V.Span 0 a b!"000eversion=1\n0000" ∧ ∃ y, V.Through mode qs a y g ∧
      ((y = .ok () ∧ x = ⟨0, []⟩) ∨ (y = .panic ∧ x = ⟨101, []⟩))) := by
    rw [hp]
    unfold mainProg
    rw [Prog.wp_bind]
    refine Prog.wp_mono (amid_program_all (V := V) hsha hclk hl hone hs hi hpend hfin) ?_
    rintro ⟨(_ | e | _), r'⟩ g' ⟨a, h1, h2⟩
    · exact ⟨a, h1, _, h2, .inl ⟨rfl, rfl⟩⟩
    · rcases h2.2 with ⟨h, _⟩ | ⟨h, _⟩ <;> cases h
    · exact ⟨a, h1, _, h2, .inr ⟨rfl, rfl⟩⟩
  obtain ⟨g, hu, _, hw⟩ := among_follow E hk hnext hw N
  rw [hx] at hw
  obtain ⟨a, h2, y, h3, h4⟩ := hw
  refine ⟨a, g.now, h3.1, hu.le, h2.out, h2.leaves, h2.locks, ?_, hu.idle⟩
  rcases h4 with ⟨rfl, rfl⟩ | ⟨rfl, rfl⟩
  · rcases h3.2 with ⟨_, h⟩ | ⟨h, _⟩
    · exact .inl ⟨rfl, h⟩
    · cases h
  · rcases h3.2 with ⟨h, _⟩ | ⟨_, h⟩
    · cases h
    · exact .inr ⟨rfl, h⟩

end Verif
