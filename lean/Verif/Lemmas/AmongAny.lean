import Verif.Spec.SharedAny
import Verif.Lemmas.AmongTurn
import Verif.Lemmas.Unharmed
import Verif.Props.SharedLocks
/-! Any bytes at all, among other processes. -/
namespace Verif
open Spec

variable {cfg : Cfg} {mode : Mode} {V : View cfg.root cfg.sha} {r : Rdr} {g : Gh}

theorem amid_congr {α : Type} {m m' : M α} {r r' : Rdr} {Q : Res α → Rdr → Gh → Prop} (e : m r = m' r')
    (h : m'.amid V r' g Q) : m.amid V r g Q := by
  unfold M.amid M.wp at *
  rw [e]
  exact h

/-! ### Requests that the simple server knows -/

theorem amid_turn_means {q : Request} {ps : List Packet} {wire rest : Bytes}
    (hsha : ∀ b, (cfg.sha b).length = 32) (hclk : ∀ a b t, V.ρ.ClockIn V.i cfg a b t → TimeOk cfg t)
    (hl : NoLockDirs cfg.root (V.fs 0)) (hone : OneEach (V.fs 0))
    (he : Spec.Means mode ps q) (hq : ∀ o n d, q ≠ .put o n d) (hF : Frames ps wire) (hi : r.input = wire ++ rest)
    (hd : Ready cfg (V.fs g.now)) :
    (turn cfg mode).amid V r g (V.Managed mode q .again { r with input := rest } g.now) := by
  have none : Frames (argPackets [] ++ [.flush]) b!"0000" := .cons .flush .nil
  have plain : ∀ {q : Request}, (turn cfg mode).amid V r g (V.Turned mode q .again { r with input := rest } g.now) →
      (turn cfg mode).amid V r g (V.Managed mode q .again { r with input := rest } g.now) :=
    fun h => amid_mono h fun _ _ _ h => .inl h
  cases he with
  | @version _ l more items hl hn =>
    obtain ⟨v, u, rfl, hv, hu⟩ := frames_split (ps := [Packet.data l]) (by simpa using hF)
    rw [List.append_assoc] at hi
    obtain ⟨h1, h2⟩ := commandLine_words hl
    refine plain (amid_turn_handled (frames_singleton hv) hi h2 h1 (by decide) ?_)
    refine amid_congr (m' := versionCmd) (r' := { r with input := b!"0000" ++ rest }) ?_
      (amid_version (r := { r with input := b!"0000" ++ rest }) none rfl)
    show versionCmd _ = _
    unfold versionCmd readToFlush
    rw [rdr_ret (readToType_any (r := { r with input := u ++ rest }) hu hn rfl), rdr_ret (flush_again r rest)]
  | @batch _ l kv items ls hl ha hh hb =>
    obtain ⟨v, u, rfl, hv, hu⟩ := frames_split (ps := [Packet.data l]) (by simpa using hF)
    have hu : Frames ((argPackets kv ++ [.delim]) ++ (ls.map .data ++ [.flush])) u := by simpa using hu
    obtain ⟨u1, u2, rfl, hu1, hu2⟩ := frames_split hu
    rw [List.append_assoc, List.append_assoc] at hi
    obtain ⟨h1, h2⟩ := commandLine_words hl
    refine plain (amid_turn_handled (frames_singleton hv) hi h2 h1 (by decide) ?_)
    cases mode with
    | upload => exact amid_batch ha hh hb hu1 hu2 rfl rfl
    | download => exact amid_batch ha hh hb hu1 hu2 rfl rfl
  | put => exact absurd rfl (hq _ _ _)
  | @verify l more kv oid sz n hl ho ha hs hn =>
    obtain ⟨v, u, rfl, hv, hu⟩ := frames_split (ps := [Packet.data l]) hF
    rw [List.append_assoc] at hi
    obtain ⟨h1, h2⟩ := commandLine_words hl
    exact plain (amid_turn_handled (frames_singleton hv) hi h2 h1 (by decide) (amid_verify ho ha hs hn hu rfl))
  | @get l more kv oid hl ho ha =>
    obtain ⟨v, u, rfl, hv, hu⟩ := frames_split (ps := [Packet.data l]) hF
    rw [List.append_assoc] at hi
    obtain ⟨h1, h2⟩ := commandLine_words hl
    exact plain (amid_turn_handled (frames_singleton hv) hi h2 h1 (by decide) (amid_get ho ha hu rfl))
  | @lock l kv path ref hline ha hpa href =>
    obtain ⟨v, u, rfl, hv, hu⟩ := frames_split (ps := [Packet.data l]) hF
    rw [List.append_assoc] at hi
    obtain ⟨h1, h2⟩ := commandLine_words hline
    exact amid_turn_coped (frames_singleton hv) hi h2 h1 (by decide) (amid_coped (hushed_lockCmd cfg)
        (endsAt_lock (readToFlush_args hu rfl)) (plain_lockCmd cfg)
        (fun h => by cases h) (amid_lock hsha hclk ha hpa href hu rfl hl hd))
  | @listLocks _ l kv limit hline ha hlim =>
    obtain ⟨v, u, rfl, hv, hu⟩ := frames_split (ps := [Packet.data l]) hF
    rw [List.append_assoc] at hi
    obtain ⟨h1, h2⟩ := commandLine_words hline
    refine amid_turn_coped (frames_singleton hv) hi h2 h1 (by decide) (amid_coped ((looks_listLocks cfg _).mono fun _ => Looks.hushed)
        (endsAt_listLocks (readToFlush_args hu rfl)) (plain_list cfg _) (fun _ => looks_listLocks cfg _) ?_)
    obtain ⟨m, hm, hget⟩ := C09_args_exact kv ha
    show (listLocks cfg (mode = .upload)).amid V _ g _
    unfold listLocks
    refine amid_readToFlushParse (readToFlush_args hu rfl) ?_
    refine amid_ofRes_bind hm ?_
    refine amid_ofRes_bind (limit_parse hlim hget) ?_
    simp only [hget]
    cases lookup kv b!"path" with
    | none => exact amid_listAll hl hone hd
    | some path => exact amid_listPath hsha hl hd
  | @unlock l id more items hline hid hn =>
    obtain ⟨v, u, rfl, hv, hu⟩ := frames_split (ps := [Packet.data l]) (by simpa using hF)
    rw [List.append_assoc] at hi
    obtain ⟨h1, h2⟩ := commandLine_words hline
    refine amid_turn_coped (frames_singleton hv) hi h2 h1 (by decide) ?_
    refine amid_congr (m' := unlockCmd cfg id) (r' := { r with input := b!"0000" ++ rest }) ?_
      (amid_coped (r := { r with input := b!"0000" ++ rest }) (hushed_unlockCmd cfg _)
      (endsAt_unlock (readToFlush_args none rfl)) (plain_unlock cfg _) (fun h => by cases h)
      (amid_unlock hid none rfl hl hd))
    show unlockCmd cfg id _ = _
    unfold unlockCmd readToFlush
    rw [rdr_ret (readToType_any (r := { r with input := u ++ rest }) hu hn rfl), rdr_ret (flush_again r rest)]

/-! ### What is denied -/

/-- What a turn started at moment `a` has done about `q`. -/
def View.Settled (V : View cfg.root cfg.sha) (mode : Mode) (q : Said) (r' : Rdr) (a : Nat)
    (x : Res Turn) (r : Rdr) (g : Gh) : Prop :=
  (x = .ok .again ∧ r = r' ∧ ∃ e ans, a ≤ e ∧ e ≤ g.now ∧ V.ρ.out V.i a e = [] ∧
    Heeds V.ρ V.i cfg mode a e q ans ∧ Sends ans (V.ρ.out V.i e g.now) ∧ V.ρ.Leaves cfg.root V.i e g.now none ∧
    V.ρ.LeavesLocks cfg.root V.i e g.now none) ∨
  (x = .ok .again ∧ r = r' ∧ ∃ p e, q = .ask p ∧ a ≤ e ∧ e ≤ g.now ∧ ¬ NoLockId (.ask p) ∧ V.ρ.out V.i a e = [] ∧
    Excused V.ρ V.i cfg a e p ∧ IsReply (V.ρ.out V.i e g.now) ∧ V.ρ.Leaves cfg.root V.i a g.now none ∧
    (lockOf cfg p = none → V.ρ.LeavesLocks cfg.root V.i a g.now none)) ∨
  (x = .panic ∧ a ≤ g.now ∧ V.ρ.out V.i a g.now = [] ∧ Stumbles V.ρ V.i cfg mode a g.now q ∧
    V.ρ.Leaves cfg.root V.i a g.now none)

theorem amid_settled {st : Status} {code : Nat} {msg : Bytes} {r2 : Rdr} (hst : ∀ fs, StatusFor st (denial code msg) fs)
    (e : turn cfg mode r = (sendStatus st >>= fun _ => (pure .again : M Turn)) r2) :
    (turn cfg mode).amid V r g (V.Settled mode (.nonsense code msg) r2 g.now) := by
  refine amid_congr e ?_
  refine amid_bind (amid_status (.of (hst (V.fs 0)) (by simp [denial]))) ?_
  rintro x r3 g3 ⟨rfl, rfl, f1, b, f2, f3⟩
  exact .inl ⟨rfl, rfl, g.now, _, Nat.le_refl _, f2.le, out_self _ _ _,
    .denied (View.Span.refl (V := V) _).leaves (View.Span.refl (V := V) _).locks, by rw [f2.out]; exact f3, f2.leaves, f2.locks⟩

theorem amid_denied {ps : List Packet} {code : Nat} {msg u rest : Bytes} (h : Denied mode ps code msg) (hF : Frames ps u)
    (hi : r.input = u ++ rest) :
    (turn cfg mode).amid V r g (V.Settled mode (.nonsense code msg) { r with input := rest } g.now) :=
  amid_settled (fun _ => ⟨denied_means h, rfl, by simpa using (denied_code h).2⟩) (turn_denied h hF hi)

/-! ### Uploads that cannot be read to the end -/

theorem amid_copyInF_cut (bufs : Nat → Nat) (p : Path) (ino : Ino) (r2 : Rdr) (e : Err) :
    ∀ (k i f : Nat) (acc : Bytes) (outs : List Bytes) (r r' : Rdr) (g : Gh) (c : Bytes),
    reads (fun j => bufs (i + j) + 1) k r = some (outs, r') → (∀ o ∈ outs, o ≠ []) →
    r'.read (bufs (i + k) + 1) = (.err e, r2) → k < f → g.own.tmp = some (p, ino, some c) →
    (copyInF bufs ino f i acc).amid V r g (fun x r3 g' => x = .err e ∧ r3 = r2 ∧
      V.Span g.now g'.now [] ∧ ∃ c', g'.own.tmp = some (p, ino, some c'))
  | _, _, 0, _, _, _, _, _, _, _, _, _, h, _ => by omega
  | 0, i, f + 1, acc, outs, r, r', g, c, h, _, he, _, ht => by
    simp only [reads, Option.some.injEq, Prod.mk.injEq] at h
    obtain ⟨rfl, rfl⟩ := h
    rw [copyInF]
    unfold M.amid
    rw [M.wp_bind, M.wp_rdr]
    have he : r.read (bufs i + 1) = (.err e, r2) := he
    rw [he]
    exact ⟨rfl, rfl, .refl _, _, ht⟩
  | k + 1, i, f + 1, acc, outs, r, r', g, c, h, hne, he, hk, ht => by
    rw [reads] at h
    split at h
    · rename_i d r1 hd
      simp only [Option.map_eq_some_iff, Prod.mk.injEq] at h
      obtain ⟨⟨outs', r1'⟩, h1, rfl, rfl⟩ := h
      rw [copyInF]
      refine amid_rdr_bind hd ?_
      rw [if_neg (hne d (by simp))]
      refine amid_op_bind fun x n hcall => ?_
      have hx := hcall.write_ok
      subst hx
      refine amid_ofIo_bind ?_
      have h1' : reads (fun j => bufs (i + 1 + j) + 1) k r1 = some (outs', r1') := by
        have : (fun j => bufs (i + 1 + j) + 1) = fun j => bufs (i + (j + 1)) + 1 := by
          funext j; rw [Nat.add_assoc, Nat.add_comm 1 j]
        rw [this]; exact h1
      refine amid_mono (amid_copyInF_cut bufs p ino r2 e k (i + 1) f (acc ++ d) outs' r1 r1' _ (c ++ d) h1'
        (fun o ho => hne o (by simp [ho])) (by rw [Nat.add_assoc, Nat.add_comm 1 k]; exact he) (by omega) ?_) ?_
      · simp [Own.base, Own.wrote, ht]
      rintro x r3 g3 ⟨h3, h4, h5, h6⟩
      exact ⟨h3, h4, (call_write_tmp ht hcall).trans0 h5, h6⟩
    · cases h

theorem amid_copyIn_cut (bufs : Nat → Nat) {p : Path} {ino : Ino} {data rest c : Bytes} {e : Err} {r : Rdr}
    {g : Gh} (h : Delivers r data (.err e) rest) (ht : g.own.tmp = some (p, ino, some c)) :
    (copyIn bufs ino).amid V r g (fun x r' g' => x = .err e ∧ r' = { r with input := rest, pending := [] } ∧
      V.Span g.now g'.now [] ∧ ∃ c', g'.own.tmp = some (p, ino, some c')) := by
  obtain ⟨k, outs, r', h1, h2, _, hk, h5⟩ := h (fun j => bufs j + 1) (fun _ => Nat.succ_pos _)
  exact amid_copyInF_cut (V := V) bufs p ino { r with input := rest, pending := [] } e k 0 _ [] outs r r' g c
    (by simpa using h1) h2 (by simpa using h5) hk ht

theorem amid_put_cut {oid : Bytes} {as : List Packet} {r r1 : Rdr} {data rest : Bytes} {e : Err} {g : Gh}
    (ho : IsOid oid) (ha : AreSized as)
    (h1 : readToType .delim r = (.ok (as.map fun p => p.data?.getD []), r1)) (hdel : Delivers r1 data (.err e) rest)
    (hd : Ready cfg (V.fs g.now)) :
    (putObject cfg oid).amid V r g (fun x r' g' => x = .err e ∧ r' = { r1 with input := rest, pending := [] } ∧
      V.Span g.now g'.now []) := by
  obtain ⟨kv, sz, n, hkv, rfl, hsz, hn⟩ := ha
  obtain ⟨m, hm, hget⟩ := C09_args_exact kv hkv
  have hoid : oidNew oid = pure oid := by simp [oidNew, (oidValid_iff oid).mpr ho]
  unfold putObject
  rw [hoid]
  refine amid_pure_bind ?_
  rw [argPackets_data] at h1
  refine amid_rdr_bind h1 ?_
  refine amid_ofRes_bind hm ?_
  refine amid_ofRes_bind (a := n) (by unfold sizeFromArgs; rw [hget, hsz]; exact num_parse hn) ?_
  refine amid_bind (P := fun x r' g' => x = .err e ∧ r' = { r1 with input := rest, pending := [] } ∧ V.Span g.now g'.now []) ?_ ?_
  · unfold startUpload
    refine amid_op_bind fun x n h => ?_
    obtain ⟨c, hc, hsem⟩ := h.sem rfl
    have hdir : (V.fs n).isDir (incompleteDir cfg.root) = true :=
      Spec.Ready.incompleteDir (cfg := cfg) fun d hd' => V.env.dirs_le h.unt.le (near_of_prefix (topDirs_below hd')) (hd d hd')
    simp only [Verif.sem, hc, hdir, if_true] at hsem
    have hx := congrArg Prod.snd hsem
    subst hx
    have hsp0 : V.Span g.now (n + 1) [] := h.span rfl
    simp only
    clear h hsem
    generalize (V.fs n).freshName (incompleteDir cfg.root) (oid ++ c.rand) = p
    generalize (V.fs n).next = ino
    refine amid_ofIo_bind ?_
    unfold M.amid
    rw [M.wp_onFail]
    simp only
    refine M.wp_mono (m := copyIn cfg.copyBuf ino >>= fun data => pure (p, data))
      (Q := fun x r' g' => x = .err e ∧ r' = { r1 with input := rest, pending := [] } ∧ V.Span g.now g'.now [] ∧
        ∃ c', g'.own.tmp = some (p, ino, some c')) ?_ ?_
    · refine amid_bind (amid_copyIn_cut cfg.copyBuf hdel rfl) ?_
      rintro x r' g2 ⟨rfl, rfl, h3, h4⟩
      exact ⟨rfl, rfl, hsp0.trans0 h3, h4⟩
    · rintro x r' g2 ⟨rfl, rfl, h3, c', h4⟩
      simp only [Res.elim_err]
      refine M.wp_mono (amid_dropFile h4) ?_
      rintro x r' g3 ⟨_, e1, e2⟩
      exact ⟨trivial, e1, h3.trans0 e2⟩
  · rintro x r' g' ⟨rfl, h⟩
    exact ⟨rfl, h⟩

/-- A command that ends with an error. -/
theorem amid_failed {code : Nat} {msg l rest1 hw : Bytes} {r r' : Rdr} {g : Gh} {cmd : Bytes} {e : Err}
    {args : List Bytes} (hf : Spec.Frame (.data l) hw) (hi : r.input = hw ++ rest1) (hl : l ≠ [])
    (hwords : commandWords l = cmd :: args) (hq : cmd ≠ b!"quit") (hst : ∀ fs, StatusFor (errorStatus e) (denial code msg) fs)
    (hd : (dispatch cfg mode cmd args.head?).amid V { r with input := rest1 } g
      (fun x r2 g' => x = .err e ∧ r2 = r' ∧ V.Span g.now g'.now [])) :
    (turn cfg mode).amid V r g (V.Settled mode (.nonsense code msg) r' g.now) := by
  unfold turn
  refine amid_bind (P := fun x r2 g2 => x = .ok (.ok (.data l)) ∧ r2 = { r with input := rest1 } ∧ g2 = g) ?_ ?_
  · unfold M.amid
    rw [M.wp_attempt, M.wp_rdr, readPacket_frame hf r rest1 hi]
    exact show _ ∧ _ ∧ _ from ⟨rfl, rfl, rfl⟩
  rintro x r2 g ⟨rfl, rfl, rfl⟩
  simp only [Res.elim_ok, Packet.data?, hl, if_false, hwords, List.head?_cons, Option.getD_some, List.tail_cons, hq,
    false_and]
  refine amid_bind (P := fun x r2 g2 => x = .ok (.error e) ∧ r2 = r' ∧ V.Span g.now g2.now []) ?_ ?_
  · unfold M.amid
    rw [M.wp_attempt]
    refine M.wp_mono hd ?_
    rintro x r2 w2 ⟨rfl, h⟩
    exact ⟨rfl, h⟩
  rintro x r2 g2 ⟨rfl, rfl, hsp⟩
  simp only [Res.elim_ok]
  refine amid_bind (amid_status (.of (hst (V.fs 0)) (by simp [denial]))) ?_
  rintro x r3 g3 ⟨rfl, rfl, f1, b, f2, f3⟩
  exact .inl ⟨rfl, rfl, g2.now, _, hsp.le, f2.le, hsp.out, .denied hsp.leaves hsp.locks, by rw [f2.out]; exact f3, f2.leaves, f2.locks⟩

theorem amid_turn_putErr {l oid msg : Bytes} {more ds : List Bytes} {as : List Packet} {wire tail rest : Bytes} {e : Err}
    (hl : CommandLine l (b!"put-object" :: oid :: more)) (ho : IsOid oid) (ha : AreSized as)
    (hds : ∀ d ∈ ds, d.length ≤ 65516) (hF : LaxFrames (.data l :: as ++ .delim :: ds.map .data) wire)
    (hi : r.input = wire ++ tail) (hp : r.pending = []) (hck : r.checked = false)
    (h1 : ({ r with input := tail } : Rdr).readOne = (.err e, { r with input := rest }))
    (hst : ∀ fs, StatusFor (errorStatus (Err.ofIo e.toIo)) (denial 500 msg) fs) (hd : Ready cfg (V.fs g.now)) :
    (turn cfg .upload).amid V r g (V.Settled .upload (.nonsense 500 msg) { r with input := rest } g.now) := by
  have hF : LaxFrames (.data l :: ((as ++ [.delim]) ++ ds.map .data)) wire := by simpa using hF
  obtain ⟨v, u, rfl, hv, hu⟩ := laxFrames_first hF
  obtain ⟨u1, u2, rfl, hu1, hu2⟩ := laxFrames_split hu
  have h := turn_head (cfg := cfg) (mode := .upload) (r := r) (u := u1 ++ (u2 ++ tail)) hv hck
  have e : ({ r with input := v ++ (u1 ++ (u2 ++ tail)) } : Rdr) = r := by
    have : v ++ (u1 ++ (u2 ++ tail)) = r.input := by rw [hi]; simp
    rw [this]
  rw [e] at h
  refine amid_congr h ?_
  obtain ⟨w1, w2⟩ := commandLine_words hl
  refine amid_failed (laxFrame_frame hv) rfl w2 w1 (by decide) hst ?_
  have := amid_put_cut (V := V) (g := g) ho ha
    (readToType_lax (r := { r with input := u1 ++ (u2 ++ tail) }) hu1 (areSized_delim ha) rfl hck)
    (delivers_lax (r := { r with input := u2 ++ tail }) hds hu2 hck hp rfl
      (delivers_err (r := { r with input := tail }) hp h1)) hd
  refine amid_mono this ?_
  rintro x r' w' ⟨f1, f2, f3⟩
  exact ⟨f1, by rw [f2, ← hp], f3⟩

/-! ### `unlock` of what is no ID -/

/-- What is found in whatever file the client has named. -/
def FoundAny (cfg : Cfg) (x : Res (Option LockInfo)) : Prop :=
  x = .ok none ∨ (∃ l, x = .ok (some l) ∧ (l.owner = b!"unknown" ∨ ∃ uid, l.owner = ownerName cfg uid)) ∨ ∃ e, x = .err e

theorem amid_lockFromId_any {id : Bytes} :
    (lockFromId cfg id).amid V r g (fun x r' g' => r' = r ∧ V.Span g.now g'.now [] ∧ FoundAny cfg x) := by
  unfold lockFromId
  refine amid_op_bind fun x n h => ?_
  have hsp := h.span rfl
  cases x with
  | error e =>
    simp only
    split
    · exact ⟨rfl, hsp, .inl rfl⟩
    · exact ⟨rfl, hsp, .inr (.inr ⟨_, rfl⟩)⟩
  | ok f =>
    simp only
    refine amid_op_bind fun y m h2 => ?_
    have hsp2 := hsp.trans0 (h2.span rfl)
    obtain ⟨cs, e⟩ := y
    cases e with
    | some e => exact ⟨rfl, hsp2, .inr (.inr ⟨_, rfl⟩)⟩
    | none =>
      simp only
      refine amid_bind (P := fun x r' g' => r' = r ∧ V.Span g.now g'.now [] ∧ ∃ b, x = .ok b ∧
        (b = b!"unknown" ∨ ∃ uid, b = ownerName cfg uid)) ?_ ?_
      · unfold userForFile
        refine amid_op_bind fun z k h3 => ?_
        have hsp3 := hsp2.trans0 (h3.span rfl)
        cases z with
        | ok st => exact ⟨rfl, hsp3, _, rfl, .inr ⟨st.uid, userName_eq _ _⟩⟩
        | error e => exact ⟨rfl, hsp3, _, rfl, .inl rfl⟩
      · rintro x r' g' ⟨rfl, hsp3, b, rfl, hb⟩
        simp only [Res.elim_ok]
        cases parseLock cs.flatten with
        | none => exact ⟨rfl, hsp3, .inr (.inr ⟨_, rfl⟩)⟩
        | some tp => exact ⟨rfl, hsp3, .inr (.inl ⟨_, rfl, hb⟩)⟩

/-- Removing the file of a lock. -/
theorem call_unlink_lock {path : Bytes} {n : Nat} {x : Resp (.unlink (lockFile cfg.root (lockName cfg.sha path)))}
    (hl : NoLockDirs cfg.root (V.fs 0)) (h : V.Call g _ x n) :
    (x = .ok () ∧ FreedAt V.ρ V.i cfg n (lockName cfg.sha path) ∧
      V.ρ.Leaves cfg.root V.i g.now (n + 1) none ∧
      V.ρ.LeavesLocks cfg.root V.i g.now (n + 1) (some (n, lockName cfg.sha path))) ∨
    (x = .error enoent ∧ V.Span g.now (n + 1) []) := by
  obtain ⟨c, hcf, hs⟩ := h.sem rfl
  cases hj : (V.fs n).get (lockFile cfg.root (lockName cfg.sha path)) with
  | some j =>
    simp only [Verif.sem, hcf, hj, Option.isSome_some, if_true] at hs
    have hx := congrArg Prod.snd hs
    have hf : (V.fs n).delName (lockFile cfg.root (lockName cfg.sha path)) = V.fs (n + 1) := congrArg Prod.fst hs
    subst hx
    refine .inl ⟨rfl, ⟨h.made.by, ?_, ?_⟩, h.leaves_keeps rfl, ?_⟩
    · unfold Execution.lockAt held
      rw [show (V.ρ.st n).fs = V.fs n from rfl, hj]
      simp
    · unfold Execution.lockAt held
      rw [show (V.ρ.st (n + 1)).fs = V.fs (n + 1) from rfl, ← hf, FS.get_delName, if_pos rfl]; rfl
    · refine h.leavesLocks fun id' _ hne => ?_
      refine View.lockAt_eq ?_ fun j _ => by rw [← hf]; rfl
      rw [← hf, FS.get_delName, if_neg]
      intro e
      exact hne (by rw [lockFile_inj e])
  | none =>
    have hnd := V.lock_notDir hl n (lockName cfg.sha path)
    simp only [Verif.sem, hcf, hj, hnd] at hs
    have hx := congrArg Prod.snd hs
    have hf : V.fs n = V.fs (n + 1) := congrArg Prod.fst hs
    refine .inr ⟨hx.symm, h.span_of rfl fun id _ => ?_⟩
    refine View.lockAt_eq (by rw [← hf]) fun j _ => by rw [← hf]

/-- What the handler does. -/
def View.OddDone (V : View cfg.root cfg.sha) (q : Said) (r' : Rdr) (a : Nat) (x : Res Status) (r : Rdr) (g : Gh) : Prop :=
  r = r' ∧ a ≤ g.now ∧ V.ρ.out V.i a g.now = [] ∧
    ((∃ st ans, outcome x = some st ∧ Heeds V.ρ V.i cfg .upload a g.now q ans ∧ V.StatusFor st ans g.now) ∨
     (x = .panic ∧ V.ρ.Leaves cfg.root V.i a g.now none ∧ V.ρ.LeavesLocks cfg.root V.i a g.now none))

theorem amid_unlock_odd {id rest : Bytes} {v : List Bytes}
    (hl : NoLockDirs cfg.root (V.fs 0)) (hid : ¬ IsOid id) (hv : utf8Valid id = true)
    (hrd : readToType .flush r = (.ok v, { r with input := rest })) :
    (unlockCmd cfg id).amid V r g (V.OddDone (.ask (.unlock id)) { r with input := rest } g.now) := by
  have hodd : NoLockId (.ask (.unlock id)) := ⟨id, rfl, hid⟩
  have miss : ∀ {g' : Gh}, V.Span g.now g'.now [] →
      V.OddDone (.ask (.unlock id)) { r with input := rest } g.now (.ok (errStatus 404 b!"not found")) { r with input := rest } g' :=
    fun hsp => ⟨rfl, hsp.le, hsp.out, .inl ⟨_, _, rfl, .refused hodd rfl (code := 404) (msg := b!"not found\n") (by simp)
      hsp.leaves hsp.locks, .of (statusFor_notFound (V.fs 0)) (by simp [denial])⟩⟩
  unfold unlockCmd
  refine amid_rdr_bind hrd ?_
  simp only [hv, Bool.not_true, Bool.false_eq_true, if_false]
  refine amid_bind amid_lockFromId_any ?_
  rintro x r' g1 ⟨rfl, hsp, rfl | ⟨l, rfl, hown⟩ | ⟨e, rfl⟩⟩
  · simp only [Res.elim_ok]
    exact miss hsp
  · simp only [Res.elim_ok]
    cases hfmt : cfg.fmtTime l.time with
    | none =>
      have : lockArgs cfg l = (M.panic >>= fun ts => pure [b!"id=" ++ lockId cfg l.path ++ b!"\n",
          b!"path=" ++ l.path ++ b!"\n", b!"locked-at=" ++ ts ++ b!"\n", b!"ownername=" ++ l.owner ++ b!"\n"]) := by
        unfold lockArgs fmtTimestamp
        simp only [hfmt]
      rw [this]
      exact ⟨rfl, hsp.le, hsp.out, .inr ⟨rfl, hsp.leaves, hsp.locks⟩⟩
    | some ts =>
      have : lockArgs cfg l = pure (Seen.fields cfg ⟨l.path, l.time, l.owner⟩) := by
        unfold lockArgs fmtTimestamp
        simp only [hfmt, lockId_eq, Seen.fields, Seen.id, timeText]
        rfl
      rw [this]
      refine amid_pure_bind ?_
      have hpath : lockPath cfg l.path = lockFile cfg.root (lockName cfg.sha l.path) := lockPath_eq _ _
      refine amid_bind (P := fun x r' g2 => r' = { r with input := rest } ∧ ((x = .ok (.ok ()) ∧ g1.now ≤ g2.now ∧
        V.ρ.out V.i g1.now g2.now = [] ∧ V.ρ.Leaves cfg.root V.i g1.now g2.now none ∧ ∃ n, g1.now ≤ n ∧ n < g2.now ∧
          FreedAt V.ρ V.i cfg n (lockName cfg.sha l.path) ∧
          V.ρ.LeavesLocks cfg.root V.i g1.now g2.now (some (n, lockName cfg.sha l.path))) ∨
        (x = .ok (.error (Err.ofIo enoent)) ∧ V.Span g1.now g2.now []))) ?_ ?_
      · unfold M.amid
        rw [M.wp_attempt]
        unfold lockUnlock
        rw [hpath]
        refine amid_op_bind fun x n h => ?_
        rcases call_unlink_lock hl h with ⟨rfl, h1, h2, h3⟩ | ⟨rfl, h1⟩
        · refine ⟨rfl, .inl ⟨rfl, Nat.le_succ_of_le h.unt.le, ?_, h2, n, h.unt.le, Nat.lt_succ_self n, h1, h3⟩⟩
          rw [h.printed]; rfl
        · exact ⟨rfl, .inr ⟨rfl, h1⟩⟩
      · rintro x r' g2 ⟨rfl, ⟨rfl, h1, h2, h3, n, h4, h5, h6, h7⟩ | ⟨rfl, h1⟩⟩
        · simp only [Res.elim_ok]
          refine ⟨rfl, Nat.le_trans hsp.le h1, ?_, .inl ⟨_, _, rfl, .released hodd rfl (l := ⟨l.path, l.time, l.owner⟩)
            (Nat.le_trans hsp.le h4) h5 h6 (by simp [hfmt]) hown (hsp.leaves.trans h3) (hsp.locks.weaken.trans h7), ?_⟩⟩
          · rw [out_append _ _ hsp.le h1, hsp.out, h2]; rfl
          · exact ⟨⟨rfl, c200, rfl, by simp [Seen.fields]⟩, rfl, rfl⟩
        · have hk : (Err.ofIo enoent).ioKind = .notFound := rfl
          simp only [Res.elim_ok, hk, if_true]
          exact miss (hsp.trans0 h1)
  · obtain ⟨code, msg, h1, h2⟩ := statusFor_error e (V.fs 0)
    exact ⟨rfl, hsp.le, hsp.out, .inl ⟨_, _, rfl, .refused hodd rfl h1 hsp.leaves hsp.locks, .of h2 (by simp [denial])⟩⟩

theorem amid_turn_odd {id : Bytes} {ps : List Packet} {wire rest : Bytes}
    (hl : NoLockDirs cfg.root (V.fs 0)) (hm : OddAsks id ps) (hF : Frames ps wire) (hi : r.input = wire ++ rest) :
    (turn cfg .upload).amid V r g (V.Settled .upload (.ask (.unlock id)) { r with input := rest } g.now) := by
  cases hm with
  | @mk l more items hline hid ht hn =>
    obtain ⟨v, u, rfl, hv, hu⟩ := frames_split (ps := [Packet.data l]) (by simpa using hF)
    have hv := frames_singleton hv
    rw [List.append_assoc] at hi
    obtain ⟨hw, hne⟩ := commandLine_words hline
    unfold turn
    refine amid_bind (P := fun x r2 g2 => x = .ok (.ok (.data l)) ∧ r2 = { r with input := u ++ rest } ∧ g2 = g) ?_ ?_
    · unfold M.amid
      rw [M.wp_attempt, M.wp_rdr, readPacket_frame hv r (u ++ rest) hi]
      exact show _ ∧ _ ∧ _ from ⟨rfl, rfl, rfl⟩
    rintro x r2 g ⟨rfl, rfl, rfl⟩
    have hq : b!"unlock" ≠ b!"quit" := by decide
    simp only [Res.elim_ok, Packet.data?, hne, if_false, hw, List.head?_cons, Option.getD_some, List.tail_cons, hq, false_and]
    refine amid_bind (P := fun x r2 g2 => ∃ y, V.OddDone (.ask (.unlock id)) { r with input := rest } g.now y r2 g2 ∧
      x = match y with | .ok st => .ok (.ok st) | .err e => .ok (.error e) | .panic => .panic) ?_ ?_
    · unfold M.amid
      rw [M.wp_attempt]
      refine M.wp_mono (amid_unlock_odd (r := { r with input := u ++ rest }) hl hid (utf8Valid_iff.mpr ht)
        (readToType_any (r := { r with input := u ++ rest }) hu hn rfl)) ?_
      rintro (st | e | _) r2 w2 h <;> exact ⟨_, h, rfl⟩
    rintro x r2 g2 ⟨y, ⟨rfl, k1, k2, ⟨st, ans, hy, ha, hst⟩ | ⟨rfl, h1, h2⟩⟩, rfl⟩
    · have fin : (sendStatus st >>= fun _ => (pure Turn.again : M Turn)).amid V { r with input := rest } g2
          (V.Settled .upload (.ask (.unlock id)) { r with input := rest } g.now) := by
        refine amid_bind (amid_status hst) ?_
        rintro x r3 g3 ⟨rfl, rfl, f1, b, f2, f3⟩
        exact .inl ⟨rfl, rfl, g2.now, ans, k1, f2.le, k2, ha, by rw [f2.out]; exact f3, f2.leaves, f2.locks⟩
      cases y with
      | ok st' => cases hy; exact fin
      | err e => cases hy; exact fin
      | panic => cases hy
    · exact .inr (.inr ⟨rfl, k1, k2, .odd ⟨id, rfl, hid⟩ rfl h2, h1⟩)

/-! ### One request, whatever the bytes are -/

theorem View.Managed.settled {q : Request} {r' r2 : Rdr} {a : Nat} {x : Res Turn} {g : Gh} (ho : ¬ NoLockId (.ask q))
    (h : V.Managed mode q .again r' a x r2 g) : V.Settled mode (.ask q) r' a x r2 g := by
  rcases h with ⟨h1, h2, e, ans, h3, h4, h5, h6, h7⟩ | ⟨e, h1, h2, h3, h4, h5, h6, ⟨h7, h8, h9⟩ | ⟨h7, h8⟩⟩
  · exact .inl ⟨h1, h2, e, ans, h3, h4, h5, .asked ho h6, h7⟩
  · exact .inr (.inl ⟨h7, h8, q, e, rfl, h1, h2, ho, h3, h4, h9, h5, h6⟩)
  · exact .inr (.inr ⟨h7, Nat.le_trans h1 h2, by rw [out_append _ _ h1 h2, h3, h8]; rfl,
      .excused ho (excused_mono h4 h2) h6, h5⟩)

theorem amid_heard {q : Said} {ps : List Packet} {wire rest : Bytes}
    (hsha : ∀ b, (cfg.sha b).length = 32) (hclk : ∀ a b t, V.ρ.ClockIn V.i cfg a b t → TimeOk cfg t)
    (hl : NoLockDirs cfg.root (V.fs 0)) (hone : OneEach (V.fs 0))
    (he : Heard mode ps q) (hq : ∀ o n d, q ≠ .ask (.put o n d)) (hF : Frames ps wire) (hi : r.input = wire ++ rest)
    (hd : Ready cfg (V.fs g.now)) :
    (turn cfg mode).amid V r g (V.Settled mode q { r with input := rest } g.now) := by
  cases q with
  | ask q =>
    exact amid_mono (amid_turn_means hsha hclk hl hone he (fun o n d e => hq o n d (by rw [e])) hF hi hd)
      fun _ _ _ h => h.settled (means_notOdd he)
  | nonsense code msg => exact amid_denied he hF hi

theorem amid_put_head {l oid sz : Bytes} {more ds : List Bytes} {kv : List (Bytes × Bytes)} {n : Nat} {t : Packet} {v u1 u3 u5 rest : Bytes}
    (hsha : ∀ b, (cfg.sha b).length = 32) (hl : CommandLine l (b!"put-object" :: oid :: more)) (ho' : IsOid oid) (ha : ArgsOk kv)
    (hs : lookup kv b!"size" = some sz) (hn : Num sz n) (hds : ∀ d ∈ ds, d.length ≤ 65516) (ht : t = .flush ∨ t = .delim)
    (hu1 : LaxFrames (argPackets kv ++ [.delim]) u1) (hu3 : LaxFrames (ds.map .data) u3) (hu5 : LaxFrame t u5)
    (hv : Spec.Frame (.data l) v) (hp : r.pending = []) (hck : r.checked = false) (hd : Ready cfg (V.fs g.now))
    (ho : ¬ NoLockId (.ask (.put oid n ds.flatten))) :
    (turn cfg .upload).amid V { r with input := v ++ (u1 ++ (u3 ++ (u5 ++ rest))) } g
      (V.Settled .upload (.ask (.put oid n ds.flatten)) { r with input := rest } g.now) := by
  obtain ⟨h1, h2⟩ := commandLine_words hl
  have hargs := readToType_lax (r := { r with input := u1 ++ (u3 ++ (u5 ++ rest)) }) hu1 (argPackets_delim kv) rfl hck
  rw [argPackets_data] at hargs
  have htf : Fits t := by rcases ht with rfl | rfl <;> exact trivial
  have hdel : Delivers { r with input := u3 ++ (u5 ++ rest) } ds.flatten (.ok []) rest :=
    delivers_lax (r := { r with input := u3 ++ (u5 ++ rest) }) hds hu3 hck hp rfl
      (delivers_term (r := { r with input := u5 ++ rest }) ht hp (readOne_lax hu5 htf hck rfl))
  have hput := amid_put_from (V := V) (mode := .upload) (g := g) hsha ho' ha hs hn hargs hdel hd
  have ep : ({ r with input := rest, pending := [] } : Rdr) = { r with input := rest } := by rw [← hp]
  simp only [ep] at hput
  have hq : b!"put-object" ≠ b!"quit" := by decide
  have := amid_turn_handled (V := V) (mode := .upload) (g := g) (q := .put oid n ds.flatten) (r' := { r with input := rest })
    (r := { r with input := v ++ (u1 ++ (u3 ++ (u5 ++ rest))) }) hv rfl h2 h1 hq hput
  refine amid_mono this ?_
  intro x r' g' h
  exact View.Managed.settled ho (.inl h)

theorem amid_turn_lax {q : Said} {ps : List Packet} {wire rest : Bytes}
    (hsha : ∀ b, (cfg.sha b).length = 32) (hclk : ∀ a b t, V.ρ.ClockIn V.i cfg a b t → TimeOk cfg t)
    (hl : NoLockDirs cfg.root (V.fs 0)) (hone : OneEach (V.fs 0))
    (he : Heard mode ps q) (hF : LaxFrames ps wire) (hi : r.input = wire ++ rest) (hp : r.pending = []) (hck : r.checked = false)
    (hd : Ready cfg (V.fs g.now)) :
    (turn cfg mode).amid V r g (V.Settled mode q { r with input := rest } g.now) := by
  have e : ({ r with input := wire ++ rest } : Rdr) = r := by rw [← hi]
  have short : ∀ (_ : Short mode ps) (_ : ∀ o n d, q ≠ .ask (.put o n d)),
      (turn cfg mode).amid V r g (V.Settled mode q { r with input := rest } g.now) := by
    intro hs hq
    have h := turn_short (cfg := cfg) (r := r) (rest := rest) hs hF hck
    rw [e] at h
    exact amid_congr h (amid_heard hsha hclk hl hone he hq (laxFrames_frames hF) rfl hd)
  cases q with
  | nonsense code msg => exact short (denied_short he) (by simp)
  | ask q =>
    by_cases hq : ∀ o n d, q ≠ .put o n d
    · exact short (means_short he hq) (by simpa using hq)
    replace he : Spec.Means mode ps q := he
    have ho := means_notOdd he
    cases he with
    | @put l more kv oid sz n ds t hl ho' ha hs hn hds ht =>
      have hF : LaxFrames (.data l :: ((argPackets kv ++ [.delim]) ++ (ds.map .data ++ [t]))) wire := by simpa using hF
      obtain ⟨v, u, rfl, hv, hu⟩ := laxFrames_first hF
      obtain ⟨u1, u2, rfl, hu1, hu2⟩ := laxFrames_split hu
      obtain ⟨u3, u4, rfl, hu3, hu4⟩ := laxFrames_split hu2
      obtain ⟨u5, u6, rfl, hu5, hu6⟩ := laxFrames_first hu4
      cases hu6
      have h := turn_head (cfg := cfg) (mode := .upload) (r := r) (u := u1 ++ (u3 ++ (u5 ++ rest))) hv hck
      have e1 : v ++ (u1 ++ (u3 ++ (u5 ++ []))) ++ rest = v ++ (u1 ++ (u3 ++ (u5 ++ rest))) := by simp
      rw [e1] at e
      rw [e] at h
      refine amid_congr h ?_
      refine amid_put_head hsha hl ho' ha hs hn hds ht hu1 hu3 hu5 (laxFrame_frame hv) hp hck hd ?_
      rintro ⟨id, e, _⟩
      cases e
    | _ => exact absurd (fun _ _ _ => by simp) hq

theorem amid_turn_broken {q : Said} {ps : List Packet} {wire t : Bytes}
    (hsha : ∀ b, (cfg.sha b).length = 32) (hclk : ∀ a b t, V.ρ.ClockIn V.i cfg a b t → TimeOk cfg t)
    (hl : NoLockDirs cfg.root (V.fs 0)) (hone : OneEach (V.fs 0))
    (hb : BreaksOff mode r.fin.text ps [] q) (hF : LaxFrames ps wire) (ht : LaxPart t) (hlong : Uploading mode ps → ¬ TooLong t)
    (hi : r.input = wire ++ t) (hp : r.pending = []) (hck : r.checked = false)
    (hfin : r.fin.kind = .unexpectedEof) (hd : Ready cfg (V.fs g.now)) :
    (turn cfg mode).amid V r g (V.Settled mode q { r with input := [] } g.now) := by
  have e : ({ r with input := wire ++ t } : Rdr) = r := by rw [← hi]
  cases hb with
  | @heard _ ps' _ q hcom hh hpart =>
    obtain ⟨u, hu, h⟩ := turn_cut_lax (cfg := cfg) hcom hF ht hi hck hfin
    refine amid_congr h (amid_heard (r := { r with input := u ++ [] }) hsha hclk hl hone hh ?_ hu rfl hd)
    rintro o n d rfl
    exact completed_notPut hcom hh
  | @putArgs l oid _ more as hm hline ho ha hpart =>
    subst hm
    obtain ⟨v, u, rfl, hv, hu⟩ := laxFrames_first hF
    have h := turn_head (cfg := cfg) (mode := .upload) (r := r) (u := u ++ t) hv hck
    rw [← List.append_assoc, e] at h
    refine amid_congr h ?_
    obtain ⟨h1, h2⟩ := commandLine_words hline
    refine amid_failed (laxFrame_frame hv) rfl h2 h1 (by decide) (cutErr_status r.fin) ?_
    have := amid_put_cut (V := V) (g := g) ho ha
      (readToType_laxPart (r := { r with input := u ++ t }) hu (areSized_delim ha) ht rfl hck hfin)
      (delivers_cut (r := { r with input := [] }) (ds := []) (by simp) .nil ⟨.flush, _, .flush, trivial, List.nil_prefix, by decide⟩ rfl)
      hd
    refine amid_mono this ?_
    rintro x r' w' ⟨f1, f2, f3⟩
    exact ⟨f1, by rw [f2, ← hp], f3⟩
  | @putData l oid _ more ds as hm hline ho ha hds hpart =>
    subst hm
    exact amid_turn_putErr hline ho ha hds hF hi hp hck
      (readOne_laxPart (r := { r with input := t }) ht (hlong ⟨l, oid, more, as, ds, rfl, rfl, hline, ho, ha, hds⟩) hck rfl)
      (cutErr_status r.fin) hd

theorem amid_finds {q : Said} {b rest : Bytes}
    (hsha : ∀ b, (cfg.sha b).length = 32) (hclk : ∀ a b t, V.ρ.ClockIn V.i cfg a b t → TimeOk cfg t)
    (hl : NoLockDirs cfg.root (V.fs 0)) (hone : OneEach (V.fs 0))
    (ht : Finds mode r.fin.text q b rest) (hi : r.input = b) (hp : r.pending = []) (hck : r.checked = false)
    (hfin : r.fin.kind = .unexpectedEof) (hd : Ready cfg (V.fs g.now)) :
    (turn cfg mode).amid V r g (V.Settled mode q { r with input := rest } g.now) := by
  cases ht with
  | takes ht =>
    cases ht with
    | heard he hF => exact amid_turn_lax hsha hclk hl hone he hF hi hp hck hd
    | broken hb hF ht hlong => exact amid_turn_broken hsha hclk hl hone hb hF ht hlong hi hp hck hfin hd
    | @garbled code msg ps w1 h rest hg hF hb =>
      rcases turn_garbled (cfg := cfg) hg hF hb hi hck with ⟨er, hst, e⟩ | ⟨hup, rfl, rfl⟩
      · exact amid_settled hst e
      · obtain ⟨l, oid, more, as, ds, rfl, rfl, hcl, ho, ha, hds⟩ := hup
        exact amid_turn_putErr hcl ho ha hds hF hi hp hck (readOne_bad (r := { r with input := h ++ rest }) hb hck rfl)
          dataErr_status hd
    | @tooLong ps n w1 h rest hup hF hlx hn =>
      obtain ⟨l, oid, more, as, ds, rfl, rfl, hcl, ho, ha, hds⟩ := hup
      exact amid_turn_putErr hcl ho ha hds hF hi hp hck
        (readOne_tooLong (r := { r with input := h ++ rest }) hlx hn hck rfl) dataErr_status hd
  | @odd id ps w1 rest hm hodd hF =>
    subst hm
    obtain ⟨u, hu, e⟩ := turn_odd_lax (cfg := cfg) hodd hF hi hck
    exact amid_congr e (amid_turn_odd (r := { r with input := u ++ rest }) hl hodd hu rfl)
  | @oddCut id ps ps' w1 t hm hcom hodd hF ht =>
    subst hm
    obtain ⟨u, hu, e⟩ := turn_cut_lax (cfg := cfg) hcom hF ht hi hck hfin
    exact amid_congr e (amid_turn_odd (r := { r with input := u ++ [] }) hl hodd hu rfl)

/-! ### Whole sessions -/

/-- What the server has done about `qs` since moment `a`, when it ends with `x`. -/
def View.ThroughAll (V : View cfg.root cfg.sha) (mode : Mode) (qs : List Said) (e : Ending) (a : Nat) (x : Res Unit) (g : Gh) : Prop :=
  a ≤ g.now ∧ ((x = e.res ∧ ServesAll V.ρ V.i cfg mode a qs g.now []) ∨
    (x = .panic ∧ ∃ b q rest, ServesAll V.ρ V.i cfg mode a qs b (q :: rest) ∧ b ≤ g.now ∧
      V.ρ.out V.i b g.now = [] ∧ Stumbles V.ρ V.i cfg mode b g.now q ∧ V.ρ.Leaves cfg.root V.i b g.now none))

theorem amid_sense (hsha : ∀ b, (cfg.sha b).length = 32) {text : Bytes} {qs : List Said} {e : Ending} {wire : Bytes}
    (hclk : ∀ a b t, V.ρ.ClockIn V.i cfg a b t → TimeOk cfg t) (hl : NoLockDirs cfg.root (V.fs 0))
    (hone : OneEach (V.fs 0)) (hs : Sense mode text qs e wire) :
    ∀ (f : Nat) (r : Rdr) (g : Gh), r.input = wire → r.pending = [] → r.checked = false →
    r.fin.kind = .unexpectedEof → r.fin.text = text → wire.length < f → Ready cfg (V.fs g.now) →
    (processF cfg mode f).amid V r g (fun x _ g' => V.ThroughAll mode qs e g.now x g') := by
  induction hs with
  | @eof b ht =>
    intro f r g hi hp hck hfin htx hf hd
    obtain ⟨f, rfl⟩ : ∃ g, f = g + 1 := ⟨f - 1, by omega⟩
    rw [processF]
    refine amid_bind (P := fun x r' g' => x = .ok .done ∧ g' = g) ?_ ?_
    · have h := readPacket_laxPart ht hck hi
      unfold turn
      refine amid_bind (P := fun x r2 g2 => x = .ok (.error (Err.ofIo r.fin)) ∧ g2 = g) ?_ ?_
      · unfold M.amid
        rw [M.wp_attempt, M.wp_rdr, h]
        exact show _ ∧ _ from ⟨rfl, rfl⟩
      rintro x r2 g2 ⟨rfl, rfl⟩
      have hk : (Err.ofIo r.fin).ioKind = .unexpectedEof := hfin
      simp only [Res.elim_ok, hk, if_true]
      exact ⟨rfl, rfl⟩
    rintro x r' g' ⟨rfl, rfl⟩
    exact ⟨Nat.le_refl _, .inl ⟨rfl, .nil⟩⟩
  | @bad h rest hb =>
    intro f r g hi hp hck hfin htx hf hd
    obtain ⟨f, rfl⟩ : ∃ g, f = g + 1 := ⟨f - 1, by omega⟩
    rw [processF]
    refine amid_bind (P := fun x r' g' => x = .err badErr ∧ g' = g) ?_ ?_
    · have h := readPacket_bad hb hck hi
      unfold turn
      refine amid_bind (P := fun x r2 g2 => x = .ok (.error badErr) ∧ g2 = g) ?_ ?_
      · unfold M.amid
        rw [M.wp_attempt, M.wp_rdr, h]
        exact show _ ∧ _ from ⟨rfl, rfl⟩
      rintro x r2 g2 ⟨rfl, rfl⟩
      have hk : badErr.ioKind ≠ .unexpectedEof := by decide
      simp only [Res.elim_ok, hk, if_false]
      exact ⟨rfl, rfl⟩
    rintro x r' g' ⟨rfl, rfl⟩
    exact ⟨Nat.le_refl _, .inl ⟨rfl, .nil⟩⟩
  | @quit l w1 rest hline hF =>
    intro f r g hi hp hck hfin htx hf hd
    obtain ⟨f, rfl⟩ : ∃ g, f = g + 1 := ⟨f - 1, by omega⟩
    rw [processF]
    refine amid_bind (P := fun x r2 g2 => x = .ok .done ∧ g.now ≤ g2.now ∧
      Sends ⟨200, [], .none⟩ (V.ρ.out V.i g.now g2.now) ∧ V.ρ.Leaves cfg.root V.i g.now g2.now none ∧
      V.ρ.LeavesLocks cfg.root V.i g.now g2.now none) ?_ ?_
    · unfold turn
      refine amid_bind (P := fun x r2 g2 => x = .ok (.ok (.data l)) ∧ r2 = { r with input := rest } ∧ g2 = g) ?_ ?_
      · unfold M.amid
        rw [M.wp_attempt, M.wp_rdr, readPacket_lax hF hck hi]
        exact show _ ∧ _ ∧ _ from ⟨rfl, rfl, rfl⟩
      rintro x r2 g2 ⟨rfl, rfl, rfl⟩
      obtain ⟨hw, hne⟩ := commandLine_words hline
      simp only [Res.elim_ok, Packet.data?, hne, if_false, hw, List.head?_cons, Option.getD_some, List.tail_cons,
        List.head?_nil, and_self, if_true]
      refine amid_bind (amid_status (st := Status.success) (a := ⟨200, [], .none⟩)
        ⟨⟨rfl, c200, rfl, by simp⟩, rfl, rfl⟩) ?_
      rintro x r3 g3 ⟨rfl, rfl, f1, b, f2, f3⟩
      exact ⟨rfl, f2.le, by rw [f2.out]; exact f3, f2.leaves, f2.locks⟩
    rintro x r' g' ⟨rfl, h1, h2, h3, h4⟩
    refine ⟨h1, .inl ⟨rfl, .cons (Nat.le_refl _) h1 (out_self _ _ _) (.asked ?_
      ⟨⟨rfl, (View.Span.refl (V := V) _).leaves⟩, (View.Span.refl (V := V) _).locks⟩) h2 h3 h4 .nil⟩⟩
    rintro ⟨id, e, _⟩
    cases e
  | @next q qs e b rest ht _ ih =>
    intro f r g hi hp hck hfin htx hf hd
    have hlt : rest.length < b.length := finds_shorter ht
    obtain ⟨f, rfl⟩ : ∃ g, f = g + 1 := ⟨f - 1, by omega⟩
    rw [processF]
    refine amid_bind (amid_finds hsha hclk hl hone (htx ▸ ht) hi hp hck hfin hd) ?_
    have next : ∀ g' : Gh, g.now ≤ g'.now → (∀ {c rest}, ServesAll V.ρ V.i cfg mode g'.now qs c rest →
        ServesAll V.ρ V.i cfg mode g.now (q :: qs) c rest) →
        (processF cfg mode f).amid V { r with input := rest } g' (fun x _ g2 => V.ThroughAll mode (q :: qs) e g.now x g2) := by
      intro g' hle hcons
      refine amid_mono (ih f _ g' rfl hp hck hfin htx (by omega) (View.ready_le hd hle)) ?_
      rintro x r2 g2 ⟨k1, k2⟩
      refine ⟨Nat.le_trans hle k1, ?_⟩
      rcases k2 with ⟨k2, k3⟩ | ⟨k2, b, q', rest, k3, k4⟩
      · exact .inl ⟨k2, hcons k3⟩
      · exact .inr ⟨k2, b, q', rest, hcons k3, k4⟩
    rintro x r' g' (⟨rfl, rfl, e, ans, h1, h2, h3, h4, h5, h6, h7⟩ |
      ⟨rfl, rfl, p, e, rfl, h1, h2, h3, h4, h5, h6, h7, h8⟩ | ⟨rfl, h1, h2, h3, h4⟩)
    · exact next g' (Nat.le_trans h1 h2) (.cons h1 h2 h3 h4 h5 h6 h7)
    · exact next g' (Nat.le_trans h1 h2) (.excused h1 h2 h3 h4 h5 h6 h7 h8)
    · exact ⟨h1, .inr ⟨rfl, g.now, q, qs, .nil, h1, h2, h3, h4⟩⟩

theorem amid_program_sense (hsha : ∀ b, (cfg.sha b).length = 32) {qs : List Said} {e : Ending}
    (hclk : ∀ a b t, V.ρ.ClockIn V.i cfg a b t → TimeOk cfg t) (hl : NoLockDirs cfg.root (V.fs 0))
    (hone : OneEach (V.fs 0)) {r : Rdr} {g : Gh} (hs : Sense mode r.fin.text qs e r.input)
    (hp : r.pending = []) (hck : r.checked = false) (hfin : r.fin.kind = .unexpectedEof) :
    (runProgram cfg (Mode.operation mode)).amid V r g (fun x _ g' => ∃ a,
      V.Span g.now a b!"000eversion=1\n0000" ∧ V.ThroughAll mode qs e a x g') := by
  unfold runProgram
  refine amid_bind (P := fun x r' g' => x = .ok () ∧ r' = r ∧ V.Span g.now g'.now [] ∧ Ready cfg (V.fs g'.now))
    (amid_mkdirs (V := V) (topDirs cfg.root) r g (fun _ h => h)) ?_
  rintro x r' g1 ⟨rfl, rfl, e1, hd1⟩
  simp only [Res.elim_ok]
  refine amid_bind (says_sendCapabilities V r' g1) ?_
  rintro x r2 g2 ⟨rfl, rfl, _, e3⟩
  have hcap : encMsg b!"version=1\n" ++ b!"0000" = b!"000eversion=1\n0000" := by decide
  rw [hcap] at e3
  simp only [Res.elim_ok]
  have main := amid_sense (V := V) hsha hclk hl hone hs (r2.input.length + 1) r2 g2 rfl hp hck hfin rfl (by omega)
    (View.ready_le hd1 e3.le)
  have main' : (processF cfg mode (r2.input.length + 1)).amid V r2 g2 (fun x _ g' => ∃ a,
      V.Span g.now a b!"000eversion=1\n0000" ∧ V.ThroughAll mode qs e a x g') :=
    amid_mono main fun _ _ _ h => ⟨_, e1.trans0 e3, h⟩
  cases mode with
  | upload => exact main'
  | download => exact main'

/-- A whole server among others. -/
theorem sense_among {ρ : Execution} {i : Nat} {r : Rdr} {qs : List Said} {e : Ending}
    (hstart : ρ.Begins cfg.root cfg.sha) (htidy : Tidy cfg.root (ρ.st 0).fs)
    (hl : NoLockDirs cfg.root (ρ.st 0).fs) (hone : OneEach (ρ.st 0).fs)
    (hp : (ρ.st 0).procs i = mainProg cfg (Mode.operation mode) r)
    (hsha : ∀ b, (cfg.sha b).length = 32) (hclk : ∀ a b t, ρ.ClockIn i cfg a b t → TimeOk cfg t)
    (hs : Sense mode r.fin.text qs e r.input)
    (hpend : r.pending = []) (hck : r.checked = false) (hfin : r.fin.kind = .unexpectedEof)
    (hc : ∀ N, ρ.NoFault i N) (hk : ∀ N, ρ.NotKilled i N) {N : Nat} {x : Exit} (hx : (ρ.st N).procs i = .ret x) :
    ∃ a c, a ≤ c ∧ c ≤ N ∧ ρ.out i 0 a = b!"000eversion=1\n0000" ∧ ρ.Leaves cfg.root i 0 a none ∧
      ρ.LeavesLocks cfg.root i 0 a none ∧
      ((x = e.exit ∧ ServesAll ρ i cfg mode a qs c []) ∨
        (x = ⟨101, []⟩ ∧ ∃ b q rest, ServesAll ρ i cfg mode a qs b (q :: rest) ∧ b ≤ c ∧
          ρ.out i b c = [] ∧ Stumbles ρ i cfg mode b c q ∧ ρ.Leaves cfg.root i b c none)) ∧
      ∀ n, c ≤ n → n < N → ¬ ρ.By i n := by
  obtain ⟨ow, E, hE⟩ := Env.of_start hstart htidy hc
  obtain ⟨next, hnext⟩ := isNext_exists ρ i
  let V : View cfg.root cfg.sha := ⟨ρ, i, ow, next, E, hnext⟩
  have hw : ((ρ.st 0).procs i).wp (Logic.among ρ i ow next) ⟨0, ow 0 i⟩ (fun x g => ∃ a,
      V.Span 0 a b!"000eversion=1\n0000" ∧ ∃ y, V.ThroughAll mode qs e a y g ∧
      ((y = e.res ∧ x = e.exit) ∨ (y = .panic ∧ x = ⟨101, []⟩))) := by
    rw [hp]
    unfold mainProg
    rw [Prog.wp_bind]
    refine Prog.wp_mono (amid_program_sense (V := V) hsha hclk hl hone hs hpend hck hfin) ?_
    rintro ⟨y, r'⟩ g' ⟨a, h1, h2⟩
    rcases h2.2 with ⟨rfl, _⟩ | ⟨rfl, _⟩
    · cases e with
      | fine => exact ⟨a, h1, _, h2, .inl ⟨rfl, rfl⟩⟩
      | bad => exact ⟨a, h1, _, h2, .inl ⟨rfl, rfl⟩⟩
    · exact ⟨a, h1, _, h2, .inr ⟨rfl, rfl⟩⟩
  obtain ⟨g, hu, _, hw⟩ := among_follow E hk hnext hw N
  rw [hx] at hw
  obtain ⟨a, h2, y, h3, h4⟩ := hw
  refine ⟨a, g.now, h3.1, hu.le, h2.out, h2.leaves, h2.locks, ?_, hu.idle⟩
  have hne : e.res ≠ .panic := by cases e <;> simp [Spec.Ending.res]
  rcases h4 with ⟨rfl, rfl⟩ | ⟨rfl, rfl⟩
  · rcases h3.2 with ⟨_, h⟩ | ⟨h, _⟩
    · exact .inl ⟨rfl, h⟩
    · exact absurd h hne
  · rcases h3.2 with ⟨h, _⟩ | ⟨_, h⟩
    · exact absurd h.symm hne
    · exact .inr ⟨rfl, h⟩

end Verif
