import Verif.Lemmas.Truncated
import Verif.Spec.Request
import Verif.Props.Output
import Verif.Props.Objects
/-! Properties C08, C38, C52, C54: malformed, truncated and failing requests. -/
namespace Verif
open Spec

variable {cfg : Cfg} {mode : Mode} {r r' : Rdr}

theorem words_splitOn {w : Bytes} {ws : List Bytes} (h : Words w ws) : splitOn SP w = ws := by
  induction h with
  | one hx => exact splitOn_none 32 _ hx
  | @cons x w ws hx _ ih =>
    have : x ++ b!" " ++ w = x ++ 32 :: w := by simp
    rw [this, SP, splitOn_append 32 x _ hx]
    exact congrArg _ ih

theorem commandLine_words {l : Bytes} {ws : List Bytes} (h : CommandLine l ws) : commandWords l = ws ∧ l ≠ [] := by
  obtain ⟨w, hw, hne, h⟩ := h
  unfold commandWords
  rcases h with rfl | ⟨rfl, h⟩
  · have : (w ++ b!"\n").getLast? = some NL := by rw [List.getLast?_concat]; rfl
    rw [if_pos this, List.dropLast_concat]
    exact ⟨words_splitOn hw, by simp⟩
  · rw [if_neg (show l.getLast? ≠ some NL from h)]
    exact ⟨words_splitOn hw, hne⟩

theorem argCommand_dispatch {P : Event → Prop} {ws : List Bytes} {v : List Bytes} (h : ArgCommand mode ws)
    (hr : readToType .flush r = (.ok v, r')) : ∃ cmd args, ws = cmd :: args ∧ cmd ≠ b!"quit" ∧
      (dispatch cfg mode cmd args.head?).EndsAt P r r' := by
  cases h with
  | version => exact ⟨_, _, rfl, by decide, endsAt_version hr⟩
  | verify => exact ⟨_, _, rfl, by decide, endsAt_verify hr⟩
  | get => exact ⟨_, _, rfl, by decide, endsAt_get hr⟩
  | lock => exact ⟨_, _, rfl, by decide, endsAt_lock hr⟩
  | listLocks => exact ⟨_, _, rfl, by decide, endsAt_listLocks hr⟩
  | unlock => exact ⟨_, _, rfl, by decide, endsAt_unlock hr⟩

/-! ### C38 -/

/-- A request framed as it should be is consumed exactly, whatever the OS answers and however the turn
ends. -/
theorem turn_shaped {ps : List Packet} {u rest : Bytes} (hs : Shaped mode ps) (hF : Frames ps u)
    (hi : r.input = u ++ rest) : (turn cfg mode).wp (Logic.only fun _ => True) r ()
      (fun x r' _ => r' = { r with input := rest } ∧ x ≠ .ok .done) := by
  cases hs with
  | @args l ws items hl hc =>
    obtain ⟨v, u', rfl, hv, hu⟩ := frames_split (ps := [Packet.data l]) (by simpa using hF)
    have hrd := readPacket_frame (frames_singleton hv) r (u' ++ rest) (by rw [hi, List.append_assoc])
    obtain ⟨hw, hne⟩ := commandLine_words hl
    obtain ⟨cmd, args, rfl, hq, hd⟩ := argCommand_dispatch (P := fun _ => True) (cfg := cfg) hc
      (readToType_frames (r := { r with input := u' ++ rest }) (.inl rfl) hu rfl)
    exact turn_endsAt hrd hne hw hq hd
  | @batch l kv items hl ha =>
    obtain ⟨v, u', rfl, hv, hu⟩ := frames_split (ps := [Packet.data l]) (by simpa using hF)
    have hrd := readPacket_frame (frames_singleton hv) r (u' ++ rest) (by rw [hi, List.append_assoc])
    obtain ⟨hw, hne⟩ := commandLine_words hl
    have hu : Frames ((argPackets kv ++ [.delim]) ++ (items.map .data ++ [.flush])) u' := by simpa using hu
    obtain ⟨a, b, rfl, hua, hub⟩ := frames_split hu
    obtain ⟨m, hm, _⟩ := C09_args_exact kv ha
    have h1 := readToDelim_args (r := { r with input := a ++ b ++ rest }) hua
      (show a ++ b ++ rest = a ++ (b ++ rest) by rw [List.append_assoc])
    have h2 := readToType_frames (r := { r with input := b ++ rest }) (.inl rfl) hub rfl
    refine turn_endsAt hrd hne hw (by decide) ?_
    cases mode
    · exact endsAt_batch h1 hm h2
    · exact endsAt_batch h1 hm h2

/-- **C38**, for requests framed as they should be: whatever the arguments or lines contain, whatever
the OS answers, and whatever the reply, if the server goes on it has consumed exactly the request and
written exactly one reply.

Full property: the same for every malformed request. That is false (`C38_refuted`): a refused
`put-object`, a `batch` with bad arguments, a command that is not known or not allowed leave their
remaining packets to be read as commands. For uploads see `C52_upload_partial`. -/
theorem C38_resync_partial {ps : List Packet} {u rest : Bytes} {tr : List Event} {t : Turn} (hs : Shaped mode ps)
    (hF : Frames ps u) (hi : r.input = u ++ rest) (h : (turn cfg mode r).Finished tr (.ok t, r'))
    (ho : ∀ e ∈ tr, e.OutOk) : t = .again ∧ r' = { r with input := rest } ∧ IsReply (output tr) := by
  suffices H : r' = { r with input := rest } ∧ (Res.ok t : Res Turn) ≠ .ok .done by
    have : t = .again := by
      cases t with
      | again => rfl
      | done => exact absurd rfl H.2
    subst this
    exact ⟨rfl, H.1, C36_one_reply cfg mode r r' tr h ho⟩
  exact Logic.only_finished (P := fun _ => True) (Q := fun x r' => r' = { r with input := rest } ∧ x ≠ .ok .done)
    (turn_shaped hs hF hi) h (fun _ _ => trivial)

/-! ### C52 -/

/-- The same for uploads, when the temporary file can be created and written. -/
theorem turn_put {oid data u rest : Bytes} {n : Nat} {ps : List Packet} (hq : Encodes (.put oid n data) ps)
    (hF : Frames ps u) (hi : r.input = u ++ rest) (hp : r.pending = []) :
    (turn cfg .upload).wp (Logic.only Event.CopyOk) r ()
      (fun x r' _ => r' = { r with input := rest } ∧ x ≠ .ok .done) := by
  cases hq with
  | @put l kv oid s data n ds hoid hl ha hsz hn hds hdata =>
    obtain ⟨v, u', rfl, hv, hu⟩ := frames_split (ps := [Packet.data l]) (by simpa using hF)
    have hrd := readPacket_frame (frames_singleton hv) r (u' ++ rest) (by rw [hi, List.append_assoc])
    obtain ⟨hw, hne⟩ := words_oid (cmd := b!"put-object") hoid (by decide) hl
    have hu : Frames ((argPackets kv ++ [.delim]) ++ (ds.map .data ++ [.flush])) u' := by simpa using hu
    obtain ⟨a, b, rfl, hua, hub⟩ := frames_split hu
    obtain ⟨m, hm, hg⟩ := C09_args_exact kv ha
    have h1 := readToDelim_args (r := { r with input := a ++ b ++ rest }) hua
      (show a ++ b ++ rest = a ++ (b ++ rest) by rw [List.append_assoc])
    refine turn_endsAt hrd hne hw (by decide) ?_
    have hsz' : sizeFromArgs m = .ok n := by
      unfold sizeFromArgs
      rw [hg, hsz]
      exact num_parse hn
    exact endsAt_put (cfg := cfg) (r1 := { r with input := b ++ rest }) (.inl rfl) ((oidValid_iff oid).mpr hoid) h1 hm hsz' hds hub rfl hp

/-- **C52**, when the temporary file can be created and written: whatever else fails (making the
directory, renaming, changing permissions, reading the clock, ..), and whether or not the data is what
was announced, the whole upload has been consumed after the one reply.

Full property: the same for every I/O error. That is false (`C52_refuted`). -/
theorem C52_upload_partial {oid data u rest : Bytes} {n : Nat} {ps : List Packet} {tr : List Event} {t : Turn}
    (hq : Encodes (.put oid n data) ps) (hF : Frames ps u) (hi : r.input = u ++ rest) (hp : r.pending = [])
    (h : (turn cfg .upload r).Finished tr (.ok t, r')) (hc : ∀ e ∈ tr, e.CopyOk) (ho : ∀ e ∈ tr, e.OutOk) :
    t = .again ∧ r' = { r with input := rest } ∧ IsReply (output tr) := by
  suffices H : r' = { r with input := rest } ∧ (Res.ok t : Res Turn) ≠ .ok .done by
    have : t = .again := by
      cases t with
      | again => rfl
      | done => exact absurd rfl H.2
    subst this
    exact ⟨rfl, H.1, C36_one_reply cfg .upload r r' tr h ho⟩
  exact Logic.only_finished (P := Event.CopyOk) (Q := fun x r' => r' = { r with input := rest } ∧ x ≠ .ok .done)
    (turn_put hq hF hi hp) h hc

/-! ### C54 -/

/-- On executions whose uploads can be written, no bytes are left in the reader's buffer. -/
def M.Dry {α : Type} (m : M α) : Prop :=
  ∀ r : Rdr, r.pending = [] → m.wp (Logic.only Event.CopyOk) r () (fun x r' _ => x ≠ .panic → r'.pending = [])

namespace M.Dry
variable {α β : Type}

theorem still {m : M α} (h : m.Still) : m.Dry := fun r hr => M.wp_mono (h _ r) fun _ _ _ e _ => e ▸ hr

theorem rdr {f : Rdr → Res α × Rdr} (h : ∀ r : Rdr, r.Adv (f r).2) : (M.rdr f).Dry := fun r hr _ =>
  (h r).pending.trans hr

theorem bind {m : M α} {f : α → M β} (h : m.Dry) (hf : ∀ a, (f a).Dry) : (m >>= f).Dry := by
  intro r hr
  rw [M.wp_bind]
  refine M.wp_mono (h r hr) ?_
  rintro (a | e | _) r' s' h'
  · exact hf a r' (h' (by simp))
  · exact fun _ => h' (by simp)
  · exact fun h => absurd rfl h

theorem attempt {m : M α} (h : m.Dry) : (M.attempt m).Dry := by
  intro r hr
  rw [M.wp_attempt]
  refine M.wp_mono (h r hr) ?_
  rintro (a | e | _) r' s' h'
  · exact fun _ => h' (by simp)
  · exact fun _ => h' (by simp)
  · exact fun h => absurd rfl h

end M.Dry

theorem readLoopF_dry (n : Nat) (hn : 0 < n) : ∀ (f : Nat) (r r' : Rdr) (x : Res Bytes), r.pending = [] → Rdr.readLoopF f n r = (x, r') →
    (x = .ok [] ∨ ∃ e, x = .err e) → r'.pending = []
  | 0, _, _, _, hp, h, hx => by cases h; exact hp
  | f + 1, r, r', x, hp, h, hx => by
    rw [Rdr.readLoopF] at h
    split at h
    · rename_i h1; cases h; exact (readOne_adv h1).pending.trans hp
    · rename_i h1; cases h; exact (readOne_adv h1).pending.trans hp
    · rename_i d r1 h1
      have hp1 := (readOne_adv h1).pending.trans hp
      split at h
      · split at h
        · exact readLoopF_dry n hn f r1 r' x hp1 h hx
        · cases h; exact hp1
      · split at h
        · exact readLoopF_dry n hn f r1 r' x hp1 h hx
        · rename_i hd
          cases h
          rcases hx with h | ⟨e, h⟩
          · simp only [Res.ok.injEq, List.take_eq_nil_iff, hd, or_false] at h
            omega
          · cases h
    · rename_i h1; cases h; exact (readOne_adv h1).pending.trans hp
    · rename_i h1; cases h; exact (readOne_adv h1).pending.trans hp

theorem read_dry {n : Nat} {r r' : Rdr} {x : Res Bytes} (h : r.read (n + 1) = (x, r'))
    (hx : x = .ok [] ∨ ∃ e, x = .err e) : r'.pending = [] := by
  unfold Rdr.read at h
  simp only at h
  split at h
  · rename_i hk
    cases h
    rcases hx with h | ⟨e, h⟩
    · simp only [Res.ok.injEq, List.take_eq_nil_iff] at h
      rcases h with h | h
      · omega
      · simp [h]
    · cases h
  · rename_i hk
    refine readLoopF_dry (n + 1) (by omega) _ _ _ _ ?_ h hx
    rw [← List.length_eq_zero_iff]
    omega

theorem copyInF_dry (bufs : Nat → Nat) (ino : Ino) : ∀ (f i : Nat) (acc : Bytes) (r : Rdr),
    (copyInF bufs ino f i acc).wp (Logic.only Event.CopyOk) r () (fun x r' _ => x ≠ .panic → r'.pending = [])
  | 0, _, _, _ => by rw [copyInF, M.wp_panic]; exact fun h => absurd rfl h
  | f + 1, i, acc, r => by
    rw [copyInF, M.wp_bind, M.wp_rdr]
    cases hr : r.read (bufs i + 1) with
    | mk x r1 =>
      cases x with
      | panic => exact fun h => absurd rfl h
      | err e => exact fun _ => read_dry hr (.inr ⟨e, rfl⟩)
      | ok d =>
        simp only [Res.elim_ok]
        split
        · rename_i hd
          subst hd
          exact fun _ => read_dry hr (.inl rfl)
        · rw [M.wp_bind, M.wp_op]
          refine ⟨trivial, fun y hy => ?_⟩
          rw [Res.elim_ok, M.wp_bind, M.wp_ofIo]
          have hy : y = .ok () := hy
          subst hy
          exact copyInF_dry bufs ino f (i + 1) (acc ++ d) r1

theorem dry_startUpload (cfg : Cfg) (oid : Bytes) : (startUpload cfg oid).Dry := by
  intro r hr
  unfold startUpload
  rw [M.wp_bind, M.wp_op]
  refine ⟨trivial, fun x hx => ?_⟩
  obtain ⟨⟨path, ino⟩, rfl⟩ : ∃ a, x = .ok a := hx
  rw [Res.elim_ok, M.wp_bind, M.wp_ofIo]
  simp only [Res.elim_ok]
  rw [M.wp_onFail, M.wp_bind]
  have hcopy : (copyIn cfg.copyBuf ino).wp (Logic.only Event.CopyOk) r () (fun x r' _ => x ≠ .panic → r'.pending = []) :=
    copyInF_dry cfg.copyBuf ino _ 0 [] r
  refine M.wp_mono hcopy ?_
  rintro (a | e | _) r1 s1 h
  · exact fun _ => h (by simp)
  · exact M.wp_mono (still_dropFile path _ r1) fun _ _ _ e _ => e ▸ h (by simp)
  · exact M.wp_mono (Q' := fun _ r _ => (Res.panic : Res (Path × Bytes)) ≠ .panic → r.pending = [])
      (still_dropFile path _ r1) fun _ _ _ _ h => absurd rfl h

theorem dry_readTo (t : Packet) : (M.rdr (readToType t)).Dry := .rdr fun r => readToTypeF_adv t _ r _ _ rfl

theorem dry_parse : readToFlushParse.Dry := by
  unfold readToFlushParse
  refine .bind (.attempt (dry_readTo _)) fun x => ?_
  split
  · exact .still (.pure _)
  · exact .still (.throw _)

theorem dry_dispatch (cfg : Cfg) (mode : Mode) (cmd : Bytes) (arg : Option Bytes) : (dispatch cfg mode cmd arg).Dry := by
  have hbatch : ∀ p m, (batchCmd cfg p m).Dry := by
    intro p m
    unfold batchCmd readBatch
    refine .bind (.bind (dry_readTo _) fun _ => .bind (.still (.ofRes _)) fun _ => .bind dry_parse fun _ =>
      .still ?_) fun _ => .still (.pure _)
    have h3 := still_backendBatch cfg
    split <;> (try split) <;> simp only [] <;>
      first
      | exact .bind (.ofRes _) fun _ => h3 _
      | exact .bind (.pure _) fun _ => .bind (.ofRes _) fun _ => h3 _
      | exact .bind (.throw _) fun _ => .bind (.ofRes _) fun _ => h3 _
  have hput : ∀ a, (putObject cfg a).Dry := by
    intro a
    unfold putObject
    exact .bind (.still (still_oidNew _)) fun _ => .bind (dry_readTo _) fun _ => .bind (.still (.ofRes _)) fun _ =>
      .bind (.still (.ofRes _)) fun _ => .bind (dry_startUpload _ _) fun _ => .still (.bind
        (.onFail (still_checkUpload _ _ _ _) (still_dropFile _)) fun _ => .bind (still_finishUpload _ _ _) fun _ => .pure _)
  have hver : ∀ a, (verifyObject cfg a).Dry := fun a =>
    .bind (dry_readTo _) fun _ => .still (.bind (.ofRes _) fun _ => .bind (still_oidNew _) fun _ => still_backendVerify _ _ _)
  have hget : ∀ a, (getObject cfg a).Dry := by
    intro a
    unfold getObject
    refine .bind (dry_readTo _) fun _ => .still (.bind (.ofRes _) fun _ => .bind (still_oidNew _) fun _ =>
      .bind (.attempt (still_backendDownload _ _)) fun _ => ?_)
    still_ops
  have hun : ∀ a, (unlockCmd cfg a).Dry := by
    intro a
    unfold unlockCmd
    refine .bind (dry_readTo _) fun _ => .still ?_
    split
    · exact .throw _
    · refine .bind (still_lockFromId _ _) fun y => ?_
      split
      · exact .pure _
      · refine .bind (still_lockArgs _ _) fun _ => .bind (.attempt (still_lockUnlock _ _)) fun _ => ?_
        still_ops
  have hlock : (lockCmd cfg).Dry := by
    unfold lockCmd
    refine .bind dry_parse fun _ => .still (.bind (.ofRes _) fun _ => ?_)
    split
    · exact still_lockLoop _ _
    · exact .throw _
  have hlist : ∀ o, (listLocks cfg o).Dry := by
    intro o
    unfold listLocks
    refine .bind dry_parse fun _ => .still (.bind (.ofRes _) fun _ => .bind (.ofRes _) fun _ => ?_)
    simp only []
    split
    · exact still_listLocksForPath _ _ _ _
    · exact .bind (still_iterLocks _ _ _) fun _ => .bind (still_lockSpecs _ _ _) fun _ => .pure _
  have hversion : versionCmd.Dry := .bind (dry_readTo _) fun _ => .still (.pure _)
  unfold dispatch
  repeat' first
    | split
    | with_reducible exact hversion
    | with_reducible exact hbatch _ _
    | with_reducible exact hput _
    | with_reducible exact hver _
    | with_reducible exact hget _
    | with_reducible exact hun _
    | with_reducible exact hlock
    | with_reducible exact hlist _
    | exact .still (.pure _)

theorem dry_turn (cfg : Cfg) (mode : Mode) : (turn cfg mode).Dry := by
  unfold turn
  refine .bind (.attempt (.rdr fun _ => readPacket_adv rfl)) fun x => ?_
  split
  · refine .still ?_; still_ops
  · split
    · exact .still (.bind (still_sendError _ _) fun _ => .pure _)
    · split
      · exact .still (.bind (still_sendError _ _) fun _ => .pure _)
      · simp only []
        split
        · exact .still (.bind (still_sendStatus _) fun _ => .pure _)
        · refine .bind (.attempt (dry_dispatch _ _ _ _)) fun y => .still ?_
          split <;> exact .bind (still_sendStatus _) fun _ => .pure _

/-- Turns of the command loop one after the other. -/
inductive Turns (cfg : Cfg) (mode : Mode) : Rdr → List Event → Rdr → Prop
  | nil {r : Rdr} : Turns cfg mode r [] r
  | cons {r r1 r2 : Rdr} {tr1 tr2 : List Event} : (turn cfg mode r).Finished tr1 (.ok .again, r1) →
      Turns cfg mode r1 tr2 r2 → Turns cfg mode r (tr1 ++ tr2) r2

theorem turns_dry {tr : List Event} (h : Turns cfg mode r tr r') (hp : r.pending = []) (hc : ∀ e ∈ tr, e.CopyOk) :
    r'.pending = [] := by
  induction h with
  | nil => exact hp
  | cons h1 _ ih =>
    refine ih ?_ fun e he => hc e (by simp [he])
    exact Logic.only_finished (Q := fun x r' => x ≠ .panic → r'.pending = []) (dry_turn cfg mode _ hp) h1
      (fun e he => hc e (by simp [he])) (by simp)

/-- **C54**, when no write to an upload's temporary file failed: however many requests came before,
well-formed or not, accepted or refused, the next upload is judged by its own data alone.

Full property: the same after any failed upload. That is false (`C54_refuted`). -/
theorem C54_fresh_partial {ch : Nat → Choice} {s : Store} {r0 : Rdr} {tr : List Event} {w : World}
    {oid data rest : Bytes} {n : Nat} {ps : List Packet} {u : Bytes}
    (h : Turns cfg .upload r0 tr r) (h0 : r0.pending = []) (hc : ∀ e ∈ tr, e.CopyOk)
    (hcalm : ∀ n, (ch n).fault = none) (hsha : ∀ b, (cfg.sha b).length = 32)
    (hclk : ∀ t, Clock cfg ch t → TimeOk cfg t) (hq : Encodes (.put oid n data) ps) (hF : Frames ps u)
    (hi : r.input = u ++ rest) (hr : Rep cfg s w.fs) (hd : Ready cfg w.fs) :
    OneReply cfg .upload ch rest r w fun reply fs' =>
      (data.length = n ∧ hex (cfg.sha data) = oid ↔ reply.code = 200) ∧
      (data.length = n ∧ hex (cfg.sha data) = oid → fs'.content (objectFile cfg.root oid) = some data) := by
  have := C13_put_exact ⟨hcalm, hsha, hclk, ⟨ps, u, hq, hF, hi⟩, turns_dry h h0 hc, rfl, hr, hd⟩
  refine this.mono ?_
  rintro reply fs' _ ⟨_, k⟩
  split at k
  · rename_i hk
    exact ⟨⟨fun _ => k.1, fun _ => hk⟩, fun _ => k.2.1⟩
  · rename_i hk
    exact ⟨⟨fun h => absurd h hk, fun h => by rw [h] at k; exact absurd k.1 (by decide)⟩, fun h => absurd h hk⟩

/-- **C54**, exactly: an upload during which no call fails is judged by what the buffer still contains, followed by its
own data; and bytes are left in the buffer only if a temporary file could not be created or written before
(`turns_dry`). Afterwards nothing is left.

Full property: the same with an empty buffer after any failed upload. That is false (`C54_refuted`). -/
theorem C54_exact_partial {ch : Nat → Choice} {s : Store} {r0 : Rdr} {tr : List Event} {w : World}
    {oid data rest : Bytes} {n : Nat} {ps : List Packet} {u : Bytes}
    (h : Turns cfg .upload r0 tr r) (h0 : r0.pending = [])
    (hcalm : ∀ n, (ch n).fault = none) (hsha : ∀ b, (cfg.sha b).length = 32) (hq : Encodes (.put oid n data) ps)
    (hF : Frames ps u) (hi : r.input = u ++ rest) (hr : Rep cfg s w.fs) (hd : Ready cfg w.fs) :
    (r.pending ≠ [] → ∃ e ∈ tr, ¬ e.CopyOk) ∧
    ((turn cfg .upload r).run ch w).1 = (.ok .again, { r with input := rest, pending := [] }) ∧
    ∃ (reply : Reply) (b : Bytes), reply.Ok ∧ Frames reply.packets b ∧ ((turn cfg .upload r).run ch w).2.out = w.out ++ b ∧
      if (r.pending ++ data).length = n ∧ hex (cfg.sha (r.pending ++ data)) = oid then
        reply.code = 200 ∧ ((turn cfg .upload r).run ch w).2.fs.content (objectFile cfg.root oid) = some (r.pending ++ data)
      else reply.code = 400 ∧ SameObjs cfg.root w.fs ((turn cfg .upload r).run ch w).2.fs := by
  refine ⟨fun hne => Classical.byContradiction fun hno => hne (turns_dry h h0 fun e he =>
    Classical.byContradiction fun hn => hno ⟨e, he, hn⟩), ?_⟩
  have ho : IsOid oid := by
    cases hq with
    | put ho => exact ho
  obtain ⟨h1, h2, t, t', b, _, _, hb, ⟨reply, k1, k2, k3, _, _⟩, hr', _⟩ :=
    (Prog.wp_run ch (turn cfg .upload r) w _).mp (runs_turn_put hcalm hsha hq hF hi hr hd)
  refine ⟨Prod.ext h1 h2, reply, b, k1, k2, hb, ?_⟩
  by_cases hp : (r.pending ++ data).length = n ∧ hex (cfg.sha (r.pending ++ data)) = oid
  · rw [if_pos hp]
    rw [← putError_none] at hp
    simp only [answer, hp] at k3 hr'
    exact ⟨k3, by rw [hr'.objs oid ho]; simp⟩
  · rw [if_neg hp]
    rw [← putError_none] at hp
    obtain ⟨m, hm⟩ := Option.ne_none_iff_exists'.mp hp
    simp only [answer, hm] at k3 hr'
    exact ⟨k3, sameObjs_of hr hr' fun _ _ => rfl⟩

/-! ### C08 -/

/-- **C08**, uploads: if the input ends anywhere inside an upload, whatever the OS answers, the server
creates, fills and removes at most a temporary file in `incomplete`; in particular it renames nothing,
so no object appears, and it touches no lock. -/
theorem C08_put_partial {oid data u : Bytes} {n : Nat} {ps : List Packet} {tr : List Event}
    (hq : Encodes (.put oid n data) ps) (hF : Frames ps u) (hpre : r.input <+: u) (hne : r.input ≠ u)
    (hp : r.pending = []) (h : (turn cfg mode r).Did tr) (hposs : ∀ e ∈ tr, e.Possible) :
    ∀ e ∈ tr, Harmless cfg.root e.1 := by
  suffices H : (turn cfg mode).wp (Logic.calls (Harmless cfg.root) Event.Possible) r () (fun _ _ _ => True) from
    Logic.calls_did H h hposs
  cases hq with
  | @put l kv oid s data n ds hoid hl ha hsz hn hds hdata =>
    obtain ⟨v, u', rfl, hv, hu⟩ := frames_split (ps := [Packet.data l]) (by simpa using hF)
    have hv := frames_singleton hv
    by_cases hlen : r.input.length < v.length
    · have : r.input <+: v := List.prefix_of_prefix_length_le hpre (List.prefix_append _ _) (by omega)
      exact M.wp_mono (turn_no_command hv this (by intro e; rw [e] at hlen; omega)) fun _ _ _ _ => trivial
    · obtain ⟨inp', hi⟩ : v <+: r.input :=
        List.prefix_of_prefix_length_le (List.prefix_append _ _) hpre (by omega)
      have hpre' : inp' <+: u' := by
        rw [← hi] at hpre
        exact (List.prefix_append_right_inj v).mp hpre
      have hne' : inp' ≠ u' := fun e => hne (by rw [← hi, e])
      obtain ⟨hw, hne⟩ := words_oid (cmd := b!"put-object") hoid (by decide) hl
      refine turn_calls (readPacket_frame hv r inp' hi.symm) hne hw (by decide) (fun o => harmless_looks) ?_
      have hu : Frames (((kv.map fun e => argLine e.1 e.2).map .data ++ [.delim]) ++ (ds.map .data ++ [.flush])) u' := by
        rw [← argPackets_eq]; simpa using hu
      cases mode with
      | upload =>
        exact M.wp_mono (put_truncated (r := { r with input := inp' }) hds hu hpre' hne' hp) fun _ _ _ _ => trivial
      | download => exact trivial

/-- **C08**, `lock`: if the input ends inside the request and the packets that were complete do not
contain both `path` and `refname`, nothing is changed.

Full property: no truncated request changes anything. That is false (`C08_refuted`): a `lock` cut off
after these two arguments, and an `unlock` cut off anywhere after its command line, are executed. -/
theorem C08_lock_partial {l u v : Bytes} {items : List Bytes} {tr : List Event} (hl : CommandLine l [b!"lock"])
    (hv : Frame (.data l) v) (hu : Frames (items.map .data ++ [.flush]) u)
    (hpre : r.input <+: v ++ u) (hne : r.input ≠ v ++ u)
    -- the complete packets lack an argument
    (hcut : ∀ ds w part, ds <+: items → Frames (ds.map .data) w → r.input = v ++ w ++ part →
      ¬ ∃ kv, ArgsOk kv ∧ ds = kv.map (fun e => argLine e.1 e.2) ∧ (lookup kv b!"path").isSome ∧
        (lookup kv b!"refname").isSome)
    (h : (turn cfg mode r).Did tr) : ∀ e ∈ tr, e.1.mutates = false := by
  suffices H : (turn cfg mode).wp (Logic.calls (fun o => o.mutates = false) (fun _ => True)) r () (fun _ _ _ => True) from
    Logic.calls_did H h (fun _ _ => trivial)
  by_cases hlen : r.input.length < v.length
  · have : r.input <+: v := List.prefix_of_prefix_length_le hpre (List.prefix_append _ _) (by omega)
    exact M.wp_mono (turn_no_command hv this (by intro e; rw [e] at hlen; omega)) fun _ _ _ _ => trivial
  · obtain ⟨inp', hi⟩ : v <+: r.input :=
      List.prefix_of_prefix_length_le (List.prefix_append _ _) hpre (by omega)
    have hpre' : inp' <+: u := by
      rw [← hi] at hpre
      exact (List.prefix_append_right_inj v).mp hpre
    have hne' : inp' ≠ u := fun e => hne (by rw [← hi, e])
    obtain ⟨hw, hnl⟩ := commandLine_words hl
    refine turn_calls (readPacket_frame hv r inp' hi.symm) hnl hw (by decide) (fun _ h => h) ?_
    cases mode with
    | download => exact trivial
    | upload =>
      show (lockCmd cfg).wp _ _ _ _
      obtain ⟨ds1, ds2, p, w1, wp, part, e1, h2, h3, h4, h5, h6⟩ := frames_cut hu hpre' hne'
      have hread : readToType .flush { r with input := inp' } =
          (if r.fin.kind = .unexpectedEof then .ok ds1 else .err (Err.ofIo r.fin), { r with input := [] }) := by
        refine readToTypeF_truncated .flush (.inl rfl) h3 h4 h5 ds1 _ { r with input := inp' } w1 h2 h6 ?_
        have := frames_length h2
        show _ < inp'.length + 1
        rw [h6]; simp at this ⊢; omega
      unfold lockCmd readToFlushParse readToFlush
      rw [M.wp_bind, M.wp_bind, M.wp_attempt, M.wp_rdr, hread]
      split
      · rw [Res.elim_ok, Res.elim_ok, M.wp_pure, Res.elim_ok, M.wp_bind, M.wp_ofRes]
        have hno := hcut ds1 w1 part ⟨ds2, e1.symm⟩ h2 (by rw [← hi, h6, List.append_assoc])
        rcases C09_exhaustive ds1 with ⟨kv, hkv, rfl⟩ | ⟨kv, bad, more, hkv, rfl, hbad⟩
        · obtain ⟨m, hm, hg⟩ := C09_args_exact kv hkv
          rw [hm, Res.elim_ok, hg, hg]
          cases hp : lookup kv b!"path" with
          | none => exact trivial
          | some x =>
            cases hr : lookup kv b!"refname" with
            | none => exact trivial
            | some y => exact absurd ⟨kv, hkv, rfl, by simp [hp], by simp [hr]⟩ hno
        · have herr : ∃ e, parseArgs (kv.map (fun e => argLine e.1 e.2) ++ bad :: more) = .err e := by
            obtain ⟨b1, b2, b3⟩ := C09_args_errors kv hkv bad more
            rcases hbad with h | h | ⟨k, v, h, h', h''⟩
            · exact (b1 h).imp fun _ h => h.1
            · exact (b2 h).imp fun _ h => h.1
            · exact (b3 k v h h' h'').imp fun _ h => h.1
          obtain ⟨e, he⟩ := herr
          rw [he]
          exact trivial
      · exact trivial

theorem looking_dispatch (cfg : Cfg) (mode : Mode) {cmd : Bytes} (arg : Option Bytes)
    (h : cmd ≠ b!"put-object" ∧ cmd ≠ b!"lock" ∧ cmd ≠ b!"unlock") :
    (dispatch cfg mode cmd arg).All (fun o => o.mutates = false) := by
  have q : ∀ {m : M Status}, m.All Looks → m.All (fun o => o.mutates = false) := fun h =>
    h.mono fun _ => Looks.not_mutates
  unfold dispatch
  repeat' (first
    | split
    | exact absurd (by assumption) h.1
    | exact absurd (And.left (by assumption)) h.2.1
    | exact absurd (And.left (by assumption)) h.2.2
    | exact .pure _
    | with_reducible exact q looks_versionCmd
    | with_reducible exact q (looks_batchCmd cfg _ _)
    | with_reducible exact q (looks_verifyObject cfg _)
    | with_reducible exact q (looks_getObject cfg _)
    | with_reducible exact q (looks_listLocks cfg _))

/-- **C08**, the other commands: whatever follows the command line, whole, truncated or malformed, nothing
is changed. -/
theorem C08_others_partial {l v more : Bytes} {cmd : Bytes} {args : List Bytes} {tr : List Event}
    (hl : CommandLine l (cmd :: args)) (hv : Frame (.data l) v) (hi : r.input = v ++ more)
    (hc : cmd ≠ b!"put-object" ∧ cmd ≠ b!"lock" ∧ cmd ≠ b!"unlock")
    (h : (turn cfg mode r).Did tr) : ∀ e ∈ tr, e.1.mutates = false := by
  suffices H : (turn cfg mode).wp (Logic.calls (fun o => o.mutates = false) (fun _ => True)) r () (fun _ _ _ => True) from
    Logic.calls_did H h (fun _ _ => trivial)
  obtain ⟨hw, hnl⟩ := commandLine_words hl
  by_cases hq : cmd = b!"quit"
  · unfold M.wp
    rw [turn_data cfg mode r _ l hnl (readPacket_frame hv r more hi)]
    simp only [hw, List.head?_cons, Option.getD_some, List.tail_cons]
    suffices hh : ∀ m : M Turn, m.All (fun o => o.mutates = false) → ∀ r', (m r').wp
        (Logic.calls (fun o => o.mutates = false) (fun _ => True)) () (fun _ _ => True) by
      refine hh _ ?_ _
      split
      · exact .bind (replies_sendStatus _) fun _ => .pure _
      · refine .bind (.attempt (looking_dispatch cfg mode _ hc)) fun y => ?_
        split <;> exact .bind (replies_sendStatus _) fun _ => .pure _
    exact fun m hm r' => M.All.calls hm r' (fun _ _ _ => trivial)
  · exact turn_calls (readPacket_frame hv r more hi) hnl hw hq (fun _ h => h)
      (M.All.calls (looking_dispatch cfg mode _ hc) _ (fun _ _ _ => trivial))

end Verif

namespace Verif
open Spec

/-! ### Refutations and concrete cases -/

namespace Tests

def replyOk (r : Reply) : Bool :=
  [200, 201, 400, 403, 404, 409, 500].contains r.code && r.digits.length == 3 && r.digits.all isDigit &&
    digitsVal 0 r.digits == r.code && (r.args ++ r.data.getD []).all (fun d => 1 ≤ d.length && d.length ≤ 65516)

theorem replyOk_ok {r : Reply} (h : replyOk r = true) : r.Ok := by
  simp only [replyOk, Bool.and_eq_true, beq_iff_eq, List.all_eq_true, decide_eq_true_eq, List.mem_append] at h
  obtain ⟨⟨⟨⟨h1, h2⟩, h3⟩, h4⟩, h5⟩ := h
  refine ⟨by simpa using h1, ⟨h2, (dec_iff _ _).mpr ⟨?_, h3, h4⟩⟩, fun d hd => h5 d (.inl hd), ?_⟩
  · intro e; rw [e] at h2; cases h2
  · intro ds hds d hd
    exact h5 d (.inr (by rw [hds]; exact hd))

theorem isReply_enc {r : Reply} (h : replyOk r = true) (hs : r.packets.all Packet.short = true) :
    IsReply (enc r.packets) := ⟨r, replyOk_ok h, frames_enc _ hs⟩

def unknown : Reply := ⟨400, b!"400", [], some [b!"unknown command\n"]⟩
def badOid : Reply := ⟨400, b!"400", [], some [b!"error: invalid or malformed LFS oid\n"]⟩
def lockedF : Reply :=
  ⟨201, b!"201", [b!"id=" ++ idF ++ b!"\n", b!"path=f\n", b!"locked-at=2001-09-17T00:00:00+00:00\n",
    b!"ownername=test user\n"], none⟩
def failed : Reply := ⟨500, b!"500", [], some [b!"internal error: fatal: I/O error: Input/output error (os error 5)\n"]⟩

/-- Data packets that look like a command. -/
def evil : List Bytes := [b!"lock\n", b!"path=f\n", b!"refname=main\n"]

end Tests

open Tests in
/-- **C38** is false: an upload with a bad object ID, containing text that looks like a command, gets
four replies and takes a lock. -/
theorem C38_refuted : ∃ (cfg : Cfg) (l x : Bytes) (kv : List (Bytes × Bytes)) (ds : List Bytes) (u : Bytes)
    (reps : List Bytes), CommandLine l [b!"put-object", x] ∧ ArgsOk kv ∧
      Frames (.data l :: argPackets kv ++ .delim :: ds.map .data ++ [.flush]) u ∧
      (∀ w ∈ reps, IsReply w) ∧ reps.length = 4 ∧
      ((server cfg b!"upload" u).run calm ⟨fs0, [], 0⟩).2.out = capBytes ++ reps.flatten ∧
      held cfg.root fs0 (lockName cfg.sha b!"f") = none ∧
      (held cfg.root ((server cfg b!"upload" u).run calm ⟨fs0, [], 0⟩).2.fs (lockName cfg.sha b!"f")).isSome := by
  refine ⟨Tests.cfg, b!"put-object abc\n", b!"abc", [(b!"size", b!"24")], evil,
    enc (.data b!"put-object abc\n" :: argPackets [(b!"size", b!"24")] ++ .delim :: evil.map .data ++ [.flush]),
    [enc badOid.packets, enc unknown.packets, enc unknown.packets, enc lockedF.packets],
    ⟨b!"put-object abc", .cons (x := b!"put-object") (w := b!"abc") (by decide) (.one (by decide)), by decide, .inl rfl⟩,
    by unfold ArgsOk; decide, frames_enc _ (by decide), ?_, rfl, by decide +kernel, rfl, ?_⟩
  · intro w hw
    simp only [List.mem_cons, List.not_mem_nil, or_false] at hw
    rcases hw with rfl | rfl | rfl | rfl <;> exact isReply_enc (by decide +kernel) (by decide +kernel)
  · rw [lockName_f]; decide +kernel

/-- A malformed request to which `C38_resync_partial` applies: `verify-object` of a bad ID with
bad arguments, and a batch with bad lines. -/
example : Shaped .upload [.data b!"verify-object zzz\n", .data b!"nonsense", .flush] ∧
    Shaped .download [.data b!"batch", .data b!"hash-algo=md5\n", .delim, .data b!"zzz", .flush] :=
  ⟨.args (items := [b!"nonsense"]) ⟨b!"verify-object zzz", .cons (x := b!"verify-object") (w := b!"zzz") (by decide) (.one (by decide)),
      by decide, .inl rfl⟩ .verify,
    .batch (kv := [(b!"hash-algo", b!"md5")]) (items := [b!"zzz"]) ⟨b!"batch", .one (by decide), by decide,
      .inr ⟨rfl, by decide⟩⟩ (by unfold ArgsOk; decide)⟩

namespace Tests

/-- A valid upload whose data contains text that looks like a command. -/
def evilData : List Bytes := b!"x" :: evil
def oidX : Bytes := b!"f55f7146f745e437778c434305040271c8eeb17d26fe87a8a2a043a48f1163b1"
theorem num26 : Num b!"26" 26 := ⟨by decide, .inl ((dec_iff _ _).mpr (by decide))⟩
def putX : List Packet :=
  [.data (b!"put-object " ++ oidX), .data b!"size=26\n", .delim] ++ evilData.map .data ++ [.flush]

theorem putX_encodes : Encodes (.put oidX 26 evilData.flatten) putX :=
  .put (kv := [(b!"size", b!"26")]) (by unfold IsOid; decide +kernel) (.inl rfl) (by unfold ArgsOk; decide) (by decide)
    num26 (by decide) rfl

/-- The upload is a good one. -/
theorem putX_good : evilData.flatten.length = 26 ∧ hex (Tests.cfg.sha evilData.flatten) = oidX := by decide +kernel

/-- The first write to its temporary file fails. -/
def faultX : Nat → Choice := failAt 9 eio 0

end Tests

open Tests in
/-- **C52** is false: one failing write makes the server execute the rest of a valid upload, taking a
lock. -/
theorem C52_refuted : ∃ (cfg : Cfg) (ch : Nat → Choice) (oid data u : Bytes) (n : Nat) (ps : List Packet)
    (reps : List Bytes), Encodes (.put oid n data) ps ∧ Frames ps u ∧ data.length = n ∧ hex (cfg.sha data) = oid ∧
      -- exactly one call fails, a write
      (∃ k, ∀ i, (ch i).fault.isSome = true ↔ i = k) ∧
      (∀ w ∈ reps, IsReply w) ∧ reps.length = 2 ∧
      ((server cfg b!"upload" u).run ch ⟨fs0, [], 0⟩).2.out = capBytes ++ reps.flatten ∧
      (held cfg.root ((server cfg b!"upload" u).run ch ⟨fs0, [], 0⟩).2.fs (lockName cfg.sha b!"f")).isSome := by
  refine ⟨Tests.cfg, faultX, oidX, evilData.flatten, enc putX, 26, putX,
    [enc failed.packets, enc lockedF.packets], putX_encodes, frames_enc _ (by decide), putX_good.1, putX_good.2,
    ⟨9, ?_⟩, ?_, rfl, by decide +kernel, ?_⟩
  · intro i
    unfold faultX failAt
    by_cases h : i = 9
    · simp [h]
    · simp [h, Choice.none]
  · intro w hw
    simp only [List.mem_cons, List.not_mem_nil, or_false] at hw
    rcases hw with rfl | rfl <;> exact isReply_enc (by decide +kernel) (by decide +kernel)
  · rw [lockName_f]; decide +kernel

namespace Tests

/-- `io::copy` with a buffer of four bytes (with the real one of 8192 bytes, packets longer than that
show the same behaviour). -/
def cfg4 : Cfg := { Tests.cfg with copyBuf := fun _ => 3 }

def twice : Bytes := enc (putA [b!"abc123"]) ++ enc (putA [b!"abc123"])
def extra : Reply := ⟨400, b!"400", [], some [b!"error: extra data: expected 6 bytes, got 8\n"]⟩

end Tests

open Tests in
/-- **C54** is false: after an upload failed on a write, the same upload sent again, during which nothing
fails, is refused. -/
theorem C54_refuted : ∃ (cfg : Cfg) (ch : Nat → Choice) (oid data u : Bytes) (n : Nat) (ps : List Packet)
    (reps : List Bytes), Encodes (.put oid n data) ps ∧ Frames ps u ∧ data.length = n ∧ hex (cfg.sha data) = oid ∧
      (∃ k, ∀ i, (ch i).fault.isSome = true ↔ i = k) ∧
      ((server cfg b!"upload" (u ++ u)).run ch ⟨fs0, [], 0⟩).2.out = capBytes ++ reps.flatten ∧
      reps.getLast? = some (enc extra.packets) ∧
      ((server cfg b!"upload" (u ++ u)).run ch ⟨fs0, [], 0⟩).2.fs.content (objectFile cfg.root oid) = none := by
  refine ⟨cfg4, faultX, oidA, [b!"abc123"].flatten, enc (putA [b!"abc123"]), 6, putA [b!"abc123"],
    [enc failed.packets, enc unknown.packets, enc extra.packets], putA_encodes _ (by decide), frames_enc _ (by decide), rfl,
    by decide +kernel, ⟨9, ?_⟩, by decide +kernel, rfl, by decide +kernel⟩
  · intro i
    unfold faultX failAt
    by_cases h : i = 9
    · simp [h]
    · simp [h, Choice.none]

open Tests in
/-- **C08** is false for `lock` and `unlock`: these requests, cut off before the final flush, are executed. -/
theorem C08_refuted : ∃ (cfg : Cfg) (q1 q2 : Request) (ps1 ps2 : List Packet) (u1 u2 : Bytes) (fs1 fs2 : FS),
    Encodes q1 ps1 ∧ Frames ps1 (u1 ++ b!"0000") ∧ Encodes q2 ps2 ∧ Frames ps2 (u2 ++ b!"0000") ∧
      -- the first takes a lock
      held cfg.root fs1 (lockName cfg.sha b!"f") = none ∧
      (held cfg.root ((server cfg b!"upload" u1).run calm ⟨fs1, [], 0⟩).2.fs (lockName cfg.sha b!"f")).isSome ∧
      -- the second removes one
      (held cfg.root fs2 (lockName cfg.sha b!"f")).isSome ∧
      held cfg.root ((server cfg b!"upload" u2).run calm ⟨fs2, [], 0⟩).2.fs (lockName cfg.sha b!"f") = none := by
  refine ⟨Tests.cfg, .lock b!"f", .unlock idF, lockOf b!"f", unlockF,
    enc ((lockOf b!"f").dropLast), enc (unlockF.dropLast), fs0, fsL, lockOf_encodes _, ?_, unlockF_encodes, ?_, rfl, ?_⟩
  · exact frames_append (frames_enc (lockOf b!"f").dropLast (by decide)) (frame_singleton .flush)
  · exact frames_append (frames_enc unlockF.dropLast (by decide)) (frame_singleton .flush)
  · rw [lockName_f]; decide +kernel

/-- A truncated upload, and a truncated `lock` to which `C08_lock_partial` applies. -/
example : Tests.enc ((Tests.putA [b!"abc", b!"123"]).dropLast) <+: Tests.enc (Tests.putA [b!"abc", b!"123"]) ∧
    Tests.enc ((Tests.putA [b!"abc", b!"123"]).dropLast) ≠ Tests.enc (Tests.putA [b!"abc", b!"123"]) := by
  refine ⟨⟨b!"0000", by decide +kernel⟩, by decide +kernel⟩

namespace Tests

def copyOkB : Event → Bool
  | ⟨.createTemp _ _ _, x⟩ => match x with | .ok _ => true | _ => false
  | ⟨.write _ _, x⟩ => match x with | .ok _ => true | _ => false
  | _ => true

theorem copyOkB_ok {tr : List Event} (h : tr.all copyOkB = true) : ∀ e ∈ tr, e.CopyOk := by
  intro e he
  have := List.all_eq_true.mp h e he
  obtain ⟨o, x⟩ := e
  cases o <;> try trivial
  all_goals
    cases x with
    | ok a => first | exact ⟨a, rfl⟩ | rfl
    | error e => cases this

/-- A turn that serves an upload whose data is wrong. -/
def wrong : Rdr := seeing (putA [b!"abc", b!"124"]) []
/-- A turn that serves a good upload; making the directory fails. -/
def good : Rdr := seeing (putA [b!"abc", b!"123"]) b!"0009quit\n"

def turnRun (ch : Nat → Choice) (r : Rdr) := (turn Tests.cfg .upload r).run ch ⟨fsL, [], 0⟩
def eventsOf (ch : Nat → Choice) (r : Rdr) := (turn Tests.cfg .upload r).events ch ⟨fsL, [], 0⟩

end Tests

open Tests in
/-- The hypotheses of `C52_upload_partial` hold for a good upload during which a call fails, so that the reply is
500. -/
example : (∀ e ∈ eventsOf (failAt 3 eio 0) good, e.CopyOk) ∧
    (turn Tests.cfg .upload good).Finished (eventsOf (failAt 3 eio 0) good)
      (.ok .again, { good with input := b!"0009quit\n" }) ∧
    (turnRun (failAt 3 eio 0) good).2.out = enc failed.packets := by
  refine ⟨copyOkB_ok (by decide +kernel), ?_, by decide +kernel⟩
  have h : (turnRun (failAt 3 eio 0) good).1 = (.ok .again, { good with input := b!"0009quit\n" }) := by decide +kernel
  rw [← h]
  exact Prog.run_finished _ _ _

open Tests in
/-- A session as in `C54_fresh_partial`: an upload was refused. -/
example : ∃ tr r', Turns Tests.cfg .upload wrong tr r' ∧ wrong.pending = [] ∧ (∀ e ∈ tr, e.CopyOk) ∧
    2 < tr.length := by
  refine ⟨eventsOf calm wrong ++ [], { wrong with input := [] }, .cons ?_ .nil, rfl, copyOkB_ok (by decide +kernel),
    by decide +kernel⟩
  have h : (turnRun calm wrong).1 = (.ok .again, { wrong with input := [] }) := by decide +kernel
  rw [← h]
  exact Prog.run_finished _ _ _

end Verif
