import Verif.Lemmas.Still
import Verif.Lemmas.ServeTurn
import Verif.Props.Loop
import Verif.Spec.Request
/-! Where the reader stands after a turn, whatever the OS answers. -/
namespace Verif
open Spec

theorem endsAt_copyInF (bufs : Nat → Nat) (ino : Ino) (r2 : Rdr) :
    ∀ (k i f : Nat) (acc : Bytes) (outs : List Bytes) (r r' : Rdr),
    reads (fun j => bufs (i + j) + 1) k r = some (outs, r') → (∀ o ∈ outs, o ≠ []) →
    r'.read (bufs (i + k) + 1) = (.ok [], r2) → k < f →
    (copyInF bufs ino f i acc).EndsAt Event.CopyOk r r2
  | _, _, 0, _, _, _, _, _, _, _, h => by omega
  | 0, i, f + 1, acc, outs, r, r', h, _, he, _ => by
    simp only [reads, Option.some.injEq, Prod.mk.injEq] at h
    obtain ⟨rfl, rfl⟩ := h
    rw [copyInF]
    refine M.endsAt_rdr_bind he ?_
    simp only [if_true]
    exact M.Still.endsAt (.pure _) _
  | k + 1, i, f + 1, acc, outs, r, r', h, hne, he, hk => by
    rw [reads] at h
    split at h
    · rename_i d r1 hd
      simp only [Option.map_eq_some_iff, Prod.mk.injEq] at h
      obtain ⟨⟨outs', r1'⟩, h1, rfl, rfl⟩ := h
      rw [copyInF]
      refine M.endsAt_rdr_bind hd ?_
      rw [if_neg (hne d (by simp))]
      have h1' : reads (fun j => bufs (i + 1 + j) + 1) k r1 = some (outs', r1') := by
        have : (fun j => bufs (i + 1 + j) + 1) = fun j => bufs (i + (j + 1)) + 1 := by
          funext j; rw [Nat.add_assoc, Nat.add_comm 1 j]
        rw [this]; exact h1
      have ih := endsAt_copyInF bufs ino r2 k (i + 1) f (acc ++ d) outs' r1 r1' h1'
        (fun o ho => hne o (by simp [ho])) (by rw [Nat.add_assoc, Nat.add_comm 1 k]; exact he) (by omega)
      unfold M.EndsAt
      rw [M.wp_bind, M.wp_op]
      refine ⟨trivial, fun x hx => ?_⟩
      rw [Res.elim_ok, M.wp_bind, M.wp_ofIo]
      have hx : x = .ok () := hx
      subst hx
      exact ih
    · cases h

theorem endsAt_copyIn (bufs : Nat → Nat) (ino : Ino) {ds : List Bytes} {v rest : Bytes} {r : Rdr} {t : Packet}
    (ht : t = .flush ∨ t = .delim) (hs : ∀ d ∈ ds, d.length ≤ 65516) (hF : Frames (ds.map .data ++ [t]) v)
    (hi : r.input = v ++ rest) (hp : r.pending = []) :
    (copyIn bufs ino).EndsAt Event.CopyOk r { r with input := rest } := by
  obtain ⟨k, outs, r', h1, h2, h3, _, h5⟩ := C03_stream_read ds hs t ht v hF rest r hi hp
    (fun j => bufs j + 1) (fun _ => Nat.succ_pos _)
  have hk : k < r.input.length + r.pending.length + 1 := by
    have a1 := reads_length _ _ _ _ _ h1
    have a2 := length_le_flatten outs h2
    have a3 := frames_data_length hF
    rw [hi, hp]
    rw [h3] at a2
    simp only [List.length_append, List.length_nil]
    omega
  have := endsAt_copyInF bufs ino { r with input := rest, pending := [] } k 0 _ [] outs r r'
    (by simpa using h1) h2 (by simpa using h5) hk
  have he : ({ r with input := rest } : Rdr) = { r with input := rest, pending := [] } := by rw [← hp]
  rw [he]
  exact this

theorem endsAt_startUpload (cfg : Cfg) (oid : Bytes) {ds : List Bytes} {v rest : Bytes} {r : Rdr} {t : Packet}
    (ht : t = .flush ∨ t = .delim) (hs : ∀ d ∈ ds, d.length ≤ 65516) (hF : Frames (ds.map .data ++ [t]) v)
    (hi : r.input = v ++ rest) (hp : r.pending = []) :
    (startUpload cfg oid).EndsAt Event.CopyOk r { r with input := rest } := by
  unfold M.EndsAt startUpload
  rw [M.wp_bind, M.wp_op]
  refine ⟨trivial, fun x hx => ?_⟩
  obtain ⟨⟨path, ino⟩, rfl⟩ : ∃ a, x = .ok a := hx
  rw [Res.elim_ok, M.wp_bind, M.wp_ofIo]
  simp only [Res.elim_ok]
  rw [M.wp_onFail, M.wp_bind]
  refine M.wp_mono (endsAt_copyIn cfg.copyBuf ino ht hs hF hi hp) ?_
  rintro (a | e | _) r1 s1 rfl
  · rfl
  · exact still_dropFile path _ _
  · exact still_dropFile path _ _

theorem endsAt_put {cfg : Cfg} {oid : Bytes} {r r1 : Rdr} {as : List Bytes} {args : Args} {n : Nat}
    {ds : List Bytes} {v rest : Bytes} {t : Packet} (ht : t = .flush ∨ t = .delim) (ho : oidValid oid = true)
    (h1 : readToType .delim r = (.ok as, r1)) (ha : parseArgs as = .ok args) (hn : sizeFromArgs args = .ok n)
    (hs : ∀ d ∈ ds, d.length ≤ 65516) (hF : Frames (ds.map .data ++ [t]) v)
    (hi : r1.input = v ++ rest) (hp : r1.pending = []) :
    (putObject cfg oid).EndsAt Event.CopyOk r { r1 with input := rest } := by
  unfold putObject oidNew readToDelim
  rw [ho]
  have h0 : ∀ {β : Type} (f : Bytes → M β) r, ((if true = true then (pure oid : M Bytes) else
      M.throw (Err.simple .invalidLFSOid)) >>= f) r = f oid r := fun f r => rfl
  unfold M.EndsAt M.wp
  rw [h0]
  refine M.endsAt_rdr_bind h1 (M.endsAt_ofRes_bind ha (M.endsAt_ofRes_bind hn
    (M.EndsAt.bind (endsAt_startUpload cfg oid ht hs hF hi hp) fun a => ?_)))
  exact .bind (.onFail (still_checkUpload _ _ _ _) (still_dropFile _)) fun _ =>
    .bind (still_finishUpload _ _ _) fun _ => .pure _

/-- A turn on a command line whose handler ends with the reader at `r2`. -/
theorem turn_endsAt {P : Event → Prop} {cfg : Cfg} {mode : Mode} {l : Bytes} {cmd : Bytes} {args : List Bytes}
    {r r1 r2 : Rdr} (h : r.readPacket = (.ok (.data l), r1)) (hl : l ≠ []) (hw : commandWords l = cmd :: args)
    (hq : cmd ≠ b!"quit") (hd : (dispatch cfg mode cmd args.head?).EndsAt P r1 r2) :
    (turn cfg mode).wp (Logic.only P) r () (fun x r' _ => r' = r2 ∧ x ≠ .ok .done) := by
  unfold M.wp
  rw [turn_data cfg mode r r1 l hl h]
  simp only [hw, List.head?_cons, Option.getD_some, List.tail_cons, hq, false_and, if_false]
  suffices hh : ∀ f : Except Err Status → M Turn, (∀ y, f y = (sendStatus (match y with
      | .ok st => st
      | .error e => errorStatus e) >>= fun _ => pure Turn.again)) →
      (M.attempt (dispatch cfg mode cmd args.head?) >>= f).wp (Logic.only P) r1 ()
        (fun x r' _ => r' = r2 ∧ x ≠ .ok .done) by
    exact hh _ (fun y => by cases y <;> rfl)
  intro f hf
  rw [M.wp_bind, M.wp_attempt]
  refine M.wp_mono hd ?_
  rintro (a | e | _) r' s' rfl
  · rw [Res.elim_ok, Res.elim_ok]
    rw [hf]
    rw [M.wp_bind]
    refine M.wp_mono (still_sendStatus a P r') ?_
    rintro (a | e | _) r1 s1 rfl
    · exact show _ ∧ _ from ⟨rfl, by simp⟩
    · exact show _ ∧ _ from ⟨rfl, by simp⟩
    · exact show _ ∧ _ from ⟨rfl, by simp⟩
  · rw [Res.elim_err, Res.elim_ok]
    rw [hf]
    rw [M.wp_bind]
    refine M.wp_mono (still_sendStatus (errorStatus e) P r') ?_
    rintro (a | e | _) r1 s1 rfl
    · exact show _ ∧ _ from ⟨rfl, by simp⟩
    · exact show _ ∧ _ from ⟨rfl, by simp⟩
    · exact show _ ∧ _ from ⟨rfl, by simp⟩
  · exact show _ ∧ _ from ⟨rfl, by simp⟩

end Verif
