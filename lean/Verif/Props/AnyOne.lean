import Verif.Props.Any
import Verif.Props.Meanings
import Verif.Spec.Faulty
/-! C75: bytes mean one thing only. -/
namespace Verif
open Spec

variable {mode : Mode} {text : Bytes}

/-! ### Packets are read in one way -/

/-- A reader at these bytes. -/
def readerAt (text b : Bytes) : Rdr := { input := b, pending := [], fin := ⟨.unexpectedEof, text⟩, checked := false }

/-- No packet begins here. -/
def NoPacket (t : Bytes) : Prop := LaxPart t ∨ ∃ h rest, t = h ++ rest ∧ BadHeader h

theorem laxFrame_same {p p' : Packet} {w w' t t' : Bytes} (h : LaxFrame p w) (h' : LaxFrame p' w') (e : w ++ t = w' ++ t') :
    p = p' ∧ w = w' ∧ t = t' := by
  have h1 := readPacket_lax (r := readerAt [] (w ++ t)) h rfl rfl
  have h2 := readPacket_lax (r := readerAt [] (w ++ t)) h' rfl e
  rw [h1] at h2
  simp only [Prod.mk.injEq, Res.ok.injEq, Rdr.mk.injEq, and_true] at h2
  obtain ⟨rfl, rfl⟩ := h2
  exact ⟨rfl, List.append_cancel_right e, rfl⟩

theorem laxFrame_noPacket {p : Packet} {w t : Bytes} (h : LaxFrame p w) : ¬ NoPacket (w ++ t) := by
  have h1 := readPacket_lax (r := readerAt [] (w ++ t)) h rfl rfl
  rintro (hp | ⟨x, rest, e, hb⟩)
  · rw [readPacket_laxPart hp rfl rfl] at h1
    cases h1
  · rw [readPacket_bad hb rfl e] at h1
    cases h1

theorem laxFrames_noPacket {ps : List Packet} {w t : Bytes} (h : LaxFrames ps w) (hn : NoPacket (w ++ t)) : ps = [] ∧ w = [] := by
  cases h with
  | nil => exact ⟨rfl, rfl⟩
  | cons h _ => rw [List.append_assoc] at hn; exact absurd hn (laxFrame_noPacket h)

theorem laxFrames_cmp {ps ps' : List Packet} {w w' t t' : Bytes} (h : LaxFrames ps w) (h' : LaxFrames ps' w')
    (e : w ++ t = w' ++ t') :
    (∃ qs u, ps' = ps ++ qs ∧ LaxFrames qs u ∧ t = u ++ t') ∨ (∃ qs u, ps = ps' ++ qs ∧ LaxFrames qs u ∧ t' = u ++ t) := by
  induction h generalizing ps' w' with
  | nil => exact .inl ⟨ps', w', rfl, h', e⟩
  | @cons p ps v ws hp hps ih =>
    cases h' with
    | nil => exact .inr ⟨p :: ps, v ++ ws, rfl, .cons hp hps, e.symm⟩
    | @cons p' ps' v' ws' hp' hps' =>
      rw [List.append_assoc, List.append_assoc] at e
      obtain ⟨rfl, rfl, e2⟩ := laxFrame_same hp hp' e
      rcases ih hps' e2 with ⟨qs, u, rfl, h1, h2⟩ | ⟨qs, u, rfl, h1, h2⟩
      · exact .inl ⟨qs, u, rfl, h1, h2⟩
      · exact .inr ⟨qs, u, rfl, h1, h2⟩

theorem laxFrames_same {ps ps' : List Packet} {w w' t t' : Bytes} (h : LaxFrames ps w) (h' : LaxFrames ps' w')
    (e : w ++ t = w' ++ t') (hn : NoPacket t) (hn' : NoPacket t') : ps = ps' ∧ w = w' ∧ t = t' := by
  rcases laxFrames_cmp h h' e with ⟨qs, u, rfl, h1, rfl⟩ | ⟨qs, u, rfl, h1, rfl⟩
  · obtain ⟨rfl, rfl⟩ := laxFrames_noPacket h1 hn
    exact ⟨by simp, List.append_cancel_right e, rfl⟩
  · obtain ⟨rfl, rfl⟩ := laxFrames_noPacket h1 hn'
    exact ⟨by simp, List.append_cancel_right e, rfl⟩

theorem laxFrames_end {ps ps' : List Packet} {w t : Bytes} (h : LaxFrames ps w) (h' : LaxFrames ps' (w ++ t)) (hn : NoPacket t) :
    t = [] ∧ ps = ps' := by
  obtain ⟨rfl, -, rfl⟩ := laxFrames_same (t' := []) h h' (by simp) hn (.inl (.inl (by simp)))
  exact ⟨rfl, rfl⟩

theorem laxFrames_unique {ps ps' : List Packet} {w : Bytes} (h : LaxFrames ps w) (h' : LaxFrames ps' w) : ps = ps' :=
  (laxFrames_end (t := []) h (by rwa [List.append_nil]) (.inl (.inl (by simp)))).2

theorem noPacket_long {h : Bytes} {n : Nat} (hl : Lax h n) (hn : 65520 < n) : NoPacket h :=
  .inl (.inr ⟨h, [], n, by simp, hl, by simp; omega⟩)

theorem noPacket_bad {h rest : Bytes} (hb : BadHeader h) : NoPacket (h ++ rest) := .inr ⟨h, rest, rfl, hb⟩

theorem laxPart_bad {h rest : Bytes} (hp : LaxPart (h ++ rest)) (hb : BadHeader h) : False := by
  rcases hp with hp | ⟨x, d, n, e, hl, hn⟩
  · have := hb.1
    rw [List.length_append] at hp
    omega
  · obtain ⟨rfl, -⟩ := List.append_inj e (by rw [hb.1, lax_length hl])
    rcases hb.2 n hl with rfl | rfl <;> omega

/-! ### One request -/

theorem takes_runs {q : Said} {b rest : Bytes} (h : Takes mode text q b rest) :
    (turn Tests.cfg mode).runs Tests.calm (readerAt text b) ⟨Tests.fsA, [], 0⟩
      (TurnReplied Tests.cfg mode Tests.calm Tests.sA q .again (readerAt text rest) []) := by
  have hc : Calm Tests.calm := fun _ => rfl
  refine runs_of_stops (I := MidTurn Tests.cfg mode Tests.calm Tests.sA q []) ?_
  cases h with
  | heard he hF =>
    exact stops_turn_lax (r := readerAt text _) (w := ⟨Tests.fsA, [], 0⟩) hc Tests.sha_len (Tests.clock_ok _) he hF rfl rfl rfl
      Tests.repA Tests.readyA
  | broken hb hF ht hlong =>
    exact stops_turn_broken_lax (r := readerAt text _) (w := ⟨Tests.fsA, [], 0⟩) hc Tests.sha_len (Tests.clock_ok _) hb hF ht hlong
      rfl rfl rfl rfl Tests.repA Tests.readyA
  | garbled hg hF hb =>
    exact stops_turn_garbled (r := readerAt text _) (w := ⟨Tests.fsA, [], 0⟩) hc hg hF hb rfl rfl rfl Tests.repA Tests.readyA
  | @tooLong ps n w h rest hup hF hl hn =>
    obtain ⟨l, oid, more, as, ds, rfl, rfl, hcl, ho, ha, hds⟩ := hup
    exact stops_turn_putErr (r := readerAt text (w ++ (h ++ rest))) (w := ⟨Tests.fsA, [], 0⟩) hc hcl ho ha hds hF rfl rfl rfl
      (readOne_tooLong (r := readerAt text (h ++ rest)) hl hn rfl rfl) dataErr_status Tests.repA Tests.readyA

theorem takes_same {q q' : Said} {b rest rest' : Bytes} (h : Takes mode text q b rest) (h' : Takes mode text q' b rest') :
    rest = rest' ∧ (∀ code msg code' msg', q = .nonsense code msg → q' = .nonsense code' msg' → q = q') := by
  have h1 := (Prog.wp_run Tests.calm (turn Tests.cfg mode (readerAt text b)) ⟨Tests.fsA, [], 0⟩ _).mp (takes_runs h)
  have h2 := (Prog.wp_run Tests.calm (turn Tests.cfg mode (readerAt text b)) ⟨Tests.fsA, [], 0⟩ _).mp (takes_runs h')
  obtain ⟨-, e1, t, t', w, -, -, o1, s1, -⟩ := h1
  obtain ⟨-, e2, u, u', w', -, -, o2, s2, -⟩ := h2
  have e := e1.symm.trans e2
  simp only [readerAt, Rdr.mk.injEq, and_true] at e
  refine ⟨e, ?_⟩
  rintro code msg code' msg' rfl rfl
  have : w = w' := List.append_cancel_left (o1.symm.trans o2)
  subst this
  obtain ⟨rfl, rfl⟩ := denial_unique s1 s2
  rfl

theorem completed_same {ps a b : List Packet} (h : Completed mode ps a) (h' : Completed mode ps b) : a = b := by
  generalize hps : ps = ps' at h'
  have key : ∀ {l l' : Bytes} {ws ws' : List Bytes} {x y : List Packet}, CommandLine l ws → CommandLine l' ws' →
      Packet.data l :: x = .data l' :: y → ws = ws' ∧ x = y ∧ l = l' := by
    intro l l' ws ws' x y h h' e
    simp only [List.cons.injEq, Packet.data.injEq] at e
    obtain ⟨rfl, rfl⟩ := e
    exact ⟨commandLine_unique h h', rfl, rfl⟩
  cases h with
  | args hl hc _ =>
    cases h' with
    | args hl' => obtain ⟨-, rfl, rfl⟩ := key hl hl' hps; rfl
    | batch hl' => obtain ⟨rfl, -⟩ := key hl hl' hps; cases hc
    | batchNone hl' => obtain ⟨rfl, -⟩ := key hl hl' hps; cases hc
    | batchArgs hl' => obtain ⟨rfl, -⟩ := key hl hl' hps; cases hc
    | putArgs _ hl' => obtain ⟨rfl, -⟩ := key hl hl' hps; cases hc
  | batch hl ha =>
    cases h' with
    | args hl' hc' => obtain ⟨rfl, -⟩ := key hl hl' hps; cases hc'
    | batch hl' => rw [hps]
    | batchNone hl' ha' =>
      obtain ⟨-, rfl, rfl⟩ := key hl hl' hps
      exact absurd (by simp) (areArgs_delim ha')
    | batchArgs hl' hd =>
      obtain ⟨-, rfl, rfl⟩ := key hl hl' hps
      exact absurd (by simp) hd
    | putArgs _ hl' => obtain ⟨e, -⟩ := key hl hl' hps; simp at e
  | batchNone hl ha =>
    cases h' with
    | args hl' hc' => obtain ⟨rfl, -⟩ := key hl hl' hps; cases hc'
    | batch hl' =>
      obtain ⟨-, rfl, rfl⟩ := key hl hl' hps
      exact absurd (by simp) (areArgs_delim ha)
    | batchNone hl' ha' => obtain ⟨-, rfl, rfl⟩ := key hl hl' hps; rfl
    | batchArgs hl' _ hna => obtain ⟨-, rfl, rfl⟩ := key hl hl' hps; exact absurd ha hna
    | putArgs _ hl' => obtain ⟨e, -⟩ := key hl hl' hps; simp at e
  | batchArgs hl hd hna =>
    cases h' with
    | args hl' hc' => obtain ⟨rfl, -⟩ := key hl hl' hps; cases hc'
    | batch hl' =>
      obtain ⟨-, rfl, rfl⟩ := key hl hl' hps
      exact absurd (by simp) hd
    | batchNone hl' ha' => obtain ⟨-, rfl, rfl⟩ := key hl hl' hps; exact absurd ha' hna
    | batchArgs hl' => obtain ⟨-, rfl, rfl⟩ := key hl hl' hps; rfl
    | putArgs _ hl' => obtain ⟨e, -⟩ := key hl hl' hps; simp at e
  | putArgs _ hl =>
    cases h' with
    | args hl' hc' => obtain ⟨rfl, -⟩ := key hl hl' hps; cases hc'
    | batch hl' => obtain ⟨e, -⟩ := key hl hl' hps; simp at e
    | batchNone hl' => obtain ⟨e, -⟩ := key hl hl' hps; simp at e
    | batchArgs hl' => obtain ⟨e, -⟩ := key hl hl' hps; simp at e
    | putArgs _ hl' => obtain ⟨-, rfl, rfl⟩ := key hl hl' hps; rfl

theorem completed_put {ps' : List Packet} {l oid : Bytes} {more : List Bytes} {x : List Packet}
    (hl : CommandLine l (b!"put-object" :: oid :: more)) (h : Completed mode (.data l :: x) ps') : .delim ∉ x ∧ ¬ AreSized x := by
  cases h with
  | args hl' hc _ => rw [← commandLine_unique hl hl'] at hc; cases hc
  | batch hl' => exact absurd (commandLine_unique hl hl') (by simp)
  | batchNone hl' => exact absurd (commandLine_unique hl hl') (by simp)
  | batchArgs hl' => exact absurd (commandLine_unique hl hl') (by simp)
  | putArgs _ _ _ hd hs => exact ⟨hd, hs⟩

theorem heard_same {ps : List Packet} {q q' : Said} (h : Heard mode ps q) (h' : Heard mode ps q')
    (hF : Frames ps (ps.map encPacket).flatten)
    (hn : ∀ code msg code' msg', q = .nonsense code msg → q' = .nonsense code' msg' → q = q') : q = q' := by
  cases q with
  | ask q =>
    cases q' with
    | ask q' => rw [C72_one_meaning h h']
    | nonsense => exact (means_denied h h' hF).elim
  | nonsense =>
    cases q' with
    | ask q' => exact (means_denied h' h hF).elim
    | nonsense => exact hn _ _ _ _ rfl rfl

theorem breaksOff_same {ps : List Packet} {w : Bytes} {q q' : Said} (h : BreaksOff mode text ps [] q) (h' : BreaksOff mode text ps [] q')
    (hF : LaxFrames ps w)
    (hn : ∀ code msg code' msg', q = .nonsense code msg → q' = .nonsense code' msg' → q = q') : q = q' := by
  generalize hps : ps = ps' at h'
  cases h with
  | heard hc hh =>
    cases h' with
    | heard hc' hh' =>
      subst hps
      obtain rfl := completed_same hc hc'
      refine heard_same hh hh' ?_ hn
      obtain ⟨-, more, rfl, hm⟩ := completed_prefix hc
      rw [List.map_append, List.flatten_append]
      exact frames_append (laxFrames_frames hF) (frames_list fun d hd => absurd hd (hm d))
    | putArgs _ hl _ hs => subst hps; exact absurd hs (completed_put hl hc).2
    | putData _ hl => subst hps; exact absurd (by simp) (completed_put hl hc).1
  | putArgs _ hl _ hs =>
    cases h' with
    | heard hc => subst hps; exact absurd hs (completed_put hl hc).2
    | putArgs => rfl
    | putData => rfl
  | putData _ hl =>
    cases h' with
    | heard hc => subst hps; exact absurd (by simp) (completed_put hl hc).1
    | putArgs => rfl
    | putData => rfl

/-- What breaks off would be garbled, if something followed that is no packet. -/
theorem breaksOff_garbled {ps : List Packet} {q : Said} (h : BreaksOff mode text ps [] q) : ∃ code msg, Garbled mode ps code msg := by
  cases h with
  | heard hc =>
    cases hc with
    | @args l ws items hl hc hn =>
      by_cases h : ws = [b!"lock"] ∨ ws = [b!"list-lock"]
      · exact ⟨_, _, .parse hl hc h hn⟩
      · exact ⟨_, _, .args hl hc (fun e => h (.inl e)) (fun e => h (.inr e)) hn⟩
    | batch hl ha hn => exact ⟨_, _, .batch hl ha hn⟩
    | batchNone hl ha => exact ⟨_, _, .batchArgs hl (areArgs_delim ha)⟩
    | batchArgs hl hd => exact ⟨_, _, .batchArgs hl hd⟩
    | putArgs hm hl ho hd => exact ⟨_, _, .putArgs hm hl ho hd⟩
  | putArgs hm hl ho hs => exact ⟨_, _, .putArgs hm hl ho (areSized_delim hs)⟩
  | putData hm hl ho hs hds => exact ⟨_, _, .putData ⟨_, _, _, _, _, rfl, hm, hl, ho, hs, hds⟩⟩

theorem zzzz_bad : BadHeader b!"zzzz" := Tests.bad_of rfl (.inr (.inr (by decide)))

theorem heard_breaksOff {ps : List Packet} {w : Bytes} {q q' : Said} (h : Heard mode ps q) (h' : BreaksOff mode text ps [] q')
    (hF : LaxFrames ps w) : False := by
  obtain ⟨code, msg, hg⟩ := breaksOff_garbled h'
  have h1 : Takes mode text q (w ++ (b!"zzzz" ++ [])) (b!"zzzz" ++ []) := .heard h hF
  have h2 : Takes mode text _ (w ++ (b!"zzzz" ++ [])) [] := .garbled hg hF zzzz_bad
  exact absurd (takes_same h1 h2).1 (by decide)

/-- The server finds one request only. -/
theorem takes_unique {q q' : Said} {b rest rest' : Bytes} (h : Takes mode text q b rest) (h' : Takes mode text q' b rest') :
    q = q' ∧ rest = rest' := by
  obtain ⟨rfl, hn⟩ := takes_same h h'
  refine ⟨?_, rfl⟩
  have half : ∀ {q q' : Said} {b rest : Bytes} {ps : List Packet} {w : Bytes}, Heard mode ps q → LaxFrames ps w → b = w ++ rest →
      Takes mode text q' b rest →
      (∀ code msg code' msg', q = .nonsense code msg → q' = .nonsense code' msg' → q = q') → q = q' := by
    intro q q' b rest ps w he hF e h' hn
    cases h' with
    | @heard _ ps' w' _ he' hF' =>
      obtain rfl := List.append_cancel_right e
      obtain rfl := laxFrames_unique hF hF'
      exact heard_same he he' (laxFrames_frames hF) hn
    | @broken _ ps' w' t hb hF' ht _ =>
      rw [List.append_nil] at e
      subst e
      obtain ⟨rfl, rfl⟩ := laxFrames_end hF' hF (.inl ht)
      exact (heard_breaksOff he hb hF').elim
    | @garbled _ _ ps' w' x _ hg hF' hb =>
      rw [← List.append_assoc] at e
      obtain rfl := List.append_cancel_right e
      obtain ⟨rfl, -⟩ := laxFrames_end hF' hF (by simpa using noPacket_bad (rest := []) hb)
      exact absurd hb.1 (by simp)
    | @tooLong ps' n w' x _ hup hF' hl hlen =>
      rw [← List.append_assoc] at e
      obtain rfl := List.append_cancel_right e
      obtain ⟨rfl, -⟩ := laxFrames_end hF' hF (noPacket_long hl hlen)
      exact absurd (lax_length hl) (by simp)
  have sym : ∀ code msg code' msg', q' = .nonsense code msg → q = .nonsense code' msg' → q' = q :=
    fun c m c' m' e1 e2 => (hn c' m' c m e2 e1).symm
  generalize hb : b = b' at h'
  cases h with
  | heard he hF => exact half he hF rfl (hb ▸ h') hn
  | @broken _ ps w t h1 hF ht hlong =>
    cases h' with
    | heard he hF' => exact (half he hF' hb (.broken h1 hF ht hlong) sym).symm
    | @broken _ ps' w' t' h1' hF' ht' _ =>
      obtain ⟨rfl, -, -⟩ := laxFrames_same hF hF' hb (.inl ht) (.inl ht')
      exact breaksOff_same h1 h1' hF hn
    | @garbled _ _ ps' w' x _ _ hF' hx =>
      obtain ⟨-, -, rfl⟩ := laxFrames_same hF hF' hb (.inl ht) (noPacket_bad hx)
      exact (laxPart_bad ht hx).elim
    | @tooLong ps' n w' x _ hup hF' hl hlen =>
      obtain ⟨rfl, -, rfl⟩ := laxFrames_same hF hF' hb (.inl ht) (by simpa using noPacket_long hl hlen)
      exact absurd ⟨x, n, [], rfl, hl, hlen⟩ (hlong hup)
  | @garbled code msg ps w x _ hg hF hx =>
    cases h' with
    | heard he hF' => exact (half he hF' hb (.garbled hg hF hx) sym).symm
    | @broken _ ps' w' t' _ hF' ht' _ =>
      obtain ⟨-, -, rfl⟩ := laxFrames_same hF hF' hb (noPacket_bad hx) (.inl ht')
      exact (laxPart_bad ht' hx).elim
    | garbled => exact hn _ _ _ _ rfl rfl
    | tooLong => exact hn _ _ _ _ rfl rfl
  | @tooLong ps n w x _ hup hF hl hlen =>
    cases h' with
    | heard he hF' => exact (half he hF' hb (.tooLong hup hF hl hlen) sym).symm
    | @broken _ ps' w' t' _ hF' ht' hlong =>
      obtain ⟨rfl, -, rfl⟩ := laxFrames_same hF hF' hb (by simpa using noPacket_long hl hlen) (.inl ht')
      exact absurd ⟨x, n, [], rfl, hl, hlen⟩ (hlong hup)
    | garbled => exact hn _ _ _ _ rfl rfl
    | tooLong => rfl

/-! ### All bytes -/

/-- A meaning is no requests, or `quit`, or a request and the meaning of what follows it. -/
theorem any_step {qs : List Said} {e : Ending} {b : Bytes} (h : Any mode text qs e b) :
    (LaxPart b ∧ qs = [] ∧ e = .fine) ∨ ((∃ x rest, b = x ++ rest ∧ BadHeader x) ∧ qs = [] ∧ e = .bad) ∨
    ((∃ l w rest, b = w ++ rest ∧ CommandLine l [b!"quit"] ∧ LaxFrame (.data l) w) ∧ qs = [.ask .quit] ∧ e = .fine) ∨
    ∃ q qs' rest, Takes mode text q b rest ∧ Any mode text qs' e rest ∧ qs = q :: qs' ∧ rest.length < b.length := by
  have long : ∀ {ps : List Packet} {w : Bytes}, ps ≠ [] → LaxFrames ps w → 0 < w.length := by
    intro ps w hne hF
    have := laxFrames_length hF
    have := List.length_pos_iff.mpr hne
    omega
  cases h with
  | eof h => exact .inl ⟨h, rfl, rfl⟩
  | bad h => exact .inr (.inl ⟨⟨_, _, rfl, h⟩, rfl, rfl⟩)
  | quit hl hF => exact .inr (.inr (.inl ⟨⟨_, _, _, rfl, hl, hF⟩, rfl, rfl⟩))
  | @heard q qs _ ps w rest he hF h =>
    have hne : ps ≠ [] := by
      cases q with
      | ask q => exact means_ne he
      | nonsense code msg => exact denied_ne he
    exact .inr (.inr (.inr ⟨q, qs, rest, .heard he hF, h, rfl, by have := long hne hF; simp; omega⟩))
  | @broken q ps w t hb hF ht hlong =>
    have hne : ps ≠ [] := by
      obtain ⟨_, _, hg⟩ := breaksOff_garbled hb
      exact garbled_ne hg
    exact .inr (.inr (.inr ⟨q, [], [], .broken hb hF ht hlong, .eof (.inl (by simp)), rfl, by have := long hne hF; simp; omega⟩))
  | garbled hg hF hb h =>
    exact .inr (.inr (.inr ⟨_, _, _, .garbled hg hF hb, h, rfl, by have := long (garbled_ne hg) hF; simp; omega⟩))
  | tooLong hup hF hl hlen h =>
    exact .inr (.inr (.inr ⟨_, _, _, .tooLong hup hF hl hlen, h, rfl, by have := long (garbled_ne (.putData hup)) hF; simp; omega⟩))


theorem takes_packet {q : Said} {b rest : Bytes} (h : Takes mode text q b rest) : ¬ NoPacket b := by
  have go : ∀ {ps : List Packet} {w t : Bytes}, ps ≠ [] → LaxFrames ps w → ¬ NoPacket (w ++ t) :=
    fun hne hF hn => hne (laxFrames_noPacket hF hn).1
  cases h with
  | @heard q ps _ _ he hF =>
    refine go ?_ hF
    cases q with
    | ask q => exact means_ne he
    | nonsense code msg => exact denied_ne he
  | broken hb hF =>
    obtain ⟨_, _, hg⟩ := breaksOff_garbled hb
    exact go (garbled_ne hg) hF
  | garbled hg hF => exact go (garbled_ne hg) hF
  | tooLong hup hF => exact go (garbled_ne (.putData hup)) hF

theorem takes_quit {q : Said} {l w rest rest' : Bytes} (h : Takes mode text q (w ++ rest) rest') (hl : CommandLine l [b!"quit"])
    (hF : LaxFrame (.data l) w) : False := by
  have h1 := (Prog.wp_run Tests.calm (turn Tests.cfg mode (readerAt text (w ++ rest))) ⟨Tests.fsA, [], 0⟩ _).mp (takes_runs h)
  have hh := turn_head (cfg := Tests.cfg) (mode := mode) (r := readerAt text (w ++ rest)) (u := rest) hF rfl
  have hFq : Frames [.data l] (encPacket (.data l)) := by
    have := Frames.cons (laxFrame_frame hF) .nil
    rwa [List.append_nil] at this
  have hq := stops_turn_quit (ch := Tests.calm) (cfg := Tests.cfg) (s := Tests.sA) (mode := mode) (w := ⟨Tests.fsA, [], 0⟩) (rest := rest)
    (r := readerAt text (encPacket (.data l) ++ rest)) (fun _ => rfl) hl hFq rfl Tests.repA Tests.readyA
  have h2 := (Prog.wp_run Tests.calm (turn Tests.cfg mode (readerAt text (w ++ rest))) ⟨Tests.fsA, [], 0⟩ _).mp
    (runs_of_stops (stops_congr hh hq))
  have e := h1.1.symm.trans h2.1
  cases e

/-- **C75.** The meaning is determined by the bytes: the same bytes cannot be taken for other requests, or end in
another way. -/
theorem C75_unique {qs qs' : List Said} {e e' : Ending} {b : Bytes} (h : Any mode text qs e b) (h' : Any mode text qs' e' b) :
    qs = qs' ∧ e = e' := by
  induction hn : b.length using Nat.strongRecOn generalizing b qs qs' with
  | ind n ih =>
    rcases any_step h with ⟨h1, rfl, rfl⟩ | ⟨⟨x, rest, rfl, h1⟩, rfl, rfl⟩ | ⟨⟨l, w, rest, rfl, hl, hF⟩, rfl, rfl⟩ |
      ⟨q, qs, rest, h1, h2, rfl, hlen⟩ <;>
    rcases any_step h' with ⟨h1', rfl, rfl⟩ | ⟨⟨x', rest', e', h1'⟩, rfl, rfl⟩ | ⟨⟨l', w', rest', e', hl', hF'⟩, rfl, rfl⟩ |
      ⟨q', qs', rest', h1', h2', rfl, hlen'⟩
    · exact ⟨rfl, rfl⟩
    · exact (laxPart_bad (e' ▸ h1) h1').elim
    · exact absurd (.inl (e' ▸ h1)) (laxFrame_noPacket hF')
    · exact absurd (.inl h1) (takes_packet h1')
    · exact (laxPart_bad h1' h1).elim
    · exact ⟨rfl, rfl⟩
    · exact absurd (e' ▸ noPacket_bad h1) (laxFrame_noPacket hF')
    · exact absurd (noPacket_bad h1) (takes_packet h1')
    · exact absurd (.inl h1') (laxFrame_noPacket hF)
    · exact absurd (e' ▸ noPacket_bad h1') (laxFrame_noPacket hF)
    · exact ⟨rfl, rfl⟩
    · exact (takes_quit h1' hl hF).elim
    · exact absurd (.inl h1') (takes_packet h1)
    · exact absurd (e' ▸ noPacket_bad h1') (takes_packet h1)
    · exact (takes_quit (e' ▸ h1) hl' hF').elim
    · obtain ⟨rfl, rfl⟩ := takes_unique h1 h1'
      obtain ⟨rfl, rfl⟩ := ih _ (by omega) h2 h2' rfl
      exact ⟨rfl, rfl⟩

/-- **C74**: so what arrives before the connection breaks means one thing only. -/
theorem C74_one_meaning {qs qs' : List Said} {b : Bytes} (h : CutTalk mode text qs b) (h' : CutTalk mode text qs' b) : qs = qs' :=
  (C75_unique (C75_extends h) (C75_extends h')).1

theorem talk_any {qs : List Said} {b : Bytes} (h : Talk mode qs b) : Any mode text qs .fine b := by
  induction h with
  | eof => exact .eof (.inl (by simp))
  | quit hl hF => exact .quit hl (laxFrame_of (frames_singleton hF))
  | ask he hF _ ih => exact .heard (q := .ask _) he (laxFrames_of hF) ih
  | nonsense he hF _ ih => exact .heard (q := .nonsense _ _) he (laxFrames_of hF) ih

/-- **C72**: a session is one list of requests only. -/
theorem C72_one_session {qs qs' : List Said} {b : Bytes} (h : Talk mode qs b) (h' : Talk mode qs' b) : qs = qs' :=
  (C75_unique (text := []) (talk_any h) (talk_any h')).1

/-- **C75.** Two servers that get the same bytes, whatever these are, give the same answers if their repositories hold the
same objects and locks, wherever these are and whatever else is there. -/
theorem C75_same {cfg : Cfg} {ch ch' : Nat → Choice} {root : Path} {umask : Nat} {bufs : Nat → Nat} {s : Store} {r r' : Rdr} {w w' : World}
    (hc : ∀ n, (ch n).fault = none) (hc' : ∀ n, (ch' n).fault = none) (hsha : ∀ b, (cfg.sha b).length = 32)
    (hclk : ∀ t, Clock cfg ch t → TimeOk cfg t) (hclk' : ∀ t, Clock cfg ch' t → TimeOk cfg t) (ht : cfg.timestamp.isSome)
    (hodd : mode = .upload → ¬ OddAt r.input) (hin : r'.input = r.input) (htx : r'.fin.text = r.fin.text)
    (hr : Rep cfg s w.fs) (hr' : Rep (elsewhere cfg root umask bufs) s w'.fs)
    (hp : r.pending = []) (hp' : r'.pending = []) (hck : r.checked = false) (hck' : r'.checked = false)
    (hfin : r.fin.kind = .unexpectedEof) (hfin' : r'.fin.kind = .unexpectedEof) :
    ((mainProg cfg (Mode.operation mode) r).run ch w).1 =
      ((mainProg (elsewhere cfg root umask bufs) (Mode.operation mode) r').run ch' w').1 ∧
    ∃ (as : List Answer) (ws ws' : List Bytes) (s' : Store),
      ((mainProg cfg (Mode.operation mode) r).run ch w).2.out = w.out ++ b!"000eversion=1\n0000" ++ ws.flatten ∧
      ((mainProg (elsewhere cfg root umask bufs) (Mode.operation mode) r').run ch' w').2.out =
        w'.out ++ b!"000eversion=1\n0000" ++ ws'.flatten ∧
      List.Forall₂ Sends as ws ∧ List.Forall₂ Sends as ws' ∧
      Rep cfg s' ((mainProg cfg (Mode.operation mode) r).run ch w).2.fs ∧
      Rep (elsewhere cfg root umask bufs) s' ((mainProg (elsewhere cfg root umask bufs) (Mode.operation mode) r').run ch' w').2.fs := by
  obtain ⟨qs, e, h⟩ := C75_total (text := r.fin.text) r.input hodd
  obtain ⟨h0, ws, s1, h1, h2, h3⟩ := C75_session hc hsha hclk h hr hp hck hfin
  obtain ⟨h0', ws', s2, h1', h2', h3'⟩ := C75_session (cfg := elsewhere cfg root umask bufs) (r := r') hc' hsha hclk'
    (by rw [hin, htx]; exact h) hr' hp' hck' hfin'
  obtain ⟨rfl, ⟨as, h4, h5⟩, -⟩ := answers_same h2 h2' (.inl ht)
  exact ⟨h0.trans h0'.symm, as, ws, ws', s1, h1, h1', h4, h5, h3, h3'⟩

namespace Tests

/-- The bytes of `badWire`, in two repositories of which one has files besides: `C75_same` applies, and here is what both
say. -/
example : Rep Tests.cfg s0 fs0 ∧ Rep (elsewhere Tests.cfg Tests.cfg.root Tests.cfg.umask Tests.cfg.copyBuf) s0 fsOutside ∧
    Tests.cfg.timestamp.isSome ∧ fs0 ≠ fsOutside ∧
    ((server Tests.cfg b!"download" badWire).run calm ⟨fs0, [], 0⟩).1 =
      ((server Tests.cfg b!"download" badWire).run calm ⟨fsOutside, [], 0⟩).1 ∧
    ((server Tests.cfg b!"download" badWire).run calm ⟨fs0, [], 0⟩).2.out =
      ((server Tests.cfg b!"download" badWire).run calm ⟨fsOutside, [], 0⟩).2.out ∧
    ((server Tests.cfg b!"download" badWire).run calm ⟨fs0, [], 0⟩).2.out = b!"000eversion=1\n0000" ++
      enc (Reply.packets ⟨400, b!"400", [], some [b!"error: malformed or unknown pkt-line header\n"]⟩) ++
      enc (Reply.packets ⟨400, b!"400", [], some [b!"unknown command\n"]⟩) := by
  refine ⟨rep0, repOutside, by decide, ?_, by decide +kernel, by decide +kernel, by decide +kernel⟩
  intro h
  have : fs0.names.length = fsOutside.names.length := by rw [h]
  revert this
  decide

end Tests

end Verif
