import Verif.Props.AnyAll
import Verif.Props.Crash
/-! **C76.** Whatever bytes arrive and whatever the OS answers, every reply is an honest answer to what its bytes mean. -/
namespace Verif
open Spec

variable {cfg : Cfg} {mode : Mode} {text : Bytes}

theorem turn_part {r r' : Rdr} {tr : List Event} {x : Res Turn} (hp : LaxPart r.input) (hck : r.checked = false)
    (hk : r.fin.kind = .unexpectedEof) (h : (turn cfg mode r).Finished tr (x, r')) : x = .ok .done ∧ tr = [] := by
  have e := readPacket_laxPart hp hck rfl
  have hd : (turn cfg mode r) = .ret (.ok .done, { r with input := [] }) := by
    have hio : (Err.ofIo r.fin).ioKind = .unexpectedEof := hk
    show Prog.bind (Prog.bind (.ret r.readPacket) _) _ = _
    rw [e]
    simp only [Prog.bind, hio, if_true]
    rfl
  rw [hd] at h
  cases h
  exact ⟨rfl, rfl⟩

theorem turn_bad {r r' : Rdr} {tr : List Event} {x : Res Turn} {h rest : Bytes} (hi : r.input = h ++ rest) (hb : BadHeader h)
    (hck : r.checked = false) (hf : (turn cfg mode r).Finished tr (x, r')) : x = .err badErr ∧ tr = [] := by
  have e := readPacket_bad hb hck hi
  have hd : (turn cfg mode r) = .ret (.err badErr, { r with input := rest }) := by
    have hio : badErr.ioKind ≠ .unexpectedEof := by decide
    show Prog.bind (Prog.bind (.ret r.readPacket) _) _ = _
    rw [e]
    simp only [Prog.bind, hio, if_false]
    rfl
  rw [hd] at hf
  cases hf
  exact ⟨rfl, rfl⟩

theorem turn_quits {r r' : Rdr} {tr : List Event} {x : Res Turn} {l w rest : Bytes} (hl : CommandLine l [b!"quit"])
    (hF : LaxFrame (.data l) w) (hi : r.input = w ++ rest) (hck : r.checked = false)
    (h : (turn cfg mode r).Finished tr (x, r')) (ho : ∀ e ∈ tr, e.OutOk) : x = .ok .done ∧ HonestReply cfg mode .quit tr := by
  obtain ⟨hw, hne⟩ := commandLine_words hl
  rw [turn_data cfg mode r _ l hne (readPacket_lax hF hck hi), hw] at h
  simp only [List.head?_cons, Option.getD_some, List.tail_cons, List.head?_nil, and_self] at h
  obtain ⟨t1, t2, ⟨z, r1⟩, rfl, h1, h2⟩ := Prog.finished_bind.mp h
  obtain ⟨k1, k2⟩ := sends_says says_success
  obtain ⟨rfl, rfl, u, e, k3⟩ := outs_finished (outs_emits (emits_sendStatus _ k2) _ []) h1 (fun e he => ho e (by simp [he]))
  rw [List.nil_append] at e
  subst e
  cases h2
  refine ⟨rfl, _, ?_, .quit, fun _ => .quit⟩
  rw [List.append_nil, k3]
  exact k1

theorem loop_honestly (hsha : ∀ b, (cfg.sha b).length = 32) : ∀ (n : Nat) {r r' : Rdr} {tr : List Event} {y : Res Unit},
    r.input.length = n → r.checked = false → r.fin.kind = .unexpectedEof →
    (processCommands cfg mode r).Finished tr (y, r') → (∀ e ∈ tr, e.OutOk) →
    Honestly cfg mode r.fin.text r.pending r.input tr (codeOf y) := by
  intro n
  induction n using Nat.strongRecOn with
  | ind n ih =>
    intro r r' tr y hlen hck hk h ho
    rw [C40_loop] at h
    obtain ⟨ta, tb, ⟨x, r1⟩, rfl, h1, h2⟩ := Prog.finished_bind.mp h
    have hoa : ∀ e ∈ ta, e.OutOk := fun e he => ho e (by simp [he])
    have hob : ∀ e ∈ tb, e.OutOk := fun e he => ho e (by simp [he])
    rcases finds_total (mode := mode) (text := r.fin.text) r.input with hp | ⟨b, rest, hi, hb⟩ | ⟨l, w, rest, hi, hl, hF⟩ |
      ⟨q, rest, ht, hlt⟩
    · obtain ⟨rfl, rfl⟩ := turn_part hp hck hk h1
      cases h2
      exact .eof hp
    · obtain ⟨rfl, rfl⟩ := turn_bad hi hb hck h1
      cases h2
      rw [hi]
      exact .bad hb
    · obtain ⟨rfl, hq⟩ := turn_quits hl hF hi hck h1 hoa
      cases h2
      rw [hi, List.append_nil]
      exact .quit hl hF hq
    · rcases finds_turn hsha ht rfl hck hk h1 hoa with ⟨rfl, a, rfl⟩ | ⟨rfl, k1, k2⟩ | ⟨e, oid, k, cs, e', rfl, rfl, k1⟩
      · cases h2
        exact .crash ht
      · simp only at h2
        rcases k2 with ⟨left', k2, rfl⟩ | ⟨k2, ⟨e, k3, k4⟩, k5, k6⟩
        · exact .next ht k1 k2 (ih rest.length (by omega) (r := { r with input := rest, pending := left' }) rfl hck hk h2 hob)
        · have := ih r1.input.length (by omega) rfl (k5.checked.trans hck) (by rw [k5.fin]; exact hk) h2 hob
          rw [k5.fin] at this
          exact .lost ht k2 k1 k3 k4 k5.input k6 k5.pending this
      · cases h2
        exact .cut ht (by simpa using k1) (exit_ne_zero e)

/-- **C76.** Whatever bytes arrive, and whatever the OS answers: after the greeting, each reply is an honest answer to what
the bytes mean that the server has read for it. If the directories cannot be made there is no greeting, and the server
ends with an error. -/
theorem C76_session {input : Bytes} {tr : List Event} {x : Exit}
    (hsha : ∀ b, (cfg.sha b).length = 32)
    (h : (mainProg cfg (modeWord mode) (readerAt text input)).Finished tr x) (ho : ∀ e ∈ tr, e.OutOk) :
    (∃ t0 t1, tr = t0 ++ t1 ∧ output t0 = b!"000eversion=1\n0000" ∧ Honestly cfg mode text [] input t1 x.code) ∨
    (x.code ≠ 0 ∧ output tr = []) := by
  simp only [mainProg_eq, runProgram_mode] at h
  obtain ⟨tp, tx, ⟨y, r3⟩, rfl, h1, h2⟩ := Prog.finished_bind.mp h
  have etx : tx = [] := by rcases y with a | e | _ <;> cases h2 <;> rfl
  subst etx
  have hx : x.code = codeOf y := by rcases y with a | e | _ <;> cases h2 <;> rfl
  simp only [List.append_nil] at ho ⊢
  obtain ⟨ta, tb, ⟨y1, r1⟩, rfl, h3, h4⟩ := Prog.finished_bind.mp h1
  have bl1 : (createDirectories cfg).Blind := blind_mkdirs _
  obtain ⟨rfl, -⟩ := bl1 _ (readerAt text []) _ _ _ h3
  have oa : output ta = [] := by
    have hl : (Logic.out false).LegalTr [] ta :=
      Logic.legalTr_of_forall fun e he s => ⟨ho e (by simp [he]), fun h => by cases h⟩
    have := Prog.wp_finished (wp_mkdirs_out false [] _ _) h3 hl
    rw [Logic.out_fold] at this
    simpa using this
  rcases y1 with _ | e | _
  · obtain ⟨tc, td, ⟨y2, r2⟩, rfl, h5, h6⟩ := Prog.finished_bind.mp h4
    obtain ⟨rfl, -⟩ := blind_sendCapabilities _ (readerAt text []) _ _ _ h5
    have hl : (Logic.out false).LegalTr [] tc :=
      Logic.legalTr_of_forall fun e he s => ⟨ho e (by simp [he]), fun h => by cases h⟩
    have em := Prog.wp_finished (emits_sendCapabilities false _ []) h5 hl
    rw [Logic.out_fold] at em
    obtain ⟨e1, -, e2⟩ := em
    simp only [List.nil_append] at e1 e2
    subst e1
    refine .inl ⟨ta ++ tc, td, by simp, ?_, ?_⟩
    · rw [output_append, oa, e2]
      rfl
    · rw [hx]
      exact loop_honestly hsha _ (r := readerAt text input) rfl rfl rfl h6 (fun e he => ho e (by simp [he]))
  · cases h4
    exact .inr ⟨by rw [hx]; exact exit_ne_zero e, by rw [List.append_nil, oa]⟩
  · cases h4
    exact .inr ⟨by rw [hx]; decide, by rw [List.append_nil, oa]⟩

/-- **C76.** All bytes make sense to the server, in one way only; if C75 says what they mean, in this way. -/
theorem C76_sense (input : Bytes) :
    (∃ qs e, Sense mode text qs e input) ∧
    (∀ {qs qs' : List Said} {e e' : Ending}, Sense mode text qs e input → Sense mode text qs' e' input → qs = qs' ∧ e = e') ∧
    ∀ {qs : List Said} {e : Ending}, Any mode text qs e input → Sense mode text qs e input :=
  ⟨sense_total input, sense_unique, any_sense⟩

theorem after_nil (q : Said) : q.after [] = q := by
  cases q with
  | ask q => cases q <;> rfl
  | nonsense => rfl

theorem nextLeft_nil {left : Bytes} {q : Said} (h : NextLeft [] left q) : left = [] := by
  cases q with
  | ask q => cases q <;> exact h
  | nonsense => exact h.elim id id

theorem honestly_course {left b : Bytes} {tr : List Event} {code : Nat} (h : Honestly cfg mode text left b tr code) :
    left = [] → (∀ e ∈ tr, e.CopyOk) → ∃ qs e, Sense mode text qs e b ∧ HonestCourse cfg mode qs e tr code := by
  induction h with
  | eof hp => exact fun _ _ => ⟨[], .fine, .eof hp, .done⟩
  | bad hb => exact fun _ _ => ⟨[], .bad, .bad hb, .done⟩
  | quit hl hF hq =>
    intro _ _
    refine ⟨_, .fine, .quit hl hF, ?_⟩
    have := HonestCourse.next (cfg := cfg) (mode := mode) (q := .ask .quit) hq (.done (e := .fine))
    rwa [List.append_nil] at this
  | next hf hs hn _ ih =>
    rintro rfl hc
    obtain ⟨qs, e, h1, h2⟩ := ih (nextLeft_nil hn) fun e he => hc e (by simp [he])
    rw [after_nil] at hs
    exact ⟨_, e, .next hf h1, .next hs h2⟩
  | crash hf =>
    intro _ _
    obtain ⟨qs, e, h1⟩ := sense_total (mode := mode) (text := text) _
    exact ⟨_, e, .next hf h1, .crash⟩
  | cut hf hm hz =>
    intro _ _
    obtain ⟨qs, e, h1⟩ := sense_total (mode := mode) (text := text) _
    exact ⟨_, e, .next hf h1, .cut hm hz⟩
  | lost _ _ _ he hne => exact fun _ hc => absurd (hc _ (List.mem_append_left _ he)) hne

/-- **C76**, when all uploads can be written (the OS may still fail at any other call, in any way): the replies are honest
answers to just the requests that the bytes mean, in this order. -/
theorem C76_meant {input : Bytes} {tr : List Event} {x : Exit} {qs : List Said} {e : Ending}
    (hsha : ∀ b, (cfg.sha b).length = 32) (hm : Sense mode text qs e input)
    (h : (mainProg cfg (modeWord mode) (readerAt text input)).Finished tr x) (ho : ∀ e ∈ tr, e.OutOk) (hc : ∀ e ∈ tr, e.CopyOk) :
    (∃ t0 t1, tr = t0 ++ t1 ∧ output t0 = b!"000eversion=1\n0000" ∧ HonestCourse cfg mode qs e t1 x.code) ∨
    (x.code ≠ 0 ∧ output tr = []) := by
  rcases C76_session hsha h ho with ⟨t0, t1, rfl, h1, h2⟩ | h
  · obtain ⟨qs', e', k1, k2⟩ := honestly_course h2 rfl fun e he => hc e (by simp [he])
    obtain ⟨rfl, rfl⟩ := sense_unique hm k1
    exact .inl ⟨t0, t1, rfl, h1, k2⟩
  · exact .inr h

/-- **C76**: and it panics only for the reasons in C55. -/
theorem C76_crash {input : Bytes} {tr : List Event} {x : Exit} 
    (h : (mainProg cfg (modeWord mode) (readerAt text input)).Finished tr x) (hx : x.code = 101) :
    Vanished cfg.root tr ∨ ∃ t, cfg.fmtTime t = none ∧ Learnt cfg.timestamp tr t :=
  C55_crashes rfl h hx

/-! ### Cases -/

namespace Tests

/-- An upload that contains the word `quit`, and then bytes that are no packet. -/
def quitWire : Bytes := enc (putA [b!"abc", b!"quit"]) ++ b!"zzzz"
def quitEvents : List Event := (mainProg Tests.cfg b!"upload" (readerAt b!"eof" quitWire)).events (failAt 9 eio 0) ⟨fsL, [], 0⟩

end Tests

open Tests in
/-- A case of `C76_session`: the first part of an upload cannot be written. The client gets an internal error. The server
goes on inside the data, where it finds a request to quit: the client did not ask for this. -/
example : ∃ x, (mainProg Tests.cfg (modeWord .upload) (readerAt b!"eof" quitWire)).Finished quitEvents x ∧ x.code = 0 ∧
    (∀ e ∈ quitEvents, e.OutOk) ∧
    output quitEvents = b!"000eversion=1\n0000" ++
      b!"000fstatus 500\n00010046internal error: fatal: I/O error: Input/output error (os error 5)\n0000" ++ b!"000fstatus 200\n0000" ∧
    ∃ t0 t1, quitEvents = t0 ++ t1 ∧ Honestly Tests.cfg .upload b!"eof" [] quitWire t1 0 := by
  have h := Prog.run_finished (failAt 9 eio 0) (mainProg Tests.cfg b!"upload" (readerAt b!"eof" quitWire)) ⟨fsL, [], 0⟩
  have hx : ((mainProg Tests.cfg b!"upload" (readerAt b!"eof" quitWire)).run (failAt 9 eio 0) ⟨fsL, [], 0⟩).1.code = 0 := by
    decide +kernel
  have ho : ∀ e ∈ quitEvents, e.OutOk := fun e he =>
    Event.outOk_of (List.all_eq_true.mp (show quitEvents.all Event.outOkB = true by decide +kernel) e he)
  refine ⟨_, h, hx, ho, by decide +kernel, ?_⟩
  rcases C76_session (mode := .upload) sha_len h ho with ⟨t0, t1, h1, -, h2⟩ | ⟨h1, -⟩
  · exact ⟨t0, t1, h1, hx ▸ h2⟩
  · exact absurd hx h1

namespace Tests

/-- A header that is none but that the code accepts, a request to verify an object, and the beginning of a packet. -/
def oddWire : Bytes := b!"g000" ++ (enc verifyA ++ b!"zz")
def oddEvents : List Event := (mainProg Tests.cfg b!"upload" (readerAt b!"eof" oddWire)).events (failAt 15 eio 0) ⟨fsA, [], 0⟩

theorem oddWire_means : Any .upload b!"eof" [.nonsense 400 b!"unknown command\n", .ask (.verify oidA 6)] .fine oddWire :=
  .heard (ps := [.flush]) (w := b!"g000") (.single .flush) (.cons (w := b!"g000") (ws := []) (.flush (lax_of (by decide))) .nil)
    (.heard (ps := verifyA)
      (Means.verify (more := []) (kv := [(b!"size", b!"+6")]) (s := b!"+6") ⟨_, .cons (x := b!"verify-object") (by decide) (.one (x := oidA) (by decide)), by simp, .inr ⟨rfl, by decide⟩⟩ oidA_ok
        (by unfold ArgsOk; decide) (by decide) ⟨by decide, .inr ⟨b!"6", rfl, (dec_iff _ _).mpr (by decide)⟩⟩)
      (laxFrames_of (frames_enc _ (by decide +kernel))) (.eof (.inl (by decide))))

end Tests

open Tests in
/-- A case of `C76_meant`: the object cannot be looked at. -/
example : ∃ x, (mainProg Tests.cfg (modeWord .upload) (readerAt b!"eof" oddWire)).Finished oddEvents x ∧ x.code = 0 ∧
    (∀ e ∈ oddEvents, e.OutOk) ∧ (∀ e ∈ oddEvents, e.CopyOk) ∧
    output oddEvents = b!"000eversion=1\n0000" ++ b!"000fstatus 400\n00010014unknown command\n0000" ++
      b!"000fstatus 500\n00010046internal error: fatal: I/O error: Input/output error (os error 5)\n0000" ∧
    ∃ t0 t1, oddEvents = t0 ++ t1 ∧
      HonestCourse Tests.cfg .upload [.nonsense 400 b!"unknown command\n", .ask (.verify oidA 6)] .fine t1 0 := by
  have h := Prog.run_finished (failAt 15 eio 0) (mainProg Tests.cfg b!"upload" (readerAt b!"eof" oddWire)) ⟨fsA, [], 0⟩
  have hx : ((mainProg Tests.cfg b!"upload" (readerAt b!"eof" oddWire)).run (failAt 15 eio 0) ⟨fsA, [], 0⟩).1.code = 0 := by
    decide +kernel
  have ho : ∀ e ∈ oddEvents, e.OutOk := fun e he =>
    Event.outOk_of (List.all_eq_true.mp (show oddEvents.all Event.outOkB = true by decide +kernel) e he)
  have hc : ∀ e ∈ oddEvents, e.CopyOk := copyOkB_ok (by decide +kernel)
  refine ⟨_, h, hx, ho, hc, by decide +kernel, ?_⟩
  rcases C76_meant (mode := .upload) sha_len (any_sense oddWire_means) h ho hc with ⟨t0, t1, h1, -, h2⟩ | ⟨h1, -⟩
  · exact ⟨t0, t1, h1, hx ▸ h2⟩
  · exact absurd hx h1

namespace Tests

/-- To release the lock in the file `x`. -/
def xWire : Bytes := b!"000dunlock x\n" ++ b!"0000"
def xEvents : List Event := (mainProg Tests.cfg b!"upload" (readerAt b!"eof" xWire)).events calm ⟨fsL, [], 0⟩

theorem xWire_sense : Sense .upload b!"eof" [.ask (.unlock b!"x")] .fine xWire := by
  have h := Finds.odd (mode := .upload) (text := b!"eof") (id := b!"x") (ps := [.data b!"unlock x\n", .flush]) (w := xWire) (rest := []) rfl
    (.mk (items := []) (more := []) (line_two (a := b!"unlock") (by decide) (by decide))
      (fun h => by have := (oidValid_iff _).mpr h; revert this; decide) (utf8Valid_iff.mp (by decide)) (by simp))
    (laxFrames_of (frames_enc [.data b!"unlock x\n", .flush] (by decide +kernel)))
  rw [List.append_nil] at h
  exact .next h (.eof (.inl (by simp)))

end Tests

open Tests in
/-- A case that C75 leaves out: `unlock` of what is no ID. -/
example : ∃ x, (mainProg Tests.cfg (modeWord .upload) (readerAt b!"eof" xWire)).Finished xEvents x ∧ x.code = 0 ∧
    (∀ e ∈ xEvents, e.OutOk) ∧ (∀ e ∈ xEvents, e.CopyOk) ∧
    output xEvents = b!"000eversion=1\n0000" ++ b!"000fstatus 404\n0001000enot found\n0000" ∧
    ∃ t0 t1, xEvents = t0 ++ t1 ∧ HonestCourse Tests.cfg .upload [.ask (.unlock b!"x")] .fine t1 0 := by
  have h := Prog.run_finished calm (mainProg Tests.cfg b!"upload" (readerAt b!"eof" xWire)) ⟨fsL, [], 0⟩
  have hx : ((mainProg Tests.cfg b!"upload" (readerAt b!"eof" xWire)).run calm ⟨fsL, [], 0⟩).1.code = 0 := by decide +kernel
  have ho : ∀ e ∈ xEvents, e.OutOk := fun e he =>
    Event.outOk_of (List.all_eq_true.mp (show xEvents.all Event.outOkB = true by decide +kernel) e he)
  have hc : ∀ e ∈ xEvents, e.CopyOk := copyOkB_ok (by decide +kernel)
  refine ⟨_, h, hx, ho, hc, by decide +kernel, ?_⟩
  rcases C76_meant (mode := .upload) sha_len xWire_sense h ho hc with ⟨t0, t1, h1, -, h2⟩ | ⟨h1, -⟩
  · exact ⟨t0, t1, h1, hx ▸ h2⟩
  · exact absurd hx h1

end Verif
