import Verif.Lemmas.ReportTurn
import Verif.Props.Interactive
/-!
C60: answers are backed by what the OS said. The OS may answer any call with anything.
-/
namespace Verif
open Spec

variable {cfg : Cfg} {mode : Mode}

/-- The answers to requests on one file do not depend on `lax`. -/
theorem Spec.Backed.strict {tr : List Event} {q : Request} {a : Answer} (h : Backed true cfg mode tr q a)
    (hq : ¬ Surveys q) : Backed false cfg mode tr q a := by
  cases h with
  | internal => exact .internal
  | quit => exact .quit
  | version => exact .version
  | batch => exact absurd trivial hq
  | stored h1 h2 h3 h4 => exact .stored h1 h2 h3 h4
  | refused h1 h2 => exact .refused h1 h2
  | verified h => exact .verified h
  | differs h1 h2 => exact .differs h1 h2
  | missing h => exact .missing h
  | sent h1 h2 h3 => exact .sent h1 h2 h3
  | noObject h => exact .noObject h
  | locked h1 h2 h3 h4 h5 h6 h7 => exact .locked h1 h2 h3 h4 h5 h6 h7
  | held h1 h2 => exact .held h1 h2
  | corrupt h1 h2 => exact .corrupt h1 h2
  | unlocked h1 h2 => exact .unlocked h1 h2
  | noLock h => exact .noLock h
  | notRemoved h1 h2 h3 => exact .notRemoved h1 h2 h3
  | corruptId h1 h2 => exact .corruptId h1 h2
  | listed h1 h2 h3 => exact .listed h1 h2 h3
  | notListed h => exact .notListed h
  | corruptPath h1 h2 => exact .corruptPath h1 h2
  | listing => exact absurd trivial hq

/-- **C60**, one request (the part that holds): whatever the OS answers, the reply is backed by what it said, except
that a batch or a listing of all locks may take a file that could not be looked at for a missing one. -/
theorem C60_request_partial {q : Request} {ps : List Packet} {wire rest : Bytes} {r r' : Rdr} {tr : List Event} {x : Res Turn}
    (hsha : ∀ b, (cfg.sha b).length = 32) (he : Encodes q ps) (hF : Frames ps wire) (hi : r.input = wire ++ rest)
    (hp : r.pending = []) (hal : Allowed mode q)
    (h : (turn cfg mode r).Finished tr (x, r')) (ho : ∀ e ∈ tr, e.OutOk) :
    x = .panic ∨ (x = .ok (turnOf q) ∧ HonestReply cfg mode q tr) ∨
    ∃ e oid h cs e', x = .err e ∧ q = .get oid ∧ (⟨.readAll h, (cs, some e')⟩ : Event) ∈ tr := by
  rcases turn_request hsha he hF hi hp hal h ho with h | ⟨h1, a, h2, h3⟩ | h
  · exact .inl h
  · refine .inr (.inl ⟨h1, a, h2, h3 true (.inl rfl), ?_⟩)
    rintro (h | h)
    · exact (h3 true (.inl rfl)).strict h
    · exact h3 false (.inr h)
  · exact .inr (.inr h)

/-! ### Sessions -/

theorem commandLine_one {s l : Bytes} (h : IsLine s l) (h1 : (32 : UInt8) ∉ s) (h2 : s ≠ []) (h3 : s.getLast? ≠ some 10) :
    CommandLine l [s] :=
  ⟨s, .one h1, h2, h.elim (fun h => .inr ⟨h, h3⟩) .inl⟩

theorem commandLine_two {s x l : Bytes} (h : IsLine (s ++ b!" " ++ x) l) (h1 : (32 : UInt8) ∉ s) (h2 : (32 : UInt8) ∉ x)
    (h3 : x ≠ []) (h4 : x.getLast? ≠ some 10) : CommandLine l [s, x] := by
  refine ⟨s ++ b!" " ++ x, .cons h1 (.one h2), by simp, h.elim (fun h => .inr ⟨h, ?_⟩) .inl⟩
  rw [List.getLast?_append, List.getLast?_eq_some_getLast h3, Option.some_or, ← List.getLast?_eq_some_getLast h3]
  exact h4

theorem isOid_word {x : Bytes} (h : IsOid x) : (32 : UInt8) ∉ x ∧ x ≠ [] ∧ x.getLast? ≠ some 10 := by
  have hne : x ≠ [] := by intro e; have := h.1; rw [e] at this; simp at this
  refine ⟨isOid_nosp h, hne, ?_⟩
  rw [List.getLast?_eq_some_getLast hne]
  intro e
  exact oid_notin h (x := 10) (by decide) (Option.some.inj e ▸ List.getLast_mem hne)

theorem encodes_shaped {q : Request} {ps : List Packet} (he : Encodes q ps) (hal : Allowed mode q) (hq : q ≠ .quit) :
    Shaped mode ps ∨ ∃ oid n data, q = .put oid n data := by
  have items : ∀ kv : List (Bytes × Bytes), argPackets kv = (kv.map fun e => argLine e.1 e.2).map .data := by
    intro kv
    simp [argPackets]
  cases he with
  | @version l kv hl =>
    rw [items]
    exact .inl (.args (commandLine_two (s := b!"version") (x := b!"1") hl (by decide) (by decide) (by decide) (by decide)) .version)
  | quit => exact absurd rfl hq
  | batch hl ha =>
    exact .inl (.batch (commandLine_one hl (by decide) (by decide) (by decide)) ha)
  | put => exact .inr ⟨_, _, _, rfl⟩
  | verify ho hl =>
    have hm : mode = .upload := hal
    subst hm
    obtain ⟨h1, h2, h3⟩ := isOid_word ho
    rw [items]
    exact .inl (.args (commandLine_two (s := b!"verify-object") hl (by decide) h1 h2 h3) .verify)
  | get ho hl =>
    have hm : mode = .download := hal
    subst hm
    obtain ⟨h1, h2, h3⟩ := isOid_word ho
    rw [items]
    exact .inl (.args (commandLine_two (s := b!"get-object") hl (by decide) h1 h2 h3) .get)
  | lock hl =>
    have hm : mode = .upload := hal
    subst hm
    rw [items]
    exact .inl (.args (commandLine_one hl (by decide) (by decide) (by decide)) .lock)
  | listLocks hl =>
    rw [items]
    exact .inl (.args (commandLine_one hl (by decide) (by decide) (by decide)) .listLocks)
  | unlock ho hl =>
    have hm : mode = .upload := hal
    subst hm
    obtain ⟨h1, h2, h3⟩ := isOid_word ho
    rw [items]
    exact .inl (.args (commandLine_two (s := b!"unlock") hl (by decide) h1 h2 h3) .unlock)

theorem exit_ne_zero (e : Err) : e.exitStatus.code ≠ 0 := by
  unfold Err.exitStatus
  split <;> decide

/-- The exit code a result of the command loop leads to. -/
def codeOf : Res Unit → Nat
  | .ok _ => 0
  | .err e => e.exitStatus.code
  | .panic => 101

theorem loop_course {qs : List Request} {w : Bytes} (hsha : ∀ b, (cfg.sha b).length = 32) (hs : Session mode qs w) :
    ∀ {r r' : Rdr} {tr : List Event} {y : Res Unit}, r.input = w → r.pending = [] → r.fin = eofErr →
    (processCommands cfg mode r).Finished tr (y, r') → (∀ e ∈ tr, e.OutOk) → Course cfg mode qs tr (codeOf y) := by
  induction hs with
  | eof =>
    intro r r' tr y hi hp hf h ho
    rw [processCommands_end hi hf] at h
    cases h
    exact .eof
  | @quit ps w rest he hF =>
    intro r r' tr y hi hp hf h ho
    rw [C40_loop] at h
    obtain ⟨ta, tb, ⟨y1, r1⟩, rfl, h1, h2⟩ := Prog.finished_bind.mp h
    rcases C60_request_partial hsha he hF hi hp trivial h1 (fun e he => ho e (by simp [he])) with rfl | ⟨rfl, ht⟩ | ⟨_, _, _, _, _, _, h, _⟩
    · cases h2
      exact .crash
    · cases h2
      rw [List.append_nil]
      exact .quit ht
    · cases h
  | @cons q qs ps w ws he hF hal hq _ ih =>
    intro r r' tr y hi hp hf h ho
    rw [C40_loop] at h
    obtain ⟨ta, tb, ⟨y1, r1⟩, rfl, h1, h2⟩ := Prog.finished_bind.mp h
    rcases C60_request_partial hsha he hF hi hp hal h1 (fun e he => ho e (by simp [he])) with rfl | ⟨rfl, ht⟩ |
        ⟨e, oid, k, cs, e', rfl, rfl, hk⟩
    · cases h2
      exact .crash
    · have ht' : turnOf q = .again := by cases q <;> first | rfl | exact absurd rfl hq
      rw [ht'] at h2
      simp only at h2
      have go : r1 = { r with input := ws } → Course cfg mode (q :: qs) (ta ++ tb) (codeOf y) := by
        rintro rfl
        exact .next ht (ih (r := { r with input := ws }) rfl hp hf h2 fun e he => ho e (by simp [he]))
      rcases encodes_shaped he hal hq with hsh | ⟨oid, n, data, rfl⟩
      · exact go (Logic.only_finished (P := fun _ => True) (Q := fun x r' => r' = { r with input := ws } ∧ x ≠ .ok .done)
          (turn_shaped hsh hF hi) h1 fun _ _ => trivial).1
      · by_cases hc : ∀ e ∈ ta, e.CopyOk
        · have hm : mode = .upload := hal
          subst hm
          exact go (turn_extent (put_extent he) hF hi hp h1 hc).1
        · simp only [not_forall] at hc
          obtain ⟨e, he, hc⟩ := hc
          exact .lost ht he hc
    · cases h2
      exact .cut (by simpa using hk) (exit_ne_zero e)

/-- **C60**, sessions (the part that holds): every request of a session gets an honest reply as in
`C60_request_partial`, unless the server ends with an error first or an upload could not be written. -/
theorem C60_session_partial {qs : List Request} {w : Bytes} {checked : Bool} {tr : List Event} {x : Exit}
    (hsha : ∀ b, (cfg.sha b).length = 32) (hs : Session mode qs w)
    (h : (mainProg cfg (modeWord mode) (.new w eofErr checked)).Finished tr x) (ho : ∀ e ∈ tr, e.OutOk) :
    (∃ t0 t1, tr = t0 ++ t1 ∧ output t0 = b!"000eversion=1\n0000" ∧ Course cfg mode qs t1 x.code) ∨
    (x.code ≠ 0 ∧ output tr = []) := by
  simp only [mainProg_eq, runProgram_mode] at h
  obtain ⟨tp, tx, ⟨y, r3⟩, rfl, h1, h2⟩ := Prog.finished_bind.mp h
  have etx : tx = [] := by rcases y with a | e | _ <;> cases h2 <;> rfl
  subst etx
  have hx : x.code = codeOf y := by rcases y with a | e | _ <;> cases h2 <;> rfl
  simp only [List.append_nil] at ho ⊢
  obtain ⟨ta, tb, ⟨y1, r1⟩, rfl, h3, h4⟩ := Prog.finished_bind.mp h1
  have bl1 : (createDirectories cfg).Blind := blind_mkdirs _
  obtain ⟨rfl, -⟩ := bl1 _ (.new [] eofErr checked) _ _ _ h3
  have oa : output ta = [] := by
    have hl : (Logic.out false).LegalTr [] ta :=
      Logic.legalTr_of_forall fun e he s => ⟨ho e (by simp [he]), fun h => by cases h⟩
    have := Prog.wp_finished (wp_mkdirs_out false [] _ _) h3 hl
    rw [Logic.out_fold] at this
    simpa using this
  rcases y1 with _ | e | _
  · obtain ⟨tc, td, ⟨y2, r2⟩, rfl, h5, h6⟩ := Prog.finished_bind.mp h4
    obtain ⟨rfl, -⟩ := blind_sendCapabilities _ (.new [] eofErr checked) _ _ _ h5
    have hl : (Logic.out false).LegalTr [] tc :=
      Logic.legalTr_of_forall fun e he s => ⟨ho e (by simp [he]), fun h => by cases h⟩
    have em := Prog.wp_finished (emits_sendCapabilities false _ []) h5 hl
    rw [Logic.out_fold] at em
    obtain ⟨e1, -, e2⟩ := em
    simp only [List.nil_append] at e1 e2
    subst e1
    refine .inl ⟨ta ++ tc, td, by simp, ?_, ?_⟩
    · rw [output_append, oa, e2]
      rfl
    · rw [hx]
      exact loop_course hsha hs (r := .new w eofErr checked) rfl rfl rfl h6 (fun e he => ho e (by simp [he]))
  · cases h4
    exact .inr ⟨by rw [hx]; exact exit_ne_zero e, by rw [List.append_nil, oa]⟩
  · cases h4
    exact .inr ⟨by rw [hx]; decide, by rw [List.append_nil, oa]⟩

/-! ### What does not hold -/

/-- The status of a reply that starts like this. -/
theorem sends_code {a : Answer} {w : Bytes} {d : Bytes} (h : Sends a w)
    (hr : ((Rdr.new w eofErr false).readPacket).1 = .ok (.data (b!"status " ++ d ++ b!"\n"))) : Dec d a.code := by
  obtain ⟨rep, k1, k2, k3, -, -⟩ := h
  cases k2 with
  | @cons p ps u v hf hv =>
    rw [readPacket_frame hf (Rdr.new (u ++ v) eofErr false) v rfl] at hr
    simp only [Res.ok.injEq, Packet.data.injEq, List.append_cancel_left_eq, List.append_cancel_right_eq] at hr
    rw [← hr, ← k3]
    exact k1.digits.2

namespace Tests

/-- A server looking at batches of the object `oidA`, which is there; call 0 fails. -/
def brokenBatch : List Event := (turn Tests.cfg .upload (seeing batchAB [])).events (failAt 0 eio 0) ⟨fsA, [], 0⟩

/-- Neither says whether the file is there. -/
def silentB (p : FPath) : Event → Bool
  | ⟨.stat q, x⟩ => q != p || (match x with | .ok _ => false | .error e => e.kind != .notFound)
  | ⟨.openRead q, x⟩ => q != p || (match x with | .ok _ => false | .error e => e.kind != .notFound)
  | _ => true

theorem silent_missing {p : FPath} {tr : List Event} (h : tr.all (silentB p) = true) : ¬ SaidMissing tr p := by
  rintro ⟨e, he, h1 | h1 | ⟨k, h1, -⟩⟩ <;> simpa [silentB, he] using List.all_eq_true.mp h _ h1

theorem silent_size {root : Path} {oid : Bytes} {tr : List Event}
    (h : tr.all (silentB (.exact (objectFile root oid))) = true) (n : Nat) : ¬ SaidSize root tr oid n := by
  rintro ⟨st, -, h1⟩
  simpa [silentB] using List.all_eq_true.mp h _ h1

theorem silent_content {root : Path} {id d : Bytes} {tr : List Event}
    (h : tr.all (silentB (lockEntry root id)) = true) : ¬ SaidContent root tr id d := by
  rintro ⟨k, cs, h1, -, -⟩
  simpa [silentB] using List.all_eq_true.mp h _ h1

/-- A name in the directory of locks of which nothing is known is not passed over. -/
theorem names_said {cursor : Option Bytes} {tr : List Event} {n : Bytes} {k : Nat} {names : List Bytes} {ls : List Shown}
    (h : NamesSaid false cfg tr cursor k names ls) (hn : n ∈ names) (hk : names.length ≤ k) (ho : IsOid n)
    (hs : tr.all (silentB (lockEntry cfg.root n)) = true) : False := by
  induction h with
  | nil => cases hn
  | full =>
    rw [Nat.le_zero, List.length_eq_zero_iff] at hk
    subst hk
    cases hn
  | @lock k m id ns l ls h1 h2 _ ih =>
    simp only [List.length_cons, Nat.add_le_add_iff_right] at hk
    rcases List.mem_cons.mp hn with rfl | hn
    · obtain ⟨⟨d, h3, -⟩, -⟩ := h1
      rw [oid_kept ho h2] at h3
      exact silent_content hs h3
    · exact ih hn hk
  | @before k m id c ns l ls h1 h2 _ _ _ ih =>
    simp only [List.length_cons] at hk
    rcases List.mem_cons.mp hn with rfl | hn
    · obtain ⟨⟨d, h3, -⟩, -⟩ := h1
      rw [oid_kept ho h2] at h3
      exact silent_content hs h3
    · exact ih hn (by omega)
  | gone h1 h2 _ ih =>
    simp only [List.length_cons] at hk
    rcases List.mem_cons.mp hn with rfl | hn
    · rw [oid_kept ho h2] at h1
      exact silent_missing hs h1
    · exact ih hn (by omega)
  | noLock h1 h2 _ _ ih =>
    simp only [List.length_cons] at hk
    rcases List.mem_cons.mp hn with rfl | hn
    · rw [oid_kept ho h2] at h1
      exact silent_content hs h1
    · exact ih hn (by omega)
  | failed h1 => cases h1

/-- A server listing all locks; it cannot open the file of the first. -/
def brokenList : List Event := (turn Tests.cfg .upload (seeing listAll [])).events (failAt 1 eio 0) ⟨fsL, [], 0⟩

def dirB (p : List Bytes → Bool) : Event → Bool
  | ⟨.readDir _, x⟩ => match x with | .ok ns => p ns | .error _ => true
  | _ => true

theorem dir_names {p : List Bytes → Bool} {tr : List Event} (h : tr.all (dirB p) = true) {d : Path} {ns : List Bytes}
    (hm : (⟨.readDir d, .ok ns⟩ : Event) ∈ tr) : p ns = true := by
  simpa [dirB] using List.all_eq_true.mp h _ hm

theorem lines_short : ∀ {ls : List Bytes}, ls.all (fun l => l.length ≤ 65516) = true → LinesPackets ls ls
  | [], _ => .nil
  | l :: ls, h => by
    simp only [List.all_cons, Bool.and_eq_true, decide_eq_true_eq] at h
    exact .cons (ps := [l]) (.short h.1) (lines_short h.2)

theorem sends_lines {ls : List Bytes} {w : Bytes} (h : replyOk ⟨200, b!"200", [], some ls⟩ = true)
    (hs : (Reply.packets ⟨200, b!"200", [], some ls⟩).all Packet.short = true)
    (hl : ls.all (fun l => l.length ≤ 65516) = true) (hw : w = enc (Reply.packets ⟨200, b!"200", [], some ls⟩)) :
    Sends ⟨200, [], .lines ls⟩ w :=
  ⟨⟨200, b!"200", [], some ls⟩, replyOk_ok h, hw ▸ frames_enc _ hs, rfl, .nil, ls, rfl, lines_short hl⟩

end Tests

open Tests in
/-- **C60** is false for batches: if the OS fails to say whether an object is there, the client is told to upload it,
although it is there. -/
theorem C60_batch_refuted : ∃ (cfg : Cfg) (oid : Bytes) (items : List (Bytes × Nat)) (ps : List Packet) (u : Bytes) (fs : FS)
    (ch : Nat → Choice) (r' : Rdr) (tr : List Event),
    Encodes (.batch items) ps ∧ Frames ps u ∧ (turn cfg .upload (Rdr.new u eofErr false)).Finished tr (.ok .again, r') ∧
      tr = (turn cfg .upload (Rdr.new u eofErr false)).events ch ⟨fs, [], 0⟩ ∧ (∀ e ∈ tr, e.OutOk) ∧
      (oid, 6) ∈ items ∧ fs.content (objectFile cfg.root oid) = some b!"abc123" ∧
      (∃ ls, Sends ⟨200, [], .lines ls⟩ (output tr) ∧ oid ++ b!" 6 upload\n" ∈ ls) ∧
      ∀ a, Sends a (output tr) → ¬ Backed false cfg .upload tr (.batch items) a := by
  refine ⟨Tests.cfg, oidA, [(oidA, 6), (idF, 42)], batchAB, enc batchAB, fsA, failAt 0 eio 0, Rdr.new [] eofErr false,
    brokenBatch, batchAB_encodes, frames_enc _ (by decide), ?_, ?_, ?_, by simp, by decide +kernel,
    ⟨[oidA ++ b!" 6 upload\n", idF ++ b!" 42 upload\n"], sends_lines (by decide +kernel) (by decide +kernel)
      (by decide +kernel) (by decide +kernel), by simp⟩, ?_⟩
  · have := Prog.run_finished (failAt 0 eio 0) (turn Tests.cfg .upload (seeing batchAB [])) ⟨fsA, [], 0⟩
    rw [show ((turn Tests.cfg .upload (seeing batchAB [])).run (failAt 0 eio 0) ⟨fsA, [], 0⟩).1 =
      (.ok .again, Rdr.new [] eofErr false) by decide +kernel] at this
    simpa [seeing, brokenBatch] using this
  · simp [seeing, brokenBatch]
  · exact fun e he => Event.outOk_of (List.all_eq_true.mp (show brokenBatch.all Event.outOkB = true by decide +kernel) e he)
  · have hs : brokenBatch.all (silentB (.exact (objectFile Tests.cfg.root oidA))) = true := by decide +kernel
    intro a ha hb
    have hc := sends_code (d := b!"200") ha (by decide +kernel)
    cases hb with
    | internal => exact absurd (show digitsVal 0 b!"200" = 500 from ((dec_iff _ _).mp hc).2.2) (by decide)
    | batch h =>
      cases h with
      | there h => exact silent_size hs _ h
      | missing h => exact silent_missing hs h
      | failed h => cases h

open Tests in
/-- **C60** is false for listings of all locks: a lock whose file cannot be opened is left out, although it is held. -/
theorem C60_listing_refuted : ∃ (cfg : Cfg) (id : Bytes) (ps : List Packet) (u : Bytes) (fs : FS)
    (ch : Nat → Choice) (r' : Rdr) (tr : List Event),
    Encodes (.listLocks none none none) ps ∧ Frames ps u ∧
      (turn cfg .upload (Rdr.new u eofErr false)).Finished tr (.ok .again, r') ∧
      tr = (turn cfg .upload (Rdr.new u eofErr false)).events ch ⟨fs, [], 0⟩ ∧ (∀ e ∈ tr, e.OutOk) ∧
      (held cfg.root fs id).isSome ∧
      (∃ ls, Sends ⟨200, [], .lines ls⟩ (output tr) ∧ b!"lock " ++ id ++ b!"\n" ∉ ls) ∧
      ∀ a, Sends a (output tr) → ¬ Backed false cfg .upload tr (.listLocks none none none) a := by
  refine ⟨Tests.cfg, idF, listAll, enc listAll, fsL, failAt 1 eio 0, Rdr.new [] eofErr false,
    brokenList, listAll_encodes, frames_enc _ (by decide), ?_, ?_, ?_, by decide +kernel,
    ⟨[b!"lock " ++ idG ++ b!"\n", b!"path " ++ idG ++ b!" g:h\n", b!"locked-at " ++ idG ++ b!" 1970-01-01T00:00:05+00:00\n",
      b!"ownername " ++ idG ++ b!" uid 0\n", b!"owner " ++ idG ++ b!" theirs\n"], sends_lines (by decide +kernel) (by decide +kernel)
      (by decide +kernel) (by decide +kernel), by decide +kernel⟩, ?_⟩
  · have := Prog.run_finished (failAt 1 eio 0) (turn Tests.cfg .upload (seeing listAll [])) ⟨fsL, [], 0⟩
    rw [show ((turn Tests.cfg .upload (seeing listAll [])).run (failAt 1 eio 0) ⟨fsL, [], 0⟩).1 =
      (.ok .again, Rdr.new [] eofErr false) by decide +kernel] at this
    simpa [seeing, brokenList] using this
  · simp [seeing, brokenList]
  · exact fun e he => Event.outOk_of (List.all_eq_true.mp (show brokenList.all Event.outOkB = true by decide +kernel) e he)
  · have hs : brokenList.all (silentB (lockEntry Tests.cfg.root idF)) = true := by decide +kernel
    intro a ha hb
    have hc := sends_code (d := b!"200") ha (by decide +kernel)
    generalize hq : Request.listLocks none none none = q at hb
    cases hb with
    | internal => exact absurd (show digitsVal 0 b!"200" = 500 from ((dec_iff _ _).mp hc).2.2) (by decide)
    | listing h1 h2 _ h3 =>
      cases hq
      have := dir_names (p := fun ns => ns.contains idF && ns.length ≤ 2) (by decide +kernel) h1
      simp only [Bool.and_eq_true, List.contains_iff_mem, decide_eq_true_eq] at this
      refine names_said h3 (h2.mem_iff.mpr this.1) ?_ idF_ok hs
      rw [h2.length_eq]
      exact Nat.le_trans this.2 (by decide)
    | _ => cases hq

/-! ### Cases -/

open Tests in
/-- A case of `C60_request_partial` in which the OS fails to look at an object: verifying it gets an internal error. -/
example : ∃ tr r', (turn Tests.cfg .upload (seeing verifyA [])).Finished tr (.ok .again, r') ∧ (∀ e ∈ tr, e.OutOk) ∧
    HonestReply Tests.cfg .upload (.verify oidA 6) tr ∧
    output tr = b!"000fstatus 500\n00010046internal error: fatal: I/O error: Input/output error (os error 5)\n0000" := by
  have h := Prog.run_finished (failAt 0 eio 0) (turn Tests.cfg .upload (seeing verifyA [])) ⟨fsA, [], 0⟩
  rw [show ((turn Tests.cfg .upload (seeing verifyA [])).run (failAt 0 eio 0) ⟨fsA, [], 0⟩).1 =
    (.ok .again, Rdr.new [] eofErr false) by decide +kernel] at h
  have ho : ∀ e ∈ (turn Tests.cfg .upload (seeing verifyA [])).events (failAt 0 eio 0) ⟨fsA, [], 0⟩, e.OutOk := fun e he =>
    Event.outOk_of (List.all_eq_true.mp (show List.all _ Event.outOkB = true by decide +kernel) e he)
  refine ⟨_, _, h, ho, ?_, by decide +kernel⟩
  rcases C60_request_partial sha_len verifyA_encodes (frames_enc verifyA (by decide)) (r := seeing verifyA []) rfl rfl rfl h ho with
    h | h | ⟨_, _, _, _, _, h, _⟩
  · cases h
  · exact h.2
  · cases h

namespace Tests

/-- A session of four requests on a repository with two locks and an object. -/
def fourReqs : List Request := [.batch [(oidA, 6), (idF, 42)], .lock b!"f", .unlock idF, .listLocks none none none]
def fourWire : Bytes := enc batchAB ++ (enc (lockOf b!"f") ++ (enc unlockF ++ (enc listAll ++ [])))

theorem four_session : Session .upload fourReqs fourWire :=
  .cons batchAB_encodes (frames_enc _ (by decide)) trivial (by simp)
    (.cons (lockOf_encodes _) (frames_enc _ (by decide)) rfl (by simp)
    (.cons unlockF_encodes (frames_enc _ (by decide)) rfl (by simp)
    (.cons listAll_encodes (frames_enc _ (by decide)) trivial (by simp) .eof)))

def fourEvents : List Event := (mainProg Tests.cfg b!"upload" (.new fourWire eofErr false)).events (failAt 21 eio 0) ⟨fsL, [], 0⟩

end Tests

open Tests in
/-- A case of `C60_session_partial`: one call fails, and every request gets a reply. -/
example : ∃ x, (mainProg Tests.cfg (modeWord .upload) (.new fourWire eofErr false)).Finished fourEvents x ∧ x.code = 0 ∧
    (∀ e ∈ fourEvents, e.OutOk) ∧ ∃ t0 t1, fourEvents = t0 ++ t1 ∧ Course Tests.cfg .upload fourReqs t1 0 := by
  have h := Prog.run_finished (failAt 21 eio 0) (mainProg Tests.cfg b!"upload" (.new fourWire eofErr false)) ⟨fsL, [], 0⟩
  have hx : ((mainProg Tests.cfg b!"upload" (.new fourWire eofErr false)).run (failAt 21 eio 0) ⟨fsL, [], 0⟩).1.code = 0 := by
    decide +kernel
  have ho : ∀ e ∈ fourEvents, e.OutOk := fun e he =>
    Event.outOk_of (List.all_eq_true.mp (show fourEvents.all Event.outOkB = true by decide +kernel) e he)
  refine ⟨_, h, hx, ho, ?_⟩
  rcases C60_session_partial (mode := .upload) sha_len four_session h ho with ⟨t0, t1, h1, -, h2⟩ | ⟨h1, -⟩
  · exact ⟨t0, t1, h1, hx ▸ h2⟩
  · exact absurd hx h1

end Verif
