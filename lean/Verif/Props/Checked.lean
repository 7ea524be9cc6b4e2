import Verif.Lemmas.Checked
import Verif.Props.Unharmed
/-! **C79.** The build that checks for overflow. -/
namespace Verif
open Spec

variable {ch : Nat → Choice} {cfg : Cfg} {s : Store} {mode : Mode} {r : Rdr} {operation : Bytes}

/-- **C79.** A server of a build that checks for overflow makes the calls of one that does not, and ends in the same way; or
the input has a header that overflows, and it ends with code 101: up to there it has made the calls of the other, and then at
most removes the file of the upload it is receiving. Whatever the OS answers. -/
theorem C79_calls {tr : List Event} {x : Exit} (h : (mainProg cfg operation r).Finished tr x) :
    (mainProg cfg operation { r with checked := false }).Finished tr x ∨
      x = ⟨101, []⟩ ∧ Overflowing r.input ∧
        ∃ t u, tr = t ++ u ∧ (mainProg cfg operation { r with checked := false }).Did t ∧ Tidied cfg.root t u :=
  strict_mainProg h

/-- **C79.** So does one that has not finished or was killed. -/
theorem C79_so_far {tr : List Event} (h : (mainProg cfg operation r).Did tr) :
    (mainProg cfg operation { r with checked := false }).Did tr ∨
      Overflowing r.input ∧ ∃ t u, tr = t ++ u ∧ u ≠ [] ∧ (mainProg cfg operation { r with checked := false }).Did t ∧
        Tidied cfg.root t u := by
  obtain ⟨v, x, hf⟩ := did_finish h
  rcases C79_calls hf with hf | ⟨_, ho, t, u, he, hd, ht⟩
  · exact .inl hf.did.prefix
  · rcases List.append_eq_append_iff.mp he with ⟨z, rfl, _⟩ | ⟨z, rfl, hz⟩
    · exact .inl hd.prefix
    · cases z with
      | nil => exact .inl (by simpa using hd)
      | cons e z =>
        refine .inr ⟨ho, t, e :: z, rfl, by simp, hd, ?_⟩
        have : v = [] := by
          rcases ht with rfl | ⟨_, _, _, _, _, _, _, rfl, _⟩
          · cases hz
          · simp only [List.cons_append, List.cons.injEq] at hz
            exact (List.append_eq_nil_iff.mp hz.2.symm).2
        subst this
        rw [List.append_nil] at hz
        rwa [← hz]

/-- **C79.** If the input has no such header, the two builds do the same. -/
theorem C79_same (ho : ¬ Overflowing r.input) :
    mainProg cfg operation r = mainProg cfg operation { r with checked := false } := by
  refine prog_ext fun tr x h => ?_
  rcases C79_calls h with h | ⟨_, h, _⟩
  · exact h
  · exact absurd h ho

/-- Whether the input has such a header can be seen from the input. -/
theorem overflowing_iff (i : Bytes) : Overflowing i ↔ ∃ n, n < i.length ∧ parseHeader true ((i.drop n).take 4) = .panic := by
  constructor
  · rintro ⟨h, a, b, c, d, ⟨x, y, rfl⟩, h2, h3⟩
    have hl : h.length = 4 := by
      have := congrArg List.length h2
      simpa using this
    refine ⟨x.length, by simp; omega, ?_⟩
    rw [List.append_assoc, List.drop_left, List.take_left' hl]
    exact (C05_exact_partial true h).2.1.mpr ⟨rfl, a, b, c, d, h2, h3⟩
  · rintro ⟨n, _, h2⟩
    obtain ⟨_, a, b, c, d, h3, h4⟩ := (C05_exact_partial true _).2.1.mp h2
    exact ⟨_, a, b, c, d, (List.take_prefix _ _).isInfix.trans (List.drop_suffix n i).isInfix, h3, h4⟩

/-! ### Running alone -/

/-- The world after one call. -/
def World.after (ch : Nat → Choice) (w : World) (o : Op) : World :=
  ⟨(sem (ch w.tick) w.fs o).1, w.out ++ emitted (ch w.tick) o, w.tick + 1⟩

/-- The world after some calls. -/
def World.afterAll (ch : Nat → Choice) : World → List Event → World
  | w, [] => w
  | w, e :: tr => World.afterAll ch (w.after ch e.1) tr

/-- The answers are those of the world `w`. -/
def TrueTo (ch : Nat → Choice) : World → List Event → Prop
  | _, [] => True
  | w, e :: tr => e.2 = (sem (ch w.tick) w.fs e.1).2 ∧ TrueTo ch (w.after ch e.1) tr

theorem afterAll_append (t u : List Event) (w : World) :
    World.afterAll ch w (t ++ u) = World.afterAll ch (World.afterAll ch w t) u := by
  induction t generalizing w with
  | nil => rfl
  | cons e t ih => exact ih _

theorem trueTo_append {t u : List Event} {w : World} :
    TrueTo ch w (t ++ u) ↔ TrueTo ch w t ∧ TrueTo ch (World.afterAll ch w t) u := by
  induction t generalizing w with
  | nil => simp [TrueTo, World.afterAll]
  | cons e t ih => simp only [List.cons_append, TrueTo, World.afterAll, ih, and_assoc]

theorem run_trueTo {α : Type} (p : Prog α) (w : World) :
    ∃ tr, p.Finished tr (p.run ch w).1 ∧ TrueTo ch w tr ∧ (p.run ch w).2 = World.afterAll ch w tr := by
  induction p generalizing w with
  | ret a => exact ⟨[], .ret, trivial, rfl⟩
  | call o k ih =>
    obtain ⟨tr, h1, h2, h3⟩ := ih (sem (ch w.tick) w.fs o).2 (w.after ch o)
    exact ⟨⟨o, (sem (ch w.tick) w.fs o).2⟩ :: tr, .call h1, ⟨rfl, h2⟩, h3⟩

theorem finished_trueTo {α : Type} {p : Prog α} {tr : List Event} {a : α} (h : p.Finished tr a) {w : World} (ha : TrueTo ch w tr) :
    p.run ch w = (a, World.afterAll ch w tr) := by
  induction h generalizing w with
  | ret => rfl
  | @call o k x tr a _ ih =>
    obtain ⟨h1, h2⟩ := ha
    have h1 : x = (sem (ch w.tick) w.fs o).2 := h1
    subst h1
    exact ih h2

theorem stopped_trueTo {α : Type} : ∀ (n : Nat) (p : Prog α) (w : World),
    ∃ tr, p.Did tr ∧ TrueTo ch w tr ∧ stopped ch n p w = World.afterAll ch w tr
  | 0, _, _ => ⟨[], .nil, trivial, by simp [stopped, World.afterAll]⟩
  | _ + 1, .ret _, _ => ⟨[], .nil, trivial, by simp [stopped, World.afterAll]⟩
  | n + 1, .call o k, w => by
    obtain ⟨tr, h1, h2, h3⟩ := stopped_trueTo n (k (sem (ch w.tick) w.fs o).2) (w.after ch o)
    exact ⟨⟨o, (sem (ch w.tick) w.fs o).2⟩ :: tr, .call h1, ⟨rfl, h2⟩, h3⟩

theorem did_trueTo {α : Type} {p : Prog α} {tr : List Event} (h : p.Did tr) {w : World} (ha : TrueTo ch w tr) :
    stopped ch tr.length p w = World.afterAll ch w tr := by
  induction h generalizing w with
  | nil => simp [stopped, World.afterAll]
  | @call o k x tr _ ih =>
    obtain ⟨h1, h2⟩ := ha
    have h1 : x = (sem (ch w.tick) w.fs o).2 := h1
    subst h1
    exact ih h2

/-- A process that gave up leaves the files as if it had been killed, but for the removal of a file of an upload. -/
theorem tidied_trueTo {root : Path} {t u : List Event} {w : World} (ht : Tidied root t u) (ha : TrueTo ch w (t ++ u)) :
    World.afterAll ch w (t ++ u) = World.afterAll ch w t ∨
      ∃ name, World.afterAll ch w (t ++ u) = (World.afterAll ch w t).after ch (.unlink (root ++ [b!"incomplete", name])) := by
  rcases ht with rfl | ⟨pre, uid, p, ino, t0, ws, x, rfl, rfl, _⟩
  · exact .inl (by simp)
  · refine .inr ?_
    rw [List.append_assoc, trueTo_append] at ha
    obtain ⟨_, ha, _⟩ := ha
    simp only [sem] at ha
    have hp : ∃ name, p = root ++ [b!"incomplete", name] := by
      generalize World.afterAll ch w t0 = v at ha
      cases hcf : (ch v.tick).fault with
      | some e =>
        simp only [hcf] at ha
        cases ha
      | none =>
        simp only [hcf] at ha
        split at ha
        · obtain ⟨sfx, hn⟩ := FS.freshName_dir v.fs (root ++ [b!"incomplete"]) (pre ++ (ch v.tick).rand)
          have : p = v.fs.freshName (root ++ [b!"incomplete"]) (pre ++ (ch v.tick).rand) := by
            cases ha
            rfl
          exact ⟨pre ++ (ch v.tick).rand ++ sfx, by rw [this, hn]; simp⟩
        · cases ha
    obtain ⟨name, rfl⟩ := hp
    exact ⟨name, by rw [afterAll_append _ [_]]; rfl⟩

/-- **C79.** A server running alone, in any environment: both builds do the same; or the one that checks for overflow ends
with code 101, and leaves the files and the output as if the other had been killed at some time, except that it may remove the
file of the upload it is receiving. -/
theorem C79_run (w : World) :
    (mainProg cfg operation r).run ch w = (mainProg cfg operation { r with checked := false }).run ch w ∨
      ((mainProg cfg operation r).run ch w).1 = ⟨101, []⟩ ∧ Overflowing r.input ∧
        ∃ n, ((mainProg cfg operation r).run ch w).2 = stopped ch n (mainProg cfg operation { r with checked := false }) w ∨
          ∃ name, ((mainProg cfg operation r).run ch w).2 =
            (stopped ch n (mainProg cfg operation { r with checked := false }) w).after ch
              (.unlink (cfg.root ++ [b!"incomplete", name])) := by
  obtain ⟨tr, h1, h2, h3⟩ := run_trueTo (ch := ch) (mainProg cfg operation r) w
  rcases C79_calls h1 with h | ⟨h4, ho, t, u, rfl, hd, ht⟩
  · refine .inl ?_
    rw [finished_trueTo h h2, ← h3]
  · refine .inr ⟨h4, ho, t.length, ?_⟩
    rw [h3, did_trueTo hd (trueTo_append.mp h2).1]
    exact tidied_trueTo ht h2

/-- **C79.** And if it is killed, the other might have been. -/
theorem C79_killed (n : Nat) (w : World) :
    ∃ m, stopped ch n (mainProg cfg operation r) w = stopped ch m (mainProg cfg operation { r with checked := false }) w ∨
      ∃ name, stopped ch n (mainProg cfg operation r) w =
        (stopped ch m (mainProg cfg operation { r with checked := false }) w).after ch
          (.unlink (cfg.root ++ [b!"incomplete", name])) := by
  obtain ⟨tr, h1, h2, h3⟩ := stopped_trueTo (ch := ch) n (mainProg cfg operation r) w
  rcases C79_so_far h1 with h | ⟨_, t, u, rfl, _, hd, ht⟩
  · exact ⟨tr.length, .inl (by rw [h3, did_trueTo h h2])⟩
  · refine ⟨t.length, ?_⟩
    rw [h3, did_trueTo hd (trueTo_append.mp h2).1]
    exact tidied_trueTo ht h2

/-! ### The store -/

theorem alDel_comm (l : List (Path × Ino)) (p q : Path) : alDel (alDel l p) q = alDel (alDel l q) p := by
  simp only [alDel, List.filter_filter, Bool.and_comm]

theorem delName_comm (fs : FS) (p q : Path) : (fs.delName p).delName q = (fs.delName q).delName p := by
  simp only [FS.delName, alDel_comm]

/-- Removing the file of an upload changes nothing of what the files represent. -/
theorem rep_unfinished {fs : FS} (h : Rep cfg s fs) (name : Bytes) : Rep cfg s (fs.delName (cfg.root ++ [b!"incomplete", name])) := by
  have e : cfg.root ++ [b!"incomplete", name] = incompleteDir cfg.root ++ [name] := by simp [incompleteDir]
  rw [e]
  have hg : ∀ q i, (fs.delName (incompleteDir cfg.root ++ [name])).get q = some i → fs.get q = some i := by
    intro q i hq
    rw [FS.get_delName] at hq
    split at hq
    · cases hq
    · exact hq
  have ho : ∀ oid, (fs.delName (incompleteDir cfg.root ++ [name])).get (objectFile cfg.root oid) = fs.get (objectFile cfg.root oid) :=
    fun oid => by rw [FS.get_delName, if_neg (incomplete_ne_object _ _ _).symm]
  have hl : ∀ n, (fs.delName (incompleteDir cfg.root ++ [name])).get (lockFile cfg.root n) = fs.get (lockFile cfg.root n) :=
    fun n => by rw [FS.get_delName, if_neg (incomplete_ne_lock _ _ _).symm]
  refine ⟨fun oid hoid => ?_, fun l hl' => ?_, fun n hn => ?_, h.sorted, h.times, h.objFiles, h.lockFiles, fun d hd q hq => ?_, ?_, ?_⟩
  · rw [← h.objs oid hoid]
    unfold FS.content
    rw [ho]
    rfl
  · rw [hl]
    exact h.locks l hl'
  · rw [hl] at hn
    exact h.only n hn
  · rw [FS.get_delName]
    split
    · rfl
    · exact h.noFile d hd q hq
  · have hs : ((fs.delName (incompleteDir cfg.root ++ [name])).names.map (·.1)).Sublist (fs.names.map (·.1)) :=
      (List.filter_sublist).map _
    exact hs.nodup h.nodup
  · exact fun p i hp => h.bound p i (hg p i hp)

theorem partway_after {qs : List Said} {out : Bytes} {w : World} (h : Partway cfg mode ch s qs out w) (name : Bytes) :
    Partway cfg mode ch s qs out (w.after ch (.unlink (cfg.root ++ [b!"incomplete", name]))) := by
  have hout : (w.after ch (.unlink (cfg.root ++ [b!"incomplete", name]))).out = w.out := by
    simp [World.after, emitted]
  have hfs : (w.after ch (.unlink (cfg.root ++ [b!"incomplete", name]))).fs = w.fs ∨
      (w.after ch (.unlink (cfg.root ++ [b!"incomplete", name]))).fs = w.fs.delName (cfg.root ++ [b!"incomplete", name]) := by
    simp only [World.after, sem]
    split
    · exact .inl rfl
    · split
      · exact .inr rfl
      · split <;> exact .inl rfl
  obtain ⟨k, ws, s', h1, h2, h3⟩ := h
  refine ⟨k, ws, s', h1, hout ▸ h2, ?_⟩
  rcases hfs with hfs | hfs
  · rw [hfs]
    exact h3
  · rw [hfs]
    rcases h3 with h3 | ⟨path, h4, h5, h6⟩
    · exact .inl (rep_unfinished h3 name)
    · have hget : (w.fs.delName (cfg.root ++ [b!"incomplete", name])).get (halfLock cfg path) = w.fs.get (halfLock cfg path) := by
        rw [FS.get_delName, if_neg]
        have := incomplete_ne_lock cfg.root name (lockName cfg.sha path ++ b!".lock")
        intro he
        exact this (by rw [← halfLock, he]; simp [incompleteDir])
      refine .inr ⟨path, h4, hget ▸ h5, ?_, ?_, fun i hi => h6.2.2 i (hget ▸ hi)⟩
      · rw [delName_comm]
        exact rep_unfinished h6.1 name
      · have hs : ((w.fs.delName (cfg.root ++ [b!"incomplete", name])).names.map (·.1)).Sublist (w.fs.names.map (·.1)) :=
          (List.filter_sublist).map _
        exact hs.nodup h6.2.1

/-- **C79.** C77 for every build: whatever bytes arrive, and whenever the server ends or is killed, some of the requests have
been done and the others have left no trace. -/
theorem C79_stopped (hc : ∀ n, (ch n).fault = none) (hsha : ∀ b, (cfg.sha b).length = 32)
    (hclk : ∀ t, Clock cfg ch t → TimeOk cfg t) {qs : List Said} {e : Ending} {w : World} (hs : Sense mode r.fin.text qs e r.input)
    (hr : Rep cfg s w.fs) (hp : r.pending = []) (hfin : r.fin.kind = .unexpectedEof) (n : Nat) :
    Partway cfg mode ch s qs (w.out ++ b!"000eversion=1\n0000") (stopped ch n (mainProg cfg (Mode.operation mode) r) w) := by
  have key := fun m => C77_stopped (r := { r with checked := false }) hc hsha hclk hs hr hp rfl hfin m
  obtain ⟨m, h | ⟨name, h⟩⟩ := C79_killed (ch := ch) (r := r) (cfg := cfg) (operation := Mode.operation mode) n w
  · rw [h]
    exact key m
  · rw [h]
    exact partway_after (key m) name

/-- **C79.** A session of a build that checks for overflow goes as in C77; or the server ends with code 101 at a header that
overflows, and has done some of the requests. -/
theorem C79_session (hc : ∀ n, (ch n).fault = none) (hsha : ∀ b, (cfg.sha b).length = 32)
    (hclk : ∀ t, Clock cfg ch t → TimeOk cfg t) {w : World} (hr : Rep cfg s w.fs) (hp : r.pending = [])
    (hfin : r.fin.kind = .unexpectedEof) :
    ∃ qs e, Sense mode r.fin.text qs e r.input ∧
      ((∃ ws s', CourseOf cfg mode ch s qs e ws s' ((mainProg cfg (Mode.operation mode) r).run ch w).1 ∧
        ((mainProg cfg (Mode.operation mode) r).run ch w).2.out = w.out ++ b!"000eversion=1\n0000" ++ ws.flatten ∧
        Rep cfg s' ((mainProg cfg (Mode.operation mode) r).run ch w).2.fs) ∨
      Overflowing r.input ∧ ((mainProg cfg (Mode.operation mode) r).run ch w).1 = ⟨101, []⟩ ∧
        Partway cfg mode ch s qs (w.out ++ b!"000eversion=1\n0000") ((mainProg cfg (Mode.operation mode) r).run ch w).2) := by
  obtain ⟨qs, e, ws, s', h1, h2, h3, h4⟩ := C77_session (r := { r with checked := false }) (mode := mode) hc hsha hclk hr hp rfl hfin
  refine ⟨qs, e, h1, ?_⟩
  have key := fun m => C77_stopped (r := { r with checked := false }) hc hsha hclk h1 hr hp rfl hfin m
  rcases C79_run (ch := ch) (r := r) (cfg := cfg) (operation := Mode.operation mode) w with h | ⟨h5, h6, n, h | ⟨name, h⟩⟩
  · rw [h]
    exact .inl ⟨ws, s', h2, h3, h4⟩
  · exact .inr ⟨h6, h5, by rw [h]; exact key n⟩
  · exact .inr ⟨h6, h5, by rw [h]; exact partway_after (key n) name⟩

/-! ### Examples -/

namespace Tests

/-- An upload of `abc`, ended not by a flush packet but by `fg00`: 15·4096 + 16·256 is 65536. -/
def overflowing : Bytes :=
  let oid := hex (Tests.cfg.sha b!"abc")
  enc [.data (b!"put-object " ++ oid ++ b!"\n"), .data b!"size=3\n", .delim, .data b!"abc"] ++ b!"fg00"

/-- The reader of a build that checks for overflow. -/
def checkedReader (b : Bytes) : Rdr := { readerAt b!"eof" b with checked := true }

end Tests

open Tests in
/-- Such a header. -/
example : Overflowing overflowing :=
  ⟨b!"fg00", 15, 16, 0, 0, (List.suffix_append _ _).isInfix, (by decide : List.map laxDigit b!"fg00" = _), by decide⟩

open Tests in
/-- A build that does not check takes it for a flush packet, and stores the object. -/
example : ((mainProg Tests.cfg b!"upload" (readerAt b!"eof" overflowing)).run calm ⟨fsL, [], 0⟩).1 = ⟨0, []⟩ ∧
    ((mainProg Tests.cfg b!"upload" (readerAt b!"eof" overflowing)).run calm ⟨fsL, [], 0⟩).2.fs.content
      (objectFile Tests.cfg.root (hex (Tests.cfg.sha b!"abc"))) = some b!"abc" := by
  refine ⟨?_, ?_⟩ <;> decide +kernel

open Tests in
/-- One that checks panics, and removes the file it was writing; it is the second case of C79. -/
example : ((mainProg Tests.cfg b!"upload" (checkedReader overflowing)).run calm ⟨fsL, [], 0⟩).1 = ⟨101, []⟩ ∧
    ((mainProg Tests.cfg b!"upload" (checkedReader overflowing)).run calm ⟨fsL, [], 0⟩).2.out = b!"000eversion=1\n0000" ∧
    ((mainProg Tests.cfg b!"upload" (checkedReader overflowing)).run calm ⟨fsL, [], 0⟩).2.fs.names = fsL.names := by
  refine ⟨?_, ?_, ?_⟩ <;> decide +kernel

open Tests in
/-- Without such a header nothing differs. -/
example : mainProg Tests.cfg b!"upload" (checkedReader b!"000eversion 1\n0000") =
    mainProg Tests.cfg b!"upload" (readerAt b!"eof" b!"000eversion 1\n0000") := by
  refine C79_same (r := checkedReader _) ?_
  rw [overflowing_iff]
  have : ∀ n < 18, parseHeader true ((b!"000eversion 1\n0000".drop n).take 4) ≠ .panic := by decide +kernel
  rintro ⟨n, h1, h2⟩
  exact this n h1 h2

open Tests in
/-- The hypotheses of `C79_session` are met. -/
example (input : Bytes) := C79_session (mode := .upload) (r := checkedReader input) (w := ⟨fsL, [], 0⟩) (ch := calm) (s := sL)
  (cfg := Tests.cfg) (fun _ => rfl) sha_len (fun t h => by rcases h with h | ⟨h, _⟩ <;> cases h; unfold TimeOk; decide +kernel)
  repL rfl rfl

end Verif
