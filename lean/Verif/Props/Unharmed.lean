import Verif.Lemmas.Unharmed
import Verif.Props.AnyAll
import Verif.Tests.States
/-! **C77.** No bytes can harm the store. -/
namespace Verif
open Spec

variable {ch : Nat → Choice} {cfg : Cfg} {s : Store} {mode : Mode} {r : Rdr}

/-- **C77.** Whatever bytes arrive: the server takes them for some requests, deals with each of them properly, and then ends
in one of the ways of C75; or it panics at an `unlock` of what is no ID, and has dealt with all before. Either way the
files are in order, and represent the store after these requests. -/
theorem C77_session (hc : ∀ n, (ch n).fault = none) (hsha : ∀ b, (cfg.sha b).length = 32)
    (hclk : ∀ t, Clock cfg ch t → TimeOk cfg t) {w : World} (hr : Rep cfg s w.fs) (hp : r.pending = [])
    (hck : r.checked = false) (hfin : r.fin.kind = .unexpectedEof) :
    ∃ qs e ws s', Sense mode r.fin.text qs e r.input ∧
      CourseOf cfg mode ch s qs e ws s' ((mainProg cfg (Mode.operation mode) r).run ch w).1 ∧
      ((mainProg cfg (Mode.operation mode) r).run ch w).2.out = w.out ++ b!"000eversion=1\n0000" ++ ws.flatten ∧
      Rep cfg s' ((mainProg cfg (Mode.operation mode) r).run ch w).2.fs := by
  obtain ⟨qs, e, hs⟩ := sense_total (mode := mode) (text := r.fin.text) r.input
  have := (Prog.wp_run ch (mainProg cfg (Mode.operation mode) r) w (fun x w' => ∃ ws s', CourseOf cfg mode ch s qs e ws s' x ∧
    w'.out = w.out ++ b!"000eversion=1\n0000" ++ ws.flatten ∧ Rep cfg s' w'.fs)).mp ?_
  · obtain ⟨ws, s', h⟩ := this
    exact ⟨qs, e, ws, s', hs, h⟩
  · unfold mainProg
    rw [Prog.wp_bind]
    refine Prog.wp_mono (runs_of_stops (stops_program_sense hc hsha hclk hs hp hck hfin hr)) ?_
    rintro ⟨x, r'⟩ w' ⟨ws, s', h1, h2, ⟨h3, h4⟩ | ⟨k, q, h3, h4, h5, h6, h7⟩⟩
    · have h4 : x = e.res := h4
      subst h4
      cases e with
      | fine => exact ⟨ws, s', .inl ⟨h3, rfl⟩, h1, h2⟩
      | bad => exact ⟨ws, s', .inl ⟨h3, by decide⟩, h1, h2⟩
    · have h7 : x = .panic := h7
      subst h7
      exact ⟨ws, s', .inr ⟨k, q, h3, h4, h5, h6, rfl⟩, h1, h2⟩

/-- **C77.** And if it is killed, it has dealt with some of them. -/
theorem C77_stopped (hc : ∀ n, (ch n).fault = none) (hsha : ∀ b, (cfg.sha b).length = 32)
    (hclk : ∀ t, Clock cfg ch t → TimeOk cfg t) {qs : List Said} {e : Ending} {w : World} (hs : Sense mode r.fin.text qs e r.input)
    (hr : Rep cfg s w.fs) (hp : r.pending = []) (hck : r.checked = false) (hfin : r.fin.kind = .unexpectedEof) (n : Nat) :
    Partway cfg mode ch s qs (w.out ++ b!"000eversion=1\n0000") (stopped ch n (mainProg cfg (Mode.operation mode) r) w) := by
  refine stopped_wp (Q := fun _ => Partway cfg mode ch s qs (w.out ++ b!"000eversion=1\n0000")) n ?_ fun _ _ h => h
  unfold mainProg
  rw [Prog.wp_bind]
  refine Prog.wp_mono (stops_program_sense hc hsha hclk hs hp hck hfin hr) ?_
  rintro ⟨x, r'⟩ w' ⟨ws, s', h1, h2, h3⟩
  have fin : Partway cfg mode ch s qs (w.out ++ b!"000eversion=1\n0000") w' := by
    rcases h3 with ⟨h3, _⟩ | ⟨k, q, _, _, _, h3, _⟩
    · exact ⟨qs.length, ws, s', by rw [List.take_length]; exact h3, by rw [h1]; exact List.prefix_refl _, .inl h2⟩
    · exact ⟨k, ws, s', h3, by rw [h1]; exact List.prefix_refl _, .inl h2⟩
  cases x with
  | ok _ => exact fin
  | err _ => exact fin
  | panic => exact fin

/-! ### What the requests can do -/

/-- What one request does to the store. -/
theorem served_effects {q : Said} {a : Answer} {s' : Store} (h : ServedAs cfg mode ch s q a s') :
    (∀ oid, s'.objs oid = s.objs oid ∨ ∃ n data, q = .ask (.put oid n data) ∧ data.length = n ∧ hex (cfg.sha data) = oid ∧
      s'.objs oid = some data) ∧
    (∀ l ∈ s'.locks, l ∈ s.locks ∨ q = .ask (.lock l.path) ∧ l.uid = cfg.uid ∧ s.find cfg (lockName cfg.sha l.path) = none) ∧
    (∀ l ∈ s.locks, l ∈ s'.locks ∨ ∃ id, q = .ask (.unlock id) ∧ (IsOid id → id = lockName cfg.sha l.path)) := by
  cases h with
  | refused => exact ⟨fun _ => .inl rfl, fun _ h => .inl h, fun _ h => .inl h⟩
  | @released l held ho _ hf _ =>
    refine ⟨fun _ => .inl rfl, fun l h => .inl (List.mem_filter.mp h).1, fun l' h => ?_⟩
    obtain ⟨id, rfl, hid⟩ := ho
    exact .inr ⟨id, rfl, fun h => absurd h hid⟩
  | @usual t t' ho ht ht' =>
    cases q with
    | nonsense code msg => exact ⟨fun _ => .inl rfl, fun _ h => .inl h, fun _ h => .inl h⟩
    | ask q =>
      cases q with
      | version => exact ⟨fun _ => .inl rfl, fun _ h => .inl h, fun _ h => .inl h⟩
      | quit => exact ⟨fun _ => .inl rfl, fun _ h => .inl h, fun _ h => .inl h⟩
      | batch => exact ⟨fun _ => .inl rfl, fun _ h => .inl h, fun _ h => .inl h⟩
      | verify oid n =>
        have : (reply cfg mode s t t' (.ask (.verify oid n))).2 = s := by
          simp only [reply, answer]
          split
          · rfl
          · split <;> rfl
        rw [this]
        exact ⟨fun _ => .inl rfl, fun _ h => .inl h, fun _ h => .inl h⟩
      | get oid =>
        have : (reply cfg mode s t t' (.ask (.get oid))).2 = s := by
          simp only [reply, answer]
          split <;> rfl
        rw [this]
        exact ⟨fun _ => .inl rfl, fun _ h => .inl h, fun _ h => .inl h⟩
      | listLocks p c n =>
        have : (reply cfg mode s t t' (.ask (.listLocks p c n))).2 = s := by
          simp only [reply, answer]
          cases p with
          | none => rfl
          | some p =>
            simp only
            split
            · rfl
            · split
              · rfl
              · split <;> rfl
        rw [this]
        exact ⟨fun _ => .inl rfl, fun _ h => .inl h, fun _ h => .inl h⟩
      | put oid n data =>
        simp only [reply, answer]
        cases hp : putError cfg oid n data with
        | some m => exact ⟨fun _ => .inl rfl, fun _ h => .inl h, fun _ h => .inl h⟩
        | none =>
          refine ⟨fun o => ?_, fun _ h => .inl h, fun _ h => .inl h⟩
          by_cases he : o = oid
          · subst he
            refine .inr ⟨n, data, rfl, ?_, ?_, by simp⟩
            · by_contra hne
              unfold putError at hp
              rcases Nat.lt_or_gt_of_ne hne with h | h
              · simp [h] at hp
              · simp [h, Nat.not_lt.mpr (Nat.le_of_lt h)] at hp
            · by_contra hne
              unfold putError at hp
              simp only [hne, if_false] at hp
              split at hp
              · cases hp
              · split at hp <;> cases hp
          · exact .inl (by simp [he])
      | lock path =>
        simp only [reply, answer]
        cases hf : s.find cfg (lockName cfg.sha path) with
        | some l =>
          simp only
          split <;> exact ⟨fun _ => .inl rfl, fun _ h => .inl h, fun _ h => .inl h⟩
        | none =>
          refine ⟨fun _ => .inl rfl, fun l h => ?_, fun l h => ?_⟩
          · rcases mem_insertLock.mp h with rfl | h
            · exact .inr ⟨rfl, rfl, hf⟩
            · exact .inl h
          · exact .inl (mem_insertLock.mpr (.inr h))
      | unlock id =>
        simp only [reply, answer]
        cases hf : s.find cfg id with
        | none => exact ⟨fun _ => .inl rfl, fun _ h => .inl h, fun _ h => .inl h⟩
        | some held =>
          refine ⟨fun _ => .inl rfl, fun l h => .inl (List.mem_filter.mp h).1, fun l h => ?_⟩
          by_cases he : lockName cfg.sha l.path = id
          · exact .inr ⟨id, rfl, fun _ => he.symm⟩
          · exact .inl (List.mem_filter.mpr ⟨h, by simpa using he⟩)

/-- **C77.** So an object changes only by an upload of data with its hash, and none goes away. Only `lock` makes a lock, of
the path it names and for this user; and only `unlock` removes one, and if its argument is an ID, it is that of the lock. -/
theorem C77_effects {qs : List Said} {ws : List Bytes} {s' : Store} (h : Dealt cfg mode ch s qs ws s') :
    (∀ oid, s'.objs oid = s.objs oid ∨ ∃ n data, .ask (.put oid n data) ∈ qs ∧ data.length = n ∧ hex (cfg.sha data) = oid ∧
      s'.objs oid = some data) ∧
    (∀ l ∈ s'.locks, l ∈ s.locks ∨ .ask (.lock l.path) ∈ qs ∧ l.uid = cfg.uid) ∧
    (∀ l ∈ s.locks, l ∈ s'.locks ∨ ∃ id, .ask (.unlock id) ∈ qs ∧ (IsOid id → id = lockName cfg.sha l.path)) := by
  induction h with
  | nil => exact ⟨fun _ => .inl rfl, fun _ h => .inl h, fun _ h => .inl h⟩
  | @cons s s1 s2 q qs a w ws ha _ _ ih =>
    obtain ⟨i1, i2, i3⟩ := ih
    obtain ⟨j1, j2, j3⟩ := served_effects ha
    refine ⟨fun oid => ?_, fun l hl => ?_, fun l hl => ?_⟩
    · rcases i1 oid with h | ⟨n, data, h1, h2, h3, h4⟩
      · rcases j1 oid with h' | ⟨n, data, rfl, h2, h3, h4⟩
        · exact .inl (h.trans h')
        · exact .inr ⟨n, data, by simp, h2, h3, h.trans h4⟩
      · exact .inr ⟨n, data, by simp [h1], h2, h3, h4⟩
    · rcases i2 l hl with h | ⟨h1, h2⟩
      · rcases j2 l h with h | ⟨rfl, h2, _⟩
        · exact .inl h
        · exact .inr ⟨by simp, h2⟩
      · exact .inr ⟨by simp [h1], h2⟩
    · rcases j3 l hl with h | ⟨id, rfl, h2⟩
      · rcases i3 l h with h | ⟨id, h1, h2⟩
        · exact .inl h
        · exact .inr ⟨id, by simp [h1], h2⟩
      · exact .inr ⟨id, by simp, h2⟩

/-- **C77.** Whatever bytes arrive, and whenever the server is killed: each object is what it was, or data with its hash,
and no object has gone. -/
theorem C77_objects (hc : ∀ n, (ch n).fault = none) (hsha : ∀ b, (cfg.sha b).length = 32)
    (hclk : ∀ t, Clock cfg ch t → TimeOk cfg t) {w : World} (hr : Rep cfg s w.fs) (hp : r.pending = [])
    (hck : r.checked = false) (hfin : r.fin.kind = .unexpectedEof) (n : Nat) {oid : Bytes} (ho : IsOid oid) :
    (stopped ch n (mainProg cfg (Mode.operation mode) r) w).fs.content (objectFile cfg.root oid) =
      w.fs.content (objectFile cfg.root oid) ∨
    ∃ data, (stopped ch n (mainProg cfg (Mode.operation mode) r) w).fs.content (objectFile cfg.root oid) = some data ∧
      hex (cfg.sha data) = oid := by
  obtain ⟨qs, e, hs⟩ := sense_total (mode := mode) (text := r.fin.text) r.input
  obtain ⟨k, ws, s', h1, _, h3⟩ := C77_stopped hc hsha hclk hs hr hp hck hfin n
  have hobj : (stopped ch n (mainProg cfg (Mode.operation mode) r) w).fs.content (objectFile cfg.root oid) = s'.objs oid := by
    rcases h3 with h | ⟨path, _, _, h, _⟩
    · exact h.objs oid ho
    · rw [← h.objs oid ho]
      have hne : objectFile cfg.root oid ≠ halfLock cfg path := Ne.symm (lock_ne_object cfg.root _ _)
      unfold FS.content
      rw [FS.get_delName, if_neg hne]
      rfl
  rw [hobj, hr.objs oid ho]
  rcases (C77_effects h1).1 oid with h | ⟨_, data, _, _, h5, h6⟩
  · exact .inl h
  · exact .inr ⟨data, h6, h5⟩

/-! ### Examples -/

namespace Tests

/-- `unlock ./ID`, which is no ID but names the file of a lock. -/
def dotWire : Bytes := b!"004eunlock ./" ++ idF ++ b!"\n" ++ b!"0000"

end Tests

open Tests in
/-- It releases this lock. -/
example : Rep Tests.cfg sL fsL ∧
    ((mainProg Tests.cfg b!"upload" (readerAt b!"eof" dotWire)).run calm ⟨fsL, [], 0⟩).1 = ⟨0, []⟩ ∧
    ((mainProg Tests.cfg b!"upload" (readerAt b!"eof" dotWire)).run calm ⟨fsL, [], 0⟩).2.fs.get (lockFile Tests.cfg.root idF) = none ∧
    ((mainProg Tests.cfg b!"upload" (readerAt b!"eof" dotWire)).run calm ⟨fsL, [], 0⟩).2.fs.get (lockFile Tests.cfg.root idG) = some 2 := by
  refine ⟨repL, ?_, ?_, ?_⟩ <;> decide +kernel

namespace Tests

/-- To upload `data`, and then release the lock whose record is the file in which it is stored. -/
def forged (data : Bytes) : Bytes :=
  let oid := hex (Tests.cfg.sha data)
  enc [.data (b!"put-object " ++ oid ++ b!"\n"), .data (argLine b!"size" (decimal data.length)), .delim, .data data, .flush] ++
  enc [.data (b!"unlock ../objects/" ++ oid.take 2 ++ b!"/" ++ (oid.drop 2).take 2 ++ b!"/" ++ oid ++ b!"\n"), .flush]

/-- As `chrono` does, it cannot format times after the year 262142. -/
def cfgYears : Cfg := { Tests.cfg with fmtTime := fun t => if t ≤ 8210266876799 then rfc3339 t else none }

theorem repYears : Rep cfgYears sA fsA := { repA with times := by simp [sA] }

end Tests

open Tests in
/-- The reply need not be what the record of the released lock says: user 0 holds the lock of `g:h`, since another time. -/
example : ((mainProg Tests.cfg b!"upload" (readerAt b!"eof" (forged b!"v1:0:g:h"))).run calm ⟨fsL, [], 0⟩).1 = ⟨0, []⟩ ∧
    ((mainProg Tests.cfg b!"upload" (readerAt b!"eof" (forged b!"v1:0:g:h"))).run calm ⟨fsL, [], 0⟩).2.fs.get
      (lockFile Tests.cfg.root idG) = none ∧
    ((mainProg Tests.cfg b!"upload" (readerAt b!"eof" (forged b!"v1:0:g:h"))).run calm ⟨fsL, [], 0⟩).2.out =
      b!"000eversion=1\n0000" ++ b!"000fstatus 200\n0000" ++
      (b!"000fstatus 200\n0048id=caff15e9a197f2eab42a25d9a020ef28019b5c289e31a01937465a911a1d91c5\n000dpath=g:h\n" ++
        b!"0028locked-at=1970-01-01T00:00:00+00:00\n0018ownername=test user\n0000") := by
  refine ⟨?_, ?_, ?_⟩ <;> decide +kernel

open Tests in
/-- And the server can be made to panic. The upload is answered, and stored. -/
example : Rep cfgYears sA fsA ∧
    ((mainProg cfgYears b!"upload" (readerAt b!"eof" (forged b!"v1:8210266876800:f"))).run calm ⟨fsA, [], 0⟩).1 = ⟨101, []⟩ ∧
    ((mainProg cfgYears b!"upload" (readerAt b!"eof" (forged b!"v1:8210266876800:f"))).run calm ⟨fsA, [], 0⟩).2.out =
      b!"000eversion=1\n0000" ++ b!"000fstatus 200\n0000" := by
  refine ⟨repYears, ?_, ?_⟩ <;> decide +kernel

open Tests in
/-- The hypotheses of C77 are met. -/
example (input : Bytes) : ∃ qs e ws s', Sense .upload b!"eof" qs e input ∧
    CourseOf Tests.cfg .upload calm sL qs e ws s' ((mainProg Tests.cfg b!"upload" (readerAt b!"eof" input)).run calm ⟨fsL, [], 0⟩).1 ∧
    ((mainProg Tests.cfg b!"upload" (readerAt b!"eof" input)).run calm ⟨fsL, [], 0⟩).2.out = b!"000eversion=1\n0000" ++ ws.flatten ∧
    Rep Tests.cfg s' ((mainProg Tests.cfg b!"upload" (readerAt b!"eof" input)).run calm ⟨fsL, [], 0⟩).2.fs :=
  C77_session (mode := .upload) (r := readerAt b!"eof" input) (w := ⟨fsL, [], 0⟩) (fun _ => rfl) sha_len
    (fun t h => by rcases h with h | ⟨h, _⟩ <;> cases h; unfold TimeOk; decide +kernel) repL rfl rfl rfl

end Verif
