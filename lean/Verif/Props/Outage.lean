import Verif.Props.Power
/-!
Property C68 for power failures in which names are lost as well: what is proved in `Props/Power.lean` about the content of
object files still holds, except that an object uploaded since the last sync may be missing.
-/
namespace Verif
open Spec

/-- The system was in the state `m` on the way from `s` to `s'`. -/
def Passed (root : Path) (s : Sys) (tr : List (Nat × Event)) (s' : Sys) (m : FS) : Prop :=
  ∃ (mid : Sys) (t t' : List (Nat × Event)), Steps root s t mid ∧ Steps root mid t' s' ∧ tr = t ++ t' ∧ mid.fs = m

/-- `PowerLoss` is the case in which no name is lost. -/
theorem PowerLoss.outage {synced fs fs' : FS} (h : PowerLoss synced fs fs') : Outage [fs] synced fs fs' :=
  ⟨fun p => ⟨fs, by simp, h.get p⟩, h.cut, h.kept⟩

theorem Passed.last {root : Path} {s s' : Sys} {tr : List (Nat × Event)} (h : Steps root s tr s') : Passed root s tr s' s'.fs :=
  ⟨s', tr, [], h, .refl, by simp, rfl⟩

/-- **C68**, what is true when names may be lost: an object to which no file was renamed since the last sync is intact
after a power failure. Missing: objects uploaded since. -/
theorem C68_outage_kept_partial {root : Path} {sha : Bytes → Bytes} {s0 s s' : Sys} {tr tr' : List (Nat × Event)}
    {moments : List FS} {fs' : FS} (h0 : Start root sha s0) (h : Steps root s0 tr s) (h' : Steps root s tr' s')
    (hm : ∀ m ∈ moments, Passed root s tr' s' m) (hp : Outage moments s.fs s'.fs fs')
    (oid : Bytes) (hn : ∀ i src, (i, (⟨.rename src (objectFile root oid), .ok ()⟩ : Event)) ∉ tr') :
    fs'.content (objectFile root oid) = s.fs.content (objectFile root oid) := by
  obtain ⟨ow, hg, _⟩ := (Good.start h0).steps h
  obtain ⟨m, h1, h2⟩ := hp.name (objectFile root oid)
  obtain ⟨mid, t, t', k1, _, rfl, rfl⟩ := hm m h1
  have e := object_name_steps hg k1 oid fun i src hx => hn i src (List.mem_append_left _ hx)
  unfold FS.content
  rw [h2, e]
  cases hj : s.fs.get (objectFile root oid) with
  | none => rfl
  | some j =>
    have hd := object_handle_stable h0 h h' oid j hj
    have h1 := hp.cut j
    have h2 := hp.kept j (hg.1.bound _ _ hj) (by rw [hd]; exact List.prefix_refl _)
    rw [hd] at h1
    simp [h1.eq_of_length_le h2.length_le]

/-- **C68**, what is true when names may be lost: after a power failure every object file holds a prefix of content with
the right hash. -/
theorem C68_outage_prefix_partial {root : Path} {sha : Bytes → Bytes} {s0 s s' : Sys} {tr tr' : List (Nat × Event)}
    {moments : List FS} {synced fs' : FS} (h0 : Start root sha s0) (h : Steps root s0 tr s)
    (hm : ∀ m ∈ moments, Passed root s tr' s' m) (hp : Outage moments synced s'.fs fs')
    (hi : ∀ oid c, IsOid oid → s0.fs.content (objectFile root oid) = some c → hex (sha c) = oid) :
    ∀ oid c, IsOid oid → fs'.content (objectFile root oid) = some c → ∃ d, c <+: d ∧ hex (sha d) = oid := by
  intro oid c ho hc
  unfold FS.content at hc
  obtain ⟨m, h1, h2⟩ := hp.name (objectFile root oid)
  obtain ⟨mid, t, t', k1, k2, rfl, rfl⟩ := hm m h1
  rw [h2] at hc
  obtain ⟨j, hj, rfl⟩ := Option.map_eq_some_iff.mp hc
  have hs := h.trans k1
  refine ⟨(s'.fs.inodes j).data, hp.cut j, ?_⟩
  rw [object_handle_stable h0 hs k2 oid j hj]
  exact C12_integrity h0 hs hi oid _ ho (by simp [FS.content, hj])

/-- **C68**, what is true when names may be lost: an object that was stored at the last sync is there after a power
failure, though perhaps damaged by a later upload of the same object. -/
theorem C68_outage_there_partial {root : Path} {sha : Bytes → Bytes} {s0 s s' : Sys} {tr tr' : List (Nat × Event)}
    {moments : List FS} {synced fs' : FS} (h0 : Start root sha s0) (h : Steps root s0 tr s)
    (hm : ∀ m ∈ moments, Passed root s tr' s' m) (hp : Outage moments synced s'.fs fs')
    (oid c : Bytes) (hc : s.fs.content (objectFile root oid) = some c) (hh : hex (sha c) = oid) :
    ∃ c', fs'.content (objectFile root oid) = some c' := by
  obtain ⟨m, h1, h2⟩ := hp.name (objectFile root oid)
  obtain ⟨mid, t, t', k1, k2, rfl, rfl⟩ := hm m h1
  obtain ⟨c', h3, _⟩ := C22_never_deleted h0 h k1 oid c hc hh
  unfold FS.content at h3 ⊢
  obtain ⟨j, hj, _⟩ := Option.map_eq_some_iff.mp h3
  exact ⟨_, by rw [h2, hj]; rfl⟩

/-- **C68**, what is true when names may be lost: a server that is started afterwards answers a `verify-object` with the
true size by 200 if the object is intact, by 409 if its end is missing, by 404 if it is missing. (`n` is the true size:
all content with this hash has it.) -/
theorem C68_outage_noticed_partial {cfg : Cfg} {mode : Mode} {ch : Nat → Choice} {st : Store} {rest : Bytes} {r : Rdr}
    {w : World} {s0 s s' : Sys} {tr tr' : List (Nat × Event)} {moments : List FS} {synced : FS}
    (h0 : Start cfg.root cfg.sha s0) (h : Steps cfg.root s0 tr s) (hm : ∀ m ∈ moments, Passed cfg.root s tr' s' m)
    (hp : Outage moments synced s'.fs w.fs)
    (hi : ∀ oid c, IsOid oid → s0.fs.content (objectFile cfg.root oid) = some c → hex (cfg.sha c) = oid)
    {oid : Bytes} {n : Nat} (ho : IsOid oid) (hu : ∀ d, hex (cfg.sha d) = oid → d.length = n)
    (hr : Next cfg mode ch st (.verify oid n) rest r w) :
    OneReply cfg mode ch rest r w fun reply fs' => fs' = w.fs ∧
      ((∃ d, w.fs.content (objectFile cfg.root oid) = some d ∧ hex (cfg.sha d) = oid ∧ reply.code = 200) ∨
       (∃ c d, w.fs.content (objectFile cfg.root oid) = some c ∧ c <+: d ∧ c ≠ d ∧ hex (cfg.sha d) = oid ∧ reply.code = 409) ∨
       w.fs.content (objectFile cfg.root oid) = none ∧ reply.code = 404) := by
  obtain ⟨g, reply, b, k1, k2, k3, k4, k5⟩ := C18_verify_exact hr
  refine ⟨g, reply, b, k1, k2, k3, k4, ?_⟩
  cases hc : w.fs.content (objectFile cfg.root oid) with
  | none =>
    rw [hc] at k5
    exact .inr (.inr ⟨rfl, k5⟩)
  | some c =>
    rw [hc] at k5
    have k5 : reply.code = if c.length = n then 200 else 409 := k5
    obtain ⟨d, h1, h2⟩ := C68_outage_prefix_partial h0 h hm hp hi oid c ho hc
    by_cases hl : c.length = n
    · rw [if_pos hl] at k5
      have : c = d := h1.eq_of_length (by rw [hl, hu d h2])
      subst this
      exact .inl ⟨c, rfl, h2, k5⟩
    · rw [if_neg hl] at k5
      refine .inr (.inl ⟨c, d, rfl, h1, ?_, h2, k5⟩)
      rintro rfl
      exact hl (hu c h2)

namespace Tests

/-- The names that were not there at `a` are lost, and nothing else. -/
def forgetTo (a fs : FS) : FS := { fs with names := fs.names.filter fun x => (a.get x.1).isSome }

theorem alGet_filter (f : Path → Bool) (p : Path) : ∀ l : List (Path × Ino),
    alGet (l.filter fun x => f x.1) p = if f p then alGet l p else none
  | [] => by simp [alGet]
  | (q, i) :: l => by
    have ih := alGet_filter f p l
    by_cases hq : q = p
    · subst hq
      by_cases hf : f q = true <;> simp [List.filter_cons, alGet, hf] <;> simpa [hf] using ih
    · by_cases hf : f q = true <;> simp [List.filter_cons, alGet, hf, hq, ih]

theorem forgetTo_outage (a fs : FS) : Outage [a, fs] a fs (forgetTo a fs) where
  name p := by
    have h : (forgetTo a fs).get p = if (a.get p).isSome then fs.get p else none :=
      alGet_filter (fun q => (a.get q).isSome) p fs.names
    rw [h]
    cases hp : a.get p with
    | none => exact ⟨a, by simp, by simp [hp]⟩
    | some i => exact ⟨fs, by simp, by simp⟩
  cut i := List.prefix_refl _
  kept i _ h := h

/-- A server takes a lock where an object was stored before. -/
def lockTaken : Sys × List (Nat × Event) := lockWithObject.exec (List.replicate 60 (0, Choice.none))

theorem lockTaken_passed : ∀ m ∈ [lockWithObject.fs, lockTaken.1.fs],
    Passed cfg.root lockWithObject lockTaken.2 lockTaken.1 m := by
  have hs : Steps cfg.root lockWithObject lockTaken.2 lockTaken.1 := Sys.exec_steps ..
  generalize lockTaken = x at hs
  intro m hm
  rcases List.mem_cons.mp hm with rfl | hm
  · exact ⟨lockWithObject, [], _, .refl, hs, rfl, rfl⟩
  · rw [List.mem_singleton.mp hm]
    exact Passed.last hs

/-- Non-vacuity of `C68_outage_kept_partial` and the others: the power fails, the lock is gone, the object is there. -/
example : Outage [lockWithObject.fs, lockTaken.1.fs] lockWithObject.fs lockTaken.1.fs
      (forgetTo lockWithObject.fs lockTaken.1.fs) ∧
    lockTaken.1.fs.content (lockFile cfg.root idF) = some b!"v1:1000684800:f" ∧
    (forgetTo lockWithObject.fs lockTaken.1.fs).content (lockFile cfg.root idF) = none ∧
    (forgetTo lockWithObject.fs lockTaken.1.fs).content (objectFile cfg.root oidA) = some b!"abc123" :=
  ⟨forgetTo_outage _ _, by decide +kernel⟩

end Tests

open Tests in
/-- Against **C68**: an upload is answered with 200, the power fails, and the object is not there. -/
theorem C68_vanished : ∃ wire, Session .upload [.put oidA 6 b!"abc123"] wire ∧
    (sessionOn fs0 wire).out = b!"000eversion=1\n0000" ++ b!"000fstatus 200\n0000" ∧
    (sessionOn fs0 wire).fs.content (objectFile cfg.root oidA) = some b!"abc123" ∧
    Outage [fs0, (sessionOn fs0 wire).fs] fs0 (sessionOn fs0 wire).fs fs0 ∧
    fs0.content (objectFile cfg.root oidA) = none := by
  refine ⟨_, upload_session, by decide +kernel, by decide +kernel, ⟨fun p => ⟨fs0, by simp, rfl⟩, fun i => ?_, fun i hi => ?_⟩, rfl⟩
  · exact List.nil_prefix
  · exact absurd hi (Nat.not_lt_zero _)

end Verif
