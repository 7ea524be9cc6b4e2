import Verif.Props.System
import Verif.Props.Objects
import Verif.Spec.Power
/-!
Property C68: stored objects and a power failure.

In full: an upload answered with 200 is intact after a power failure. This is false for the code, since it never calls
`fsync` (`C68_lost`, `C68_damaged`). Proved: an object not uploaded since the last sync is intact
(`C68_kept_partial`); what is found of an object is a prefix of it (`C68_prefix_partial`); `verify-object` notices what
is missing and a new upload repairs it (`C68_noticed_partial`, `C68_repair_partial`), but `batch` reports the object as
present (`C68_unnoticed`).
-/
namespace Verif
open Spec

theorem Spec.PowerLoss.get {a fs fs' : FS} (h : PowerLoss a fs fs') (p : Path) : fs'.get p = fs.get p := by
  unfold FS.get; rw [h.names]

/-- An object path stands for the same file, unless a file was renamed to it. -/
theorem object_name_step {root : Path} {sha : Bytes → Bytes} {s s' : Sys} {ow : Nat → Own}
    {l : Option (Nat × Event)} (hg : Good root sha s ow) (hl : Step root s l s') (oid : Bytes) :
    s'.fs.get (objPath root oid) = s.fs.get (objPath root oid) ∨
      ∃ i src, l = some (i, ⟨.rename src (objPath root oid), .ok ()⟩) := by
  obtain ⟨hi, hw⟩ := hg
  have nL : ∀ x, objPath root oid ≠ locksDir root ++ [x] := fun x h => locks_ne_obj root x oid h.symm
  have nT : ∀ x, objPath root oid ≠ incompleteDir root ++ [x] := fun x h => incomplete_ne_obj root x oid h.symm
  cases hl with
  | writeSome i ino b n k hp => exact .inl rfl
  | mkdirSome i p n e k hp => exact .inl rfl
  | kill i => exact .inl rfl
  | elsewhere fs' he => exact .inl (he.get (near_of_prefix (objPath_below root oid)))
  | call i o k c hp =>
    obtain ⟨cfg, rfl, rfl, hwi⟩ := hw i
    rw [hp] at hwi
    have hm : (ow i).may cfg o := hwi.1
    cases o with
    | createTemp d pre uid =>
      left
      obtain ⟨rfl, _⟩ := hm
      simp only [sem]; split
      · rfl
      · split
        · rw [FS.get_create]
          have : ∃ n, FS.freshName s.fs (incompleteDir cfg.root) (pre ++ c.rand) = incompleteDir cfg.root ++ [n] := by
            unfold FS.freshName; dsimp only; split <;> exact ⟨_, rfl⟩
          obtain ⟨n, hn⟩ := this
          rw [hn, if_neg (nT n)]
        · rfl
    | createNew p uid =>
      left
      obtain ⟨x, rfl⟩ := hm
      simp only [sem]; split
      · rfl
      · split
        · rfl
        · split
          · have : objPath cfg.root oid ≠ lockTemp cfg x := nL _
            rw [FS.get_create, if_neg this]
          · rfl
    | rename a b =>
      obtain ⟨ino, d, ht, hv, rfl⟩ := hm
      obtain ⟨hg, ⟨n, hn⟩, hd⟩ := hi.tmp i a ino _ ht
      by_cases hb : objPath cfg.root (hexEncode (cfg.sha d)) = objPath cfg.root oid
      · rw [hb]
        simp only [sem, hg]
        split
        · exact .inl rfl
        · split
          · exact .inl rfl
          · split
            · exact .inl rfl
            · split
              · exact .inl rfl
              · exact .inr ⟨i, a, rfl⟩
      · left
        simp only [sem, hg]
        split
        · rfl
        · split
          · rfl
          · split
            · rfl
            · split
              · rfl
              · rw [FS.get_setName, if_neg (fun e => hb e.symm), FS.get_delName, if_neg (by rw [hn]; exact nT n)]
    | link a b =>
      left
      obtain ⟨x, t, j, rfl, rfl, _⟩ := hm
      simp only [sem]; split
      · rfl
      · split
        · rfl
        · split
          · rfl
          · split
            · rfl
            · have : objPath cfg.root oid ≠ lockPath cfg x := nL _
              rw [FS.get_setName, if_neg this]
    | unlink p =>
      left
      have hne : objPath cfg.root oid ≠ p := by
        rcases hm with ⟨j, c', ht⟩ | ⟨x, ⟨rfl, _⟩ | rfl⟩
        · obtain ⟨_, ⟨n, hn⟩, _⟩ := hi.tmp i p j _ ht
          rw [hn]; exact nT n
        · exact nL _
        · exact nL _
      simp only [sem]; split
      · rfl
      · split
        · rw [FS.get_delName, if_neg hne]
        · split <;> rfl
    | write j b => left; simp only [sem]; split <;> rfl
    | mkdirAll p => left; simp only [sem]; (repeat' split) <;> rfl
    | chmod p m => left; simp only [sem]; (repeat' split) <;> rfl
    | stat p => left; simp only [sem]; (repeat' split) <;> rfl
    | openRead p => left; simp only [sem]; (repeat' split) <;> rfl
    | fstat p => left; simp only [sem]; (repeat' split) <;> rfl
    | readAll p => left; simp only [sem]; (repeat' split) <;> rfl
    | readDir p => left; simp only [sem]; (repeat' split) <;> rfl
    | now => exact .inl rfl
    | out b => left; simp only [sem]; (repeat' split) <;> rfl
    | flush => left; simp only [sem]; (repeat' split) <;> rfl

/-- The same for any number of steps. -/
theorem object_name_steps {root : Path} {sha : Bytes → Bytes} {s s' : Sys} {ow : Nat → Own}
    {tr : List (Nat × Event)} (hg : Good root sha s ow) (h : Steps root s tr s') (oid : Bytes)
    (hn : ∀ i src, (i, (⟨.rename src (objectFile root oid), .ok ()⟩ : Event)) ∉ tr) :
    s'.fs.get (objectFile root oid) = s.fs.get (objectFile root oid) := by
  rw [objectFile_eq] at *
  induction h with
  | refl => rfl
  | tail hs hl ih =>
    obtain ⟨ow', hg', _⟩ := hg.steps hs
    rcases object_name_step hg' hl oid with e | ⟨i, src, e⟩
    · exact e.trans (ih fun i src hm => hn i src (by simp [hm]))
    · exact absurd (by simp [e]) (hn i src)

/-- **C68**, what is true: an object to which no file was renamed since the last sync is intact after a power failure,
whatever the servers were doing and whenever it came. Missing: objects uploaded since. -/
theorem C68_kept_partial {root : Path} {sha : Bytes → Bytes} {s0 s s' : Sys} {tr tr' : List (Nat × Event)} {fs' : FS}
    (h0 : Start root sha s0) (h : Steps root s0 tr s) (h' : Steps root s tr' s') (hp : PowerLoss s.fs s'.fs fs')
    (oid : Bytes) (hn : ∀ i src, (i, (⟨.rename src (objectFile root oid), .ok ()⟩ : Event)) ∉ tr') :
    fs'.content (objectFile root oid) = s.fs.content (objectFile root oid) := by
  obtain ⟨ow, hg, _⟩ := (Good.start h0).steps h
  have e := object_name_steps hg h' oid hn
  unfold FS.content
  rw [hp.get, e]
  cases hj : s.fs.get (objectFile root oid) with
  | none => rfl
  | some j =>
    have hd := object_handle_stable h0 h h' oid j hj
    have h1 := hp.cut j
    have h2 := hp.kept j (hg.1.bound _ _ hj) (by rw [hd]; exact List.prefix_refl _)
    rw [hd] at h1
    simp [h1.eq_of_length_le h2.length_le]

/-- **C68**, what is true: after a power failure every object file holds a prefix of content with the right hash. -/
theorem C68_prefix_partial {root : Path} {sha : Bytes → Bytes} {s0 s : Sys} {tr : List (Nat × Event)} {synced fs' : FS}
    (h0 : Start root sha s0) (h : Steps root s0 tr s) (hp : PowerLoss synced s.fs fs')
    (hi : ∀ oid c, IsOid oid → s0.fs.content (objectFile root oid) = some c → hex (sha c) = oid) :
    ∀ oid c, IsOid oid → fs'.content (objectFile root oid) = some c → ∃ d, c <+: d ∧ hex (sha d) = oid := by
  intro oid c ho hc
  unfold FS.content at hc
  rw [hp.get] at hc
  obtain ⟨j, hj, rfl⟩ := Option.map_eq_some_iff.mp hc
  exact ⟨(s.fs.inodes j).data, hp.cut j, C12_integrity h0 h hi oid _ ho (by simp [FS.content, hj])⟩

section
variable {cfg : Cfg} {mode : Mode} {ch : Nat → Choice} {st : Store} {rest : Bytes} {r : Rdr} {w : World}

/-- What is left of a file. -/
theorem Spec.PowerLoss.content {a fs fs' : FS} (h : PowerLoss a fs fs') {p : Path} {d : Bytes}
    (hd : fs.content p = some d) : ∃ d', fs'.content p = some d' ∧ d' <+: d := by
  unfold FS.content at *
  rw [h.get]
  obtain ⟨j, hj, rfl⟩ := Option.map_eq_some_iff.mp hd
  exact ⟨_, by simp [hj], h.cut j⟩

/-- **C68**, what is true: `verify-object` with the true size answers 200 if nothing of the object is missing, and
otherwise 409. -/
theorem C68_noticed_partial {synced fs : FS} {oid d : Bytes} (hp : PowerLoss synced fs w.fs)
    (hd : fs.content (objectFile cfg.root oid) = some d) (h : Next cfg mode ch st (.verify oid d.length) rest r w) :
    OneReply cfg mode ch rest r w fun reply fs' => fs' = w.fs ∧
      (w.fs.content (objectFile cfg.root oid) = some d ∧ reply.code = 200 ∨
       w.fs.content (objectFile cfg.root oid) ≠ some d ∧ reply.code = 409) := by
  obtain ⟨d', h1, h2⟩ := hp.content hd
  obtain ⟨g, reply, b, k1, k2, k3, k4, k5⟩ := C18_verify_exact h
  refine ⟨g, reply, b, k1, k2, k3, k4, ?_⟩
  rw [h1] at k5 ⊢
  have k5 : reply.code = if d'.length = d.length then 200 else 409 := k5
  by_cases hl : d'.length = d.length
  · rw [if_pos hl] at k5
    exact .inl ⟨by rw [h2.eq_of_length hl], k5⟩
  · rw [if_neg hl] at k5
    exact .inr ⟨fun e => hl (by cases e; rfl), k5⟩

/-- **C68**, what is true: uploading the object once more repairs it, whatever was lost. -/
theorem C68_repair_partial {synced fs : FS} {oid d : Bytes} (_ : PowerLoss synced fs w.fs)
    (hh : hex (cfg.sha d) = oid) (h : Next cfg mode ch st (.put oid d.length d) rest r w) :
    OneReply cfg mode ch rest r w fun reply fs' =>
      reply.code = 200 ∧ fs'.content (objectFile cfg.root oid) = some d := by
  obtain ⟨g, reply, b, k1, k2, k3, k4, k5⟩ := C13_put_exact h
  rw [if_pos ⟨rfl, hh⟩] at k5
  exact ⟨g, reply, b, k1, k2, k3, k5.1, k5.2.1⟩

/-- Against **C68**: `batch` tells a client which wants to upload that nothing is to be done, whatever was lost of the
object; the only hint is the size. -/
theorem C68_unnoticed {synced fs : FS} {oid d : Bytes} {n : Nat} (hp : PowerLoss synced fs w.fs)
    (hd : fs.content (objectFile cfg.root oid) = some d) (h : Next cfg .upload ch st (.batch [(oid, n)]) rest r w) :
    OneReply cfg .upload ch rest r w fun reply _ => reply.code = 200 ∧ ∃ d' ds, d' <+: d ∧
      w.fs.content (objectFile cfg.root oid) = some d' ∧ reply.data = some ds ∧
      LinesPackets [oid ++ b!" " ++ decimal d'.length ++ b!" noop\n"] ds := by
  obtain ⟨d', h1, h2⟩ := hp.content hd
  obtain ⟨g, reply, b, k1, k2, k3, k4, k5, k6, ds, k7, k8⟩ := C19_batch_exact h
  refine ⟨g, reply, b, k1, k2, k3, k5, d', ds, h2, h1, k7, ?_⟩
  simpa [h1, batchAction, List.append_assoc] using k8
end

/-! ### Refutation and witnesses -/

/-- A power failure in which all files made since `a` lose all but `k` bytes. -/
def lossTo (a : FS) (k : Nat) (fs : FS) : FS :=
  { fs with inodes := fun i => if i < a.next then fs.inodes i else { fs.inodes i with data := (fs.inodes i).data.take k } }

theorem lossTo_powerLoss (a : FS) (k : Nat) (fs : FS) : PowerLoss a fs (lossTo a k fs) where
  names := rfl
  dirs := rfl
  next := rfl
  cut i := by
    simp only [lossTo]; split
    · exact List.prefix_refl _
    · exact List.take_prefix _ _
  kept i hi h := by simp only [lossTo, if_pos hi]; exact h
  uid i := by simp only [lossTo]; split <;> rfl
  mode i := by simp only [lossTo]; split <;> rfl

namespace Tests

/-- The upload of the object, and nothing else. -/
theorem upload_session : Session .upload [.put oidA 6 b!"abc123"] (enc (putA [b!"abc123"]) ++ []) :=
  .cons (putA_encodes [b!"abc123"] (by decide)) (frames_enc _ (by decide +kernel)) rfl (by simp) .eof

theorem lockOf_session (path : Bytes) (h : (lockOf path).all Packet.short = true) :
    Session .upload [.lock path] (enc (lockOf path) ++ []) :=
  .cons (lockOf_encodes path) (frames_enc _ h) rfl (by simp) .eof

/-- The files after the session, and what was sent. -/
def sessionOn (fs : FS) (wire : Bytes) : World := ((server cfg b!"upload" wire).run calm ⟨fs, [], 0⟩).2

end Tests

open Tests in
/-- Against **C68**: an upload is answered with 200, the power fails, and the object is an empty file. A client which
asks is then told that it is there. -/
theorem C68_lost : ∃ wire fs', Session .upload [.put oidA 6 b!"abc123"] wire ∧
    (sessionOn fs0 wire).out = b!"000eversion=1\n0000" ++ b!"000fstatus 200\n0000" ∧
    PowerLoss fs0 (sessionOn fs0 wire).fs fs' ∧
    fs'.content (objectFile cfg.root oidA) = some [] ∧
    (sessionOn fs' (enc batchAB)).out = b!"000eversion=1\n0000" ++
      (b!"000fstatus 200\n0001004c" ++ oidA ++ b!" 0 noop\n004f" ++ idF ++ b!" 42 upload\n0000") :=
  ⟨_, lossTo fs0 0 (sessionOn fs0 (enc (putA [b!"abc123"]) ++ [])).fs, upload_session, by decide +kernel,
    lossTo_powerLoss _ _ _, by decide +kernel, by decide +kernel⟩

open Tests in
/-- Against **C68**: an object safely on disk is damaged, since the same object is uploaded again and the power
fails. -/
theorem C68_damaged : ∃ wire fs', Session .upload [.put oidA 6 b!"abc123"] wire ∧
    fsA.content (objectFile cfg.root oidA) = some b!"abc123" ∧
    PowerLoss fsA (sessionOn fsA wire).fs fs' ∧
    fs'.content (objectFile cfg.root oidA) = some b!"abc" :=
  ⟨_, lossTo fsA 3 (sessionOn fsA (enc (putA [b!"abc123"]) ++ [])).fs, upload_session, by decide +kernel,
    lossTo_powerLoss _ _ _, by decide +kernel⟩

namespace Tests
/-- After a lock of `dir/file` the power fails, and the last two bytes of the lock file are lost. -/
def lockLoss : FS := lossTo fs0 19 (sessionOn fs0 (enc (lockOf b!"dir/file") ++ [])).fs
def unlockId (id : Bytes) : List Packet := [.data (b!"unlock " ++ id ++ b!"\n"), .flush]
end Tests

open Tests in
/-- The same for locks: a lock is granted and the power fails. Then another path is reported as locked, under an ID that
cannot be unlocked, and the path itself cannot be locked again. -/
theorem C68_lock_lost : ∃ wire fs', Session .upload [.lock b!"dir/file"] wire ∧
    b!"000fstatus 201\n" <:+: (sessionOn fs0 wire).out ∧
    PowerLoss fs0 (sessionOn fs0 wire).fs fs' ∧
    b!"path " ++ lockName cfg.sha b!"dir/f" ++ b!" dir/f\n" <:+: (sessionOn fs' (enc listAll)).out ∧
    b!"000fstatus 404\n" <:+: (sessionOn fs' (enc (unlockId (lockName cfg.sha b!"dir/f")))).out ∧
    b!"000fstatus 400\n" <:+: (sessionOn fs' (enc (lockOf b!"dir/file"))).out := by
  refine ⟨_, lockLoss, lockOf_session _ (by decide +kernel), ?_, lossTo_powerLoss _ _ _, ?_, ?_, ?_⟩
  all_goals decide +kernel

/-! ### The server goes on -/

/-- If no lock file was cut, the files found after a power failure represent a store, with the same locks and with what is
left of the objects; so everything proved about a server with such files holds after a power failure as well. -/
theorem rep_powerLoss {cfg : Cfg} {st : Store} {synced fs fs' : FS} (h : Rep cfg st fs) (hp : PowerLoss synced fs fs')
    (hl : ∀ n i, fs.get (lockFile cfg.root n) = some i → (fs'.inodes i).data = (fs.inodes i).data) :
    Rep cfg ⟨fun oid => fs'.content (objectFile cfg.root oid), st.locks⟩ fs' where
  objs _ _ := rfl
  locks l hm := by
    obtain ⟨i, h1, h2, h3⟩ := h.locks l hm
    exact ⟨i, by rw [hp.get]; exact h1, by rw [hl _ i h1]; exact h2, by rw [hp.uid]; exact h3⟩
  only n hn := h.only n (by rwa [hp.get] at hn)
  sorted := h.sorted
  times := h.times
  objFiles oid ho := by rw [hp.dirs]; exact h.objFiles oid ho
  lockFiles n := by rw [hp.dirs]; exact h.lockFiles n
  noFile d hd q hq := by rw [hp.get]; exact h.noFile d hd q hq
  nodup := by rw [hp.names]; exact h.nodup
  bound p i hi := by rw [hp.next]; exact h.bound p i (by rwa [hp.get] at hi)

theorem ready_powerLoss {cfg : Cfg} {synced fs fs' : FS} (h : Ready cfg fs) (hp : PowerLoss synced fs fs') :
    Ready cfg fs' := fun d hd => by rw [hp.dirs]; exact h d hd

namespace Tests

/-- Half of the object is lost. -/
def fsHalf : FS := lossTo fs0 3 fsA
theorem fsHalf_loss : PowerLoss fs0 fsA fsHalf := lossTo_powerLoss _ _ _
def sHalf : Store := ⟨fun oid => fsHalf.content (objectFile cfg.root oid), []⟩
theorem fsHalf_rep : Rep cfg sHalf fsHalf :=
  rep_powerLoss repA fsHalf_loss fun n i hi => by
    rw [getA, if_neg (lockFile_ne n oidA)] at hi; cases hi

/-- Non-vacuity of `C68_noticed_partial`, `C68_repair_partial` and `C68_unnoticed`. -/
example : fsA.content (objectFile cfg.root oidA) = some b!"abc123" ∧
    fsHalf.content (objectFile cfg.root oidA) = some b!"abc" ∧ hex (cfg.sha b!"abc123") = oidA := by decide +kernel
example : Next cfg .upload calm sHalf (.verify oidA (b!"abc123").length) b!"x" (seeing verifyA b!"x") ⟨fsHalf, [], 0⟩ :=
  next _ _ _ verifyA_encodes (by decide +kernel) rfl fsHalf_rep (ready_powerLoss readyA fsHalf_loss)
example : Next cfg .upload calm sHalf (.put oidA (b!"abc123").length b!"abc123") b!"x"
    (seeing (putA [b!"abc", b!"123"]) b!"x") ⟨fsHalf, [], 0⟩ :=
  next _ _ _ (putA_encodes [b!"abc", b!"123"] (by decide)) (by decide +kernel) rfl fsHalf_rep
    (ready_powerLoss readyA fsHalf_loss)
example : Next cfg .upload calm sHalf (.batch [(oidA, 6)]) b!"x"
    (seeing [.data b!"batch\n", .data b!"hash-algo=sha256\n", .delim, .data (oidA ++ b!" 6\n"), .flush] b!"x")
    ⟨fsHalf, [], 0⟩ :=
  next _ _ _ (.batch (kv := [(b!"hash-algo", b!"sha256")]) (ls := [oidA ++ b!" 6\n"]) (.inr rfl)
    (by unfold ArgsOk; decide) (by intro a h; cases h; rfl) (.cons oidA_ok num6 .nil)) (by decide +kernel) trivial
    fsHalf_rep (ready_powerLoss readyA fsHalf_loss)

/-- Non-vacuity of `C68_kept_partial`: the object was there, a lock is taken, and the power fails: the lock file is
empty, the object is not. -/
def lockWithObject : Sys := ⟨fsA, fun _ => server cfg b!"upload" b!"0009lock\n000bpath=f\n0011refname=main\n0000"⟩
example : Start cfg.root cfg.sha lockWithObject :=
  ⟨fun i => ⟨_, _, _, rfl, rfl, rfl⟩, fun p i h => repA.bound p i h, fun p i _ _ => (by decide +kernel :
    near cfg.root (objPath cfg.root oidA) = true)⟩
example : let x := lockWithObject.exec (List.replicate 60 (0, Choice.none))
    x.2.all (fun e => match e.2.1 with | .rename _ _ => false | _ => true) = true ∧
    x.1.fs.content (lockFile cfg.root idF) = some b!"v1:1000684800:f" ∧
    (lossTo fsA 0 x.1.fs).content (lockFile cfg.root idF) = some [] ∧
    (lossTo fsA 0 x.1.fs).content (objectFile cfg.root oidA) = some b!"abc123" := by decide +kernel

end Tests

end Verif
