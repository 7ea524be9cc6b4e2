import Verif.Spec.Server
import Verif.Tests.Demo
import Verif.Props.Parsing
import Verif.Props.Pktline
import Verif.Lemmas.FS
/-! Concrete states that represent stores, for the witnesses beside the theorems. -/
namespace Verif.Tests
open Spec

theorem sha_len (b : Bytes) : (cfg.sha b).length = 32 := sha256_length b

theorem clock_ok (ch : Nat → Choice) (t : Int) (h : Clock cfg ch t) : TimeOk cfg t := by
  rcases h with h | ⟨h, _⟩
  · cases h
    exact ⟨by decide, by decide, by decide +kernel⟩
  · cases h

/-- A file system in which the only files are at deep object paths or lock paths, and whose
directories are no deeper than object directories. -/
structure Plain (fs : FS) : Prop where
  dirs : ∀ d ∈ fs.dirs, d.length ≤ 6 ∧ (d.length = 5 → d[3]? = some b!"objects")
  names : ∀ e ∈ fs.names, e.1.length = 7 ∨ (e.1.length = 5 ∧ e.1[3]? = some b!"locks")
  nodup : (fs.names.map (·.1)).Nodup
  bound : ∀ e ∈ fs.names, e.2 < fs.next

theorem get_mem {fs : FS} {p : Path} {i : Ino} (h : fs.get p = some i) : (p, i) ∈ fs.names := FS.alGet_mem h

theorem Plain.rep {fs : FS} {s : Store} (h : Plain fs)
    (objs : ∀ oid, IsOid oid → fs.content (objectFile cfg.root oid) = s.objs oid)
    (locks : ∀ l ∈ s.locks, ∃ i, fs.get (lockFile cfg.root (lockName cfg.sha l.path)) = some i ∧
      (fs.inodes i).data = lockText l ∧ (fs.inodes i).uid = l.uid)
    (only : ∀ n, (fs.get (lockFile cfg.root n)).isSome → ∃ l ∈ s.locks, n = lockName cfg.sha l.path)
    (sorted : s.locks.Pairwise fun l m => lockName cfg.sha l.path < lockName cfg.sha m.path)
    (times : ∀ l ∈ s.locks, TimeOk cfg l.time) : Rep cfg s fs where
  objs := objs
  locks := locks
  only := only
  sorted := sorted
  times := times
  objFiles oid _ hm := by
    have := (h.dirs _ hm).1
    simp [objectFile, objectDir, cfg] at this
  lockFiles n hm := by
    have := (h.dirs _ hm).2 (by simp [lockFile, cfg])
    revert this
    simp [lockFile, cfg]
  noFile d hd q hq := by
    rw [Option.eq_none_iff_forall_ne_some]
    intro i hi
    have h1 := h.names _ (get_mem hi)
    have hl : q.length ≤ d.length := hq.length_le
    rcases hd with hd | ⟨oid, _, rfl⟩
    · simp only [topDirs, List.mem_cons, List.not_mem_nil, or_false] at hd
      have : d.length = 4 := by rcases hd with rfl | rfl | rfl | rfl <;> simp [cfg]
      simp only at h1
      omega
    · have : (objectDir cfg.root oid).length = 6 := by simp [objectDir, cfg]
      rcases h1 with h1 | ⟨h1, h2⟩
      · simp only at h1; omega
      · obtain ⟨t, ht⟩ := hq
        have : (objectDir cfg.root oid)[3]? = some b!"locks" := by
          rw [← ht, List.getElem?_append_left (by simp only at h1; omega)]
          exact h2
        simp [objectDir, cfg] at this
  nodup := h.nodup
  bound p i hp := h.bound _ (get_mem hp)

/-- The repository before the server ever ran. -/
def s0 : Store := ⟨fun _ => none, []⟩

theorem rep0 : Rep cfg s0 fs0 := by
  refine Plain.rep ⟨by decide, by decide, by decide, by simp [fs0]⟩ ?_ (by simp [s0]) ?_ (by simp [s0]) (by simp [s0])
  · intro oid _; rfl
  · intro n hn; cases hn

/-- One object is stored. -/
def sA : Store := ⟨fun o => if o = oidA then some b!"abc123" else none, []⟩

theorem getA (p : Path) : fsA.get p = if p = objectFile cfg.root oidA then some 0 else none := by
  have : objectFile cfg.root oidA = objPath cfg.root oidA := by decide +kernel
  rw [this]
  simp only [FS.get, alGet, fsA]
  by_cases h : p = objPath cfg.root oidA
  · simp [h]
  · have h' : ¬objPath cfg.root oidA = p := fun e => h e.symm
    simp only [h, h', if_false]

theorem repA : Rep cfg sA fsA := by
  refine Plain.rep ⟨by decide +kernel, by decide +kernel, by decide +kernel, by simp [fsA]⟩ ?_ (by simp [sA]) ?_ (by simp [sA])
    (by simp [sA])
  · intro oid ho
    have : (objectFile cfg.root oid = objectFile cfg.root oidA) ↔ oid = oidA := by
      constructor
      · intro h
        have := congrArg (fun p => p[6]?) h
        simpa [objectFile, objectDir, cfg] using this
      · rintro rfl; rfl
    simp only [FS.content, getA, this, sA]
    by_cases h : oid = oidA <;> simp [h, fsA]
  · intro n hn
    rw [getA] at hn
    have : lockFile cfg.root n ≠ objectFile cfg.root oidA := by
      intro h
      have := congrArg List.length h
      simp [lockFile, objectFile, objectDir, cfg] at this
    simp [this] at hn

theorem readyA : Ready cfg fsA := by unfold Ready; decide +kernel

def idF : Bytes := b!"505c3f5e325539512980b5f6219054f673b91c53a82f47c03e1ba629a97c1c15"
def idG : Bytes := b!"caff15e9a197f2eab42a25d9a020ef28019b5c289e31a01937465a911a1d91c5"

theorem lockName_f : lockName cfg.sha b!"f" = idF := by decide +kernel
theorem lockName_g : lockName cfg.sha b!"g:h" = idG := by decide +kernel

/-- Two locks are held: `f` by user 1000 and `g:h` by user 0; and one object is stored. -/
def sL : Store :=
  ⟨sA.objs, [⟨b!"f", 1000684800, 1000⟩, ⟨b!"g:h", 5, 0⟩]⟩

def fsL : FS :=
  ⟨[(objectFile cfg.root oidA, 0), (lockFile cfg.root idF, 1), (lockFile cfg.root idG, 2)], fsA.dirs,
   fun i => if i = 0 then ⟨b!"abc123", 1000, 0o700, []⟩ else if i = 1 then ⟨b!"v1:1000684800:f", 1000, 0o700, []⟩
     else ⟨b!"v1:5:g:h", 0, 0o700, []⟩, 3⟩

theorem getL (p : Path) : fsL.get p = if p = objectFile cfg.root oidA then some 0
    else if p = lockFile cfg.root idF then some 1 else if p = lockFile cfg.root idG then some 2 else none := by
  simp only [FS.get, alGet, fsL, @eq_comm _ p]

theorem lockFile_inj {m n : Bytes} : lockFile cfg.root m = lockFile cfg.root n ↔ m = n := by
  constructor
  · intro h
    have := congrArg (fun p => p[4]?) h
    simpa [lockFile, cfg] using this
  · rintro rfl; rfl

theorem lockFile_ne (n o : Bytes) : lockFile cfg.root n ≠ objectFile cfg.root o := by
  intro h
  have := congrArg List.length h
  simp [lockFile, objectFile, objectDir, cfg] at this

theorem repL : Rep cfg sL fsL := by
  refine Plain.rep ⟨by decide +kernel, by decide +kernel, by decide +kernel, by simp [fsL]⟩ ?_ ?_ ?_ ?_ ?_
  · intro oid ho
    have : (objectFile cfg.root oid = objectFile cfg.root oidA) ↔ oid = oidA := by
      constructor
      · intro h
        have := congrArg (fun p => p[6]?) h
        simpa [objectFile, objectDir, cfg] using this
      · rintro rfl; rfl
    have h2 := fun n => (lockFile_ne n oid).symm
    simp only [FS.content, getL, this, h2, if_false, sL, sA]
    by_cases h : oid = oidA <;> simp [h, fsL]
  · simp only [sL, List.mem_cons, List.not_mem_nil, or_false, forall_eq_or_imp, forall_eq, lockName_f, lockName_g]
    refine ⟨⟨1, ?_, ?_, ?_⟩, ⟨2, ?_, ?_, ?_⟩⟩
    · simp [getL, lockFile_ne]
    · decide +kernel
    · rfl
    · simp only [getL, lockFile_ne, lockFile_inj, if_false, if_true]
      decide +kernel
    · decide +kernel
    · rfl
  · intro n hn
    simp only [getL, lockFile_ne, lockFile_inj, if_false] at hn
    simp only [sL, List.mem_cons, List.not_mem_nil, or_false, exists_eq_or_imp, exists_eq_left, lockName_f,
      lockName_g]
    by_cases h1 : n = idF
    · exact .inl h1
    · by_cases h2 : n = idG
      · exact .inr h2
      · simp [h1, h2] at hn
  · simp only [sL, List.pairwise_cons, List.mem_cons, List.not_mem_nil, or_false, forall_eq, lockName_f, lockName_g]
    exact ⟨by decide +kernel, by simp⟩
  · simp only [sL, List.mem_cons, List.not_mem_nil, or_false, forall_eq_or_imp, forall_eq]
    exact ⟨⟨by decide, by decide, by decide +kernel⟩, ⟨by decide, by decide, by decide +kernel⟩⟩

theorem readyL : Ready cfg fsL := readyA

/-! ### Requests as bytes -/

def enc (ps : List Packet) : Bytes := (ps.map encPacket).flatten

def Packet.short : Packet → Bool
  | .data d => d.length ≤ 65531
  | _ => true

theorem frames_enc : ∀ (ps : List Packet), ps.all Packet.short = true → Frames ps (enc ps)
  | [], _ => .nil
  | p :: ps, h => by
    simp only [List.all_cons, Bool.and_eq_true] at h
    refine .cons (frame_encPacket p ?_) (frames_enc ps h.2)
    rintro d rfl
    simpa [Packet.short] using h.1

/-- A reader about to see a request and then other bytes. -/
def seeing (ps : List Packet) (rest : Bytes) : Rdr := Rdr.new (enc ps ++ rest) eofErr false

theorem num6 : Num b!"6" 6 := ⟨by decide, .inl ((dec_iff _ _).mpr (by decide))⟩
theorem oidA_ok : IsOid oidA := by unfold IsOid; decide +kernel

theorem num42 : Num b!"0042" 42 := ⟨by decide, .inl ((dec_iff _ _).mpr (by decide))⟩
theorem idF_ok : IsOid idF := by unfold IsOid; decide +kernel

/-- Upload of the object, its data in the given packets. -/
def putA (ds : List Bytes) : List Packet :=
  [.data (b!"put-object " ++ oidA ++ b!"\n"), .data b!"size=6\n", .delim] ++ ds.map .data ++ [.flush]

theorem putA_encodes (ds : List Bytes) (h : ∀ d ∈ ds, d.length ≤ 65516) :
    Encodes (.put oidA 6 ds.flatten) (putA ds) :=
  .put (kv := [(b!"size", b!"6")]) oidA_ok (.inr rfl) (by unfold ArgsOk; decide) (by decide) num6 h rfl

def getA' : List Packet := [.data (b!"get-object " ++ oidA), .flush]
theorem getA_encodes : Encodes (.get oidA) getA' :=
  .get (kv := []) oidA_ok (.inl rfl) (by unfold ArgsOk; decide)

def verifyA : List Packet := [.data (b!"verify-object " ++ oidA), .data b!"size=+6\n", .flush]
theorem verifyA_encodes : Encodes (.verify oidA 6) verifyA :=
  .verify (kv := [(b!"size", b!"+6")]) oidA_ok (.inl rfl) (by unfold ArgsOk; decide) (by decide)
    ⟨by decide, .inr ⟨b!"6", rfl, (dec_iff _ _).mpr (by decide)⟩⟩

def batchAB : List Packet :=
  [.data b!"batch\n", .data b!"hash-algo=sha256\n", .delim, .data (oidA ++ b!" 6\n"), .data (idF ++ b!" 0042\n"),
   .flush]
theorem batchAB_encodes : Encodes (.batch [(oidA, 6), (idF, 42)]) batchAB :=
  .batch (kv := [(b!"hash-algo", b!"sha256")]) (ls := [oidA ++ b!" 6\n", idF ++ b!" 0042\n"]) (.inr rfl)
    (by unfold ArgsOk; decide) (by intro a h; cases h; rfl)
    (.cons oidA_ok num6 (.cons idF_ok num42 .nil))

def lockOf (path : Bytes) : List Packet :=
  .data b!"lock" :: argPackets [(b!"path", path), (b!"refname", b!"refs/heads/main")] ++ [.flush]
theorem lockOf_encodes (path : Bytes) : Encodes (.lock path) (lockOf path) :=
  .lock (ref := b!"refs/heads/main") (.inl rfl) ⟨by simp, by simp⟩
    (by simp [lookup]) (by simp [lookup])

def unlockF : List Packet := [.data (b!"unlock " ++ idF ++ b!"\n"), .flush]
theorem unlockF_encodes : Encodes (.unlock idF) unlockF := .unlock (kv := []) idF_ok (.inr rfl)

/-- `list-lock` with limit 1, possibly with a cursor. -/
def listOne : Option Bytes → List Packet
  | none => [.data b!"list-lock\n", .data b!"limit=1\n", .flush]
  | some c => [.data b!"list-lock\n", .data b!"limit=1\n", .data (b!"cursor=" ++ c ++ b!"\n"), .flush]
theorem num1 : Num b!"1" 1 := ⟨by decide, .inl ((dec_iff _ _).mpr (by decide))⟩
theorem listOne_encodes : (c : Option Bytes) → Encodes (.listLocks none c (some 1)) (listOne c)
  | none => .listLocks (kv := [(b!"limit", b!"1")]) (.inr rfl) (by unfold ArgsOk; decide)
      ⟨by decide, b!"1", by decide, num1⟩ (by decide) (by decide)
  | some c => .listLocks (kv := [(b!"limit", b!"1"), (b!"cursor", c)]) (.inr rfl)
      ⟨by simp, by simp⟩ ⟨by decide, b!"1", by simp [lookup], num1⟩ (by simp [lookup])
      (by simp [lookup])

/-- `list-lock` without arguments. -/
def listAll : List Packet := [.data b!"list-lock", .flush]
theorem listAll_encodes : Encodes (.listLocks none none none) listAll :=
  .listLocks (kv := []) (.inl rfl) (by unfold ArgsOk; decide) (by unfold LimitArg; decide) (by decide) (by decide)

theorem next {mode : Mode} {s : Store} {q : Request} {ps : List Packet} {fs : FS} (rest out : Bytes) (n : Nat)
    (he : Encodes q ps) (hs : ps.all Packet.short = true) (ha : Allowed mode q) (hr : Rep cfg s fs) (hd : Ready cfg fs) :
    Next cfg mode calm s q rest (seeing ps rest) ⟨fs, out, n⟩ where
  calm _ := rfl
  sha := sha_len
  clock := clock_ok _
  wire := ⟨ps, _, he, frames_enc ps hs, rfl⟩
  pending := rfl
  allowed := ha
  rep := hr
  ready := hd

end Verif.Tests
