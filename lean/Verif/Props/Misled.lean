import Verif.Model.Misled
import Verif.Props.System
import Verif.Props.LockFile
/-!
**C81**: the store is safe whatever the servers are told about it.
-/
namespace Verif
open Spec

theorem own_told (s : Own) {o : Op} (h : o.mutates = false) (x : Resp o) : s.upd o x = s := by
  cases o <;> first | rfl | cases h

/-- The invariants do not depend on what a server is told. -/
theorem Good.told {root : Path} {sha : Bytes → Bytes} {s : Sys} {ow : Nat → Own} (h : Good root sha s ow) {i : Nat}
    {o : Op} {k : Resp o → Prog Exit} (hp : s.procs i = .call o k) (ho : o.mutates = false) (x : Resp o) :
    Good root sha ⟨s.fs, s.setProc i (k x)⟩ ow := by
  refine ⟨h.1, fun j => ?_⟩
  by_cases hj : j = i
  · subst hj
    obtain ⟨cfg, h1, h2, h3⟩ := h.2 j
    rw [hp] at h3
    refine ⟨cfg, h1, h2, ?_⟩
    have := h3.2 x trivial
    rw [show (Logic.own cfg).upd (ow j) o x = ow j from own_told _ ho x] at this
    simpa [Sys.setProc] using this
  · simpa [Sys.setProc, hj] using h.2 j

/-- One step. -/
theorem Good.misled {root : Path} {sha : Bytes → Bytes} {s s' : Sys} {ow : Nat → Own} {l : Option (Nat × Event)}
    (h : Good root sha s ow) (hs : MisledStep root s l s') : ∃ ow', Good root sha s' ow' ∧
      (∀ oid, s'.fs.content (objPath root oid) = s.fs.content (objPath root oid) ∨
        ∃ i src c, l = some (i, ⟨.rename src (objPath root oid), .ok ()⟩) ∧
          s'.fs.content (objPath root oid) = some c ∧ hexEncode (sha c) = oid) ∧
      (∀ j, Sealed root s.fs ow j → Sealed root s'.fs ow' j ∧ (s'.fs.inodes j).data = (s.fs.inodes j).data) ∧
      (s'.fs = s.fs ∧ ow' = ow ∨ Follows root sha s.fs ow l s'.fs ow') := by
  cases hs with
  | step hs =>
    obtain ⟨ow', h1, h2, h3, h4⟩ := h.step' hs
    exact ⟨ow', h1, h2, h3, .inr h4⟩
  | told i o k x hp ho => exact ⟨ow, h.told hp ho x, fun _ => .inl rfl, fun _ h => ⟨h, rfl⟩, .inl ⟨rfl, rfl⟩⟩

theorem Good.misledSteps {root : Path} {sha : Bytes → Bytes} {s s' : Sys} {ow : Nat → Own} {tr : List (Nat × Event)}
    (h : Good root sha s ow) (hs : MisledSteps root s tr s') : ∃ ow', Good root sha s' ow' ∧
      ∀ j, Sealed root s.fs ow j → Sealed root s'.fs ow' j ∧ (s'.fs.inodes j).data = (s.fs.inodes j).data := by
  induction hs with
  | refl => exact ⟨ow, h, fun j hj => ⟨hj, rfl⟩⟩
  | tail _ hl ih =>
    obtain ⟨ow1, g1, s1⟩ := ih
    obtain ⟨ow2, g2, _, s2, _⟩ := g1.misled hl
    refine ⟨ow2, g2, fun j hj => ?_⟩
    obtain ⟨a, b⟩ := s1 j hj
    obtain ⟨c, d⟩ := s2 j a
    exact ⟨c, d.trans b⟩

theorem MisledSteps.trans {root : Path} {s s' s'' : Sys} {tr tr' : List (Nat × Event)} (h : MisledSteps root s tr s')
    (h' : MisledSteps root s' tr' s'') : MisledSteps root s (tr ++ tr') s'' := by
  induction h' with
  | refl => simpa using h
  | tail _ hl ih => rw [← List.append_assoc]; exact ih.tail hl

/-- **C81**, uploads are atomic (as C24): whatever the servers are told, at every step the file of an object keeps its
content, or a successful rename gives it complete content with the right hash. -/
theorem C81_atomic {root : Path} {sha : Bytes → Bytes} {s0 s s' : Sys} {tr : List (Nat × Event)}
    {l : Option (Nat × Event)} (h0 : Start root sha s0) (h : MisledSteps root s0 tr s) (hl : MisledStep root s l s')
    (oid : Bytes) :
    s'.fs.content (objectFile root oid) = s.fs.content (objectFile root oid) ∨
    ∃ i src c, l = some (i, ⟨.rename src (objectFile root oid), .ok ()⟩) ∧
      s'.fs.content (objectFile root oid) = some c ∧ hex (sha c) = oid := by
  obtain ⟨ow, hg, _⟩ := (Good.start h0).misledSteps h
  obtain ⟨_, _, ho, _⟩ := hg.misled hl
  rw [objectFile_eq]
  rcases ho oid with e | ⟨i, src, c, h1, h2, h3⟩
  · exact .inl e
  · exact .inr ⟨i, src, c, h1, h2, by rw [← hexEncode_eq_hex]; exact h3⟩

/-- **C81**, integrity (as C12): the content of every object file hashes to its name. -/
theorem C81_integrity {root : Path} {sha : Bytes → Bytes} {s0 s : Sys} {tr : List (Nat × Event)}
    (h0 : Start root sha s0) (h : MisledSteps root s0 tr s)
    (hi : ∀ oid c, IsOid oid → s0.fs.content (objectFile root oid) = some c → hex (sha c) = oid) :
    ∀ oid c, IsOid oid → s.fs.content (objectFile root oid) = some c → hex (sha c) = oid := by
  intro oid c ho
  induction h generalizing c with
  | refl => exact hi oid c ho
  | tail hs hl ih =>
    intro hc
    rcases C81_atomic h0 hs hl oid with e | ⟨i, src, c', _, h2, h3⟩
    · exact ih c (by rw [← e]; exact hc)
    · rw [h2] at hc; cases hc; exact h3

/-- **C81**, stored objects stay (as C22 and C14): at any later moment the object is there and its content has the same
hash; and the file that was stored has the same bytes, even if its name is given to another. -/
theorem C81_kept {root : Path} {sha : Bytes → Bytes} {s0 s s' : Sys}
    {tr tr' : List (Nat × Event)} (h0 : Start root sha s0) (h : MisledSteps root s0 tr s)
    (h' : MisledSteps root s tr' s') (oid : Bytes) {j : Ino} (hj : s.fs.get (objectFile root oid) = some j)
    (hh : hex (sha (s.fs.inodes j).data) = oid) :
    (∃ c, s'.fs.content (objectFile root oid) = some c ∧ sha c = sha (s.fs.inodes j).data) ∧
    (s'.fs.inodes j).data = (s.fs.inodes j).data ∧
    ((∀ i src, (i, (⟨.rename src (objectFile root oid), .ok ()⟩ : Event)) ∉ tr') →
      s'.fs.content (objectFile root oid) = some (s.fs.inodes j).data) := by
  have hc : s.fs.content (objectFile root oid) = some (s.fs.inodes j).data := by simp [FS.content, hj]
  refine ⟨?_, ?_, ?_⟩
  · induction h' with
    | refl => exact ⟨_, hc, rfl⟩
    | tail hs hl ih =>
      obtain ⟨c', h1, h2⟩ := ih
      rcases C81_atomic h0 (h.trans hs) hl oid with e | ⟨i, src, c'', _, h3, h4⟩
      · exact ⟨c', e.trans h1, h2⟩
      · refine ⟨c'', h3, hexEncode_inj ?_⟩
        rw [hexEncode_eq_hex, hexEncode_eq_hex, h4, hh]
  · obtain ⟨ow, hg, _⟩ := (Good.start h0).misledSteps h
    obtain ⟨ow', _, hs⟩ := hg.misledSteps h'
    rw [objectFile_eq] at hj
    exact (hs j ⟨hg.1.bound _ _ hj, hg.1.home _ _ (near_of_prefix (objPath_below root oid)) hj, hg.1.objs _ _ hj⟩).2
  · intro hn
    induction h' with
    | refl => exact hc
    | tail hs hl ih =>
      have ih' := ih (fun i src hm => hn i src (by simp [hm]))
      rcases C81_atomic h0 (h.trans hs) hl oid with e | ⟨i, src, c'', h2, _, _⟩
      · exact e.trans ih'
      · exact absurd (by simp [h2]) (hn i src)

/-- What a server is told does not count as a use of a temporary lock file. -/
theorem FullInv.told {root : Path} {sha : Bytes → Bytes} {id : Bytes} {fs : FS} {ow : Nat → Own}
    {tr : List (Nat × Event)} (h : FullInv root sha id fs ow tr) (i : Nat) {o : Op} (ho : o.mutates = false)
    (x : Resp o) : FullInv root sha id fs ow (tr ++ [(i, ⟨o, x⟩)]) := by
  refine ⟨h.full, h.here, h.uniq, fun k v hv => ?_⟩
  obtain ⟨a, uid, y, b, rfl, h2, h3⟩ := h.since k v hv
  refine ⟨a, uid, y, b ++ [(i, ⟨o, x⟩)], by simp, fun z hz => ?_, h3⟩
  rcases List.mem_append.mp hz with hz | hz
  · exact h2 z hz
  · simp only [List.mem_singleton, Prod.mk.injEq, Sigma.mk.injEq] at hz
    obtain ⟨_, rfl, _⟩ := hz
    cases ho

/-- All invariants on lock files. -/
theorem misled_lock {root : Path} {sha : Bytes → Bytes} {s0 s : Sys} {tr : List (Nat × Event)}
    (h0 : Start root sha s0) (h : MisledSteps root s0 tr s) :
    ∃ ow, Good root sha s ow ∧ LkInv root sha s.fs ow ∧
      (PreInv root sha s0.fs (fun _ => ⟨none, [], none⟩) → PreInv root sha s.fs ow) ∧
      ∀ id, (∃ x, id = lockName sha x) → Apart root id tr →
        FullInv root sha id s0.fs (fun _ => ⟨none, [], none⟩) [] → FullInv root sha id s.fs ow tr := by
  induction h with
  | refl => exact ⟨_, Good.start h0, .init, id, fun _ _ _ h => h⟩
  | tail hs hl ih =>
    obtain ⟨ow, hg, hk, hpre, hfull⟩ := ih
    cases hl with
    | step hl =>
      obtain ⟨ow', hg', _, _, hfol⟩ := hg.step' hl
      obtain ⟨hf, he⟩ := follows_effect hg.1 hk hfol
      refine ⟨ow', hg', hk.step hg.1 hf he, fun hp => (hpre hp).step hk hg.1 he, fun id hid ha hp => ?_⟩
      exact (hfull id hid ha.prefix hp).step hid hk hg.1 ha hf he
    | told i o k x hp ho =>
      exact ⟨ow, hg.told hp ho x, hk, hpre, fun id hid ha hp => (hfull id hid ha.prefix hp).told i ho x⟩

/-- **C81**, lock files (as C28): a lock file contains the beginning of a record of a lock with its ID, if that was so
at the start, also for the temporary files that were there. -/
theorem C81_records {root : Path} {sha : Bytes → Bytes} {s0 s : Sys} {tr : List (Nat × Event)}
    (h0 : Start root sha s0) (h : MisledSteps root s0 tr s)
    (hi : ∀ path c, (s0.fs.content (lockFile root (lockName sha path)) = some c ∨
      s0.fs.content (lockTempFile root (lockName sha path)) = some c) → StartsRecord sha (lockName sha path) c) :
    ∀ path c, (s.fs.content (lockFile root (lockName sha path)) = some c ∨
      s.fs.content (lockTempFile root (lockName sha path)) = some c) → StartsRecord sha (lockName sha path) c := by
  obtain ⟨ow, _, _, hp, _⟩ := misled_lock h0 h
  have hp := hp ⟨fun x j hj => hi x _ ?_, fun i p j d hw => by cases hw⟩
  · intro path c hc
    have : ∃ j, (s.fs.get (lockTempFile root (lockName sha path)) = some j ∨
        s.fs.get (lockFile root (lockName sha path)) = some j) ∧ c = (s.fs.inodes j).data := by
      rcases hc with h | h
      · unfold FS.content at h
        cases hg : s.fs.get (lockFile root (lockName sha path)) with
        | none => rw [hg] at h; cases h
        | some j => rw [hg] at h; cases h; exact ⟨j, .inr rfl, rfl⟩
      · unfold FS.content at h
        cases hg : s.fs.get (lockTempFile root (lockName sha path)) with
        | none => rw [hg] at h; cases h
        | some j => rw [hg] at h; cases h; exact ⟨j, .inl rfl, rfl⟩
    obtain ⟨j, hj, rfl⟩ := this
    exact hp.pre path j hj
  · rcases hj with h | h
    · exact .inr (by simp [FS.content, h])
    · exact .inl (by simp [FS.content, h])

/-- **C81**, complete lock files (as C28): if requests for the same lock do not get in each other's way, the lock file
contains a complete record, or does not exist. -/
theorem C81_complete {root : Path} {sha : Bytes → Bytes} {s0 s : Sys} {tr : List (Nat × Event)} {path : Bytes}
    (h0 : Start root sha s0) (h : MisledSteps root s0 tr s) (ha : Apart root (lockName sha path) tr)
    (hi : ∀ c, s0.fs.content (lockFile root (lockName sha path)) = some c → IsRecord sha (lockName sha path) c) :
    ∀ c, s.fs.content (lockFile root (lockName sha path)) = some c → IsRecord sha (lockName sha path) c := by
  obtain ⟨ow, _, _, _, hp⟩ := misled_lock h0 h
  have hp := hp _ ⟨path, rfl⟩ ha ⟨fun j hj => ⟨hi _ (by simp [FS.content, hj]), fun i p d hw => (by cases hw)⟩,
    fun i j d hw => (by cases hw), fun i k v v' hw => (by cases hw), fun i v hw => (by cases hw)⟩
  intro c hc
  unfold FS.content at hc
  cases hg : s.fs.get (lockFile root (lockName sha path)) with
  | none => rw [hg] at hc; cases hc
  | some j => rw [hg] at hc; cases hc; exact (hp.full j hg).1

/-- The name of a lock file only disappears by an explicit removal, and is only given to a file when there is none. -/
theorem misled_lock_step {root : Path} {sha : Bytes → Bytes} {s s' : Sys} {ow : Nat → Own}
    {l : Option (Nat × Event)} (hg : Good root sha s ow) (hl : MisledStep root s l s') (id : Bytes) :
    ((s.fs.get (lockFile root id)).isSome → (s'.fs.get (lockFile root id)).isSome ∨
      ∃ i, l = some (i, ⟨.unlink (lockFile root id), .ok ()⟩)) ∧
    (∀ i src, l = some (i, ⟨.link src (lockFile root id), .ok ()⟩) →
      s.fs.get (lockFile root id) = none ∧ (s'.fs.get (lockFile root id)).isSome) := by
  cases hl with
  | step hl => exact lock_step hg hl id
  | told i o k x hp ho =>
    refine ⟨fun h => .inl h, fun j src he => ?_⟩
    simp only [Option.some.injEq, Prod.mk.injEq, Sigma.mk.injEq] at he
    obtain ⟨_, rfl, _⟩ := he
    cases ho

/-- Calls in the course of which a name comes into being by `link` when it is not there, and disappears by `unlink`. At
the end it is there or not. -/
inductive Trail (p : Path) : List (Nat × Event) → Bool → Prop
  | nil {b} : Trail p [] b
  | tail {tr b l b'} : Trail p tr b →
      (b = true → b' = true ∨ ∃ i, l = some (i, (⟨.unlink p, .ok ()⟩ : Event))) →
      (∀ i src, l = some (i, (⟨.link src p, .ok ()⟩ : Event)) → b = false ∧ b' = true) →
      Trail p (tr ++ l.toList) b'

theorem Trail.exclusion {p : Path} {tr : List (Nat × Event)} {z : Bool} (h : Trail p tr z) :
    (∀ a i src b, tr = a ++ (i, (⟨.link src p, .ok ()⟩ : Event)) :: b →
      (∀ k, (k, (⟨.unlink p, .ok ()⟩ : Event)) ∉ b) → z = true) ∧
    (∀ a i src b i' src' c, tr = a ++ (i, (⟨.link src p, .ok ()⟩ : Event)) ::
        (b ++ (i', ⟨.link src' p, .ok ()⟩) :: c) → ∃ k, (k, (⟨.unlink p, .ok ()⟩ : Event)) ∈ b) := by
  induction h with
  | nil => refine ⟨fun a i src b e => ?_, fun a i src b i' src' c e => ?_⟩ <;> simp at e
  | @tail tr y l y' _ st1 st2 ih =>
    obtain ⟨ih1, ih2⟩ := ih
    cases l with
    | none =>
      simp only [Option.toList_none, List.append_nil]
      refine ⟨fun a i src b e hb => ?_, ih2⟩
      rcases st1 (ih1 a i src b e hb) with h | ⟨_, h⟩
      · exact h
      · cases h
    | some l =>
      simp only [Option.toList_some]
      constructor
      · intro a i src b e hb
        rcases List.eq_nil_or_concat b with rfl | ⟨b', l', rfl⟩
        · have e' : tr ++ [l] = a ++ [(i, (⟨.link src p, .ok ()⟩ : Event))] := e
          have := (List.append_inj' e' rfl).2
          simp only [List.cons.injEq, and_true] at this
          exact (st2 i src (by rw [this])).2
        · have e' : tr ++ [l] = (a ++ (i, (⟨.link src p, .ok ()⟩ : Event)) :: b') ++ [l'] := by
            rw [e]; simp
          obtain ⟨e1, e2⟩ := List.append_inj' e' rfl
          simp only [List.cons.injEq, and_true] at e2
          subst e2
          have := ih1 a i src b' e1 (fun k hk => hb k (by simp [hk]))
          rcases st1 this with h | ⟨k, h⟩
          · exact h
          · cases h
            exact absurd (by simp) (hb k)
      · intro a i src b i' src' c e
        rcases List.eq_nil_or_concat c with rfl | ⟨c', l', rfl⟩
        · have e' : tr ++ [l] = (a ++ (i, (⟨.link src p, .ok ()⟩ : Event)) :: b) ++
              [(i', ⟨.link src' p, .ok ()⟩)] := by rw [e]; simp
          obtain ⟨e1, e2⟩ := List.append_inj' e' rfl
          simp only [List.cons.injEq, and_true] at e2
          have hn := (st2 i' src' (by rw [e2])).1
          false_or_by_contra
          rename_i hno
          have := ih1 a i src b e1 (fun k hk => hno ⟨k, hk⟩)
          rw [hn] at this
          cases this
        · have e' : tr ++ [l] = (a ++ (i, (⟨.link src p, .ok ()⟩ : Event)) ::
              (b ++ (i', ⟨.link src' p, .ok ()⟩) :: c')) ++ [l'] := by rw [e]; simp
          exact ih2 _ _ _ _ _ _ _ (List.append_inj' e' rfl).1

/-- **C81**, mutual exclusion (as C25): between two successful creations of the lock file of the same ID, by any two
processes, a removal of that lock file succeeded. -/
theorem C81_exclusion {root : Path} {sha : Bytes → Bytes} {s0 s : Sys}
    {tr a b c : List (Nat × Event)} {i i' : Nat} {src src' : Path} {id : Bytes}
    (h0 : Start root sha s0) (h : MisledSteps root s0 tr s)
    (he : tr = a ++ (i, ⟨.link src (lockFile root id), .ok ()⟩) :: b ++
      (i', ⟨.link src' (lockFile root id), .ok ()⟩) :: c) :
    ∃ k, (k, (⟨.unlink (lockFile root id), .ok ()⟩ : Event)) ∈ b := by
  have : Trail (lockFile root id) tr (s.fs.get (lockFile root id)).isSome := by
    clear he
    induction h with
    | refl => exact .nil
    | tail hs hl ih =>
      obtain ⟨ow, hg, _⟩ := (Good.start h0).misledSteps hs
      obtain ⟨h1, h2⟩ := misled_lock_step hg hl id
      exact ih.tail h1 fun i src hl => by
        obtain ⟨h3, h4⟩ := h2 i src hl
        exact ⟨by rw [h3]; rfl, h4⟩
  exact this.exclusion.2 a i src b i' src' c (by rw [he]; simp)

/-! ### An example -/

namespace Tests

/-- Process 0 makes `n` calls; `lie` says which are not answered truly. -/
def misled (lie : (o : Op) → Option (Resp o)) : Nat → Sys → Sys × List (Nat × Event)
  | 0, s => (s, [])
  | n + 1, s =>
    match s.procs 0 with
    | .ret _ => (s, [])
    | .call o k =>
      match o.mutates, lie o with
      | false, some x =>
        let t := misled lie n ⟨s.fs, s.setProc 0 (k x)⟩
        (t.1, (0, ⟨o, x⟩) :: t.2)
      | _, _ =>
        let t := misled lie n ⟨(sem Choice.none s.fs o).1, s.setProc 0 (k (sem Choice.none s.fs o).2)⟩
        (t.1, (0, ⟨o, (sem Choice.none s.fs o).2⟩) :: t.2)

theorem misled_steps (root : Path) (lie : (o : Op) → Option (Resp o)) : ∀ n s,
    MisledSteps root s (misled lie n s).2 (misled lie n s).1
  | 0, s => .refl
  | n + 1, s => by
    unfold misled
    split
    · exact .refl
    · rename_i o k hp
      split
      · rename_i x ho _
        exact (MisledSteps.refl.tail (.told 0 o k x hp ho)).trans (misled_steps root lie n _)
      · exact (MisledSteps.refl.tail (.step (.call 0 o k Choice.none hp))).trans (misled_steps root lie n _)

/-- An upload of an object, and a question about it. -/
def uploadAsk : Sys :=
  ⟨fs0, fun _ => server cfg b!"upload" (b!"0050put-object " ++ oidA ++ b!"\n000bsize=6\n0001000aabc1230000" ++
    b!"0053verify-object " ++ oidA ++ b!"\n000bsize=6\n0000")⟩

theorem uploadAsk_start : Start cfg.root cfg.sha uploadAsk :=
  ⟨fun i => ⟨_, _, _, rfl, rfl, rfl⟩, fun p i h => (by cases h), fun p i _ h => (by cases h)⟩

/-- No file is ever seen. -/
def blind : (o : Op) → Option (Resp o)
  | .stat _ => some (.error enoent)
  | _ => none

/-- What process 0 printed. -/
def said (tr : List (Nat × Event)) : Bytes := tr.flatMap fun e => match e.2.1 with | .out b => b | _ => []

/-- The server that sees no files says that it could not store the object, and then that it is not there. It is there. -/
example : said (misled blind 100 uploadAsk).2 = b!"000eversion=1\n0000" ++
      b!"000fstatus 500\n0001004dinternal error: fatal: I/O error: No such file or directory (os error 2)\n0000" ++
      b!"000fstatus 404\n0001000dnot found0000" ∧
    said (uploadAsk.exec (List.replicate 100 (0, Choice.none))).2 = b!"000eversion=1\n0000" ++
      b!"000fstatus 200\n0000000fstatus 200\n0000" ∧
    (misled blind 100 uploadAsk).1.fs.content (objectFile cfg.root oidA) = some b!"abc123" := by
  decide +kernel

end Tests

end Verif
