import Verif.Lemmas.Stopped
import Verif.Props.Readable
import Verif.Props.Meanings
import Verif.Props.Objects
import Verif.Props.Crash
/-! C73: a server that is killed, and a client that starts again. -/
namespace Verif
open Spec

variable {cfg : Cfg} {mode : Mode} {ch ch2 : Nat → Choice} {s s' : Store}

/-! ### The store after a conversation -/

/-- The last word on a matter. -/
def lastWord {α : Type} (f : Said → Option α) (qs : List Said) : Option α := qs.reverse.findSome? f

theorem lastWord_append {α : Type} (f : Said → Option α) (as bs : List Said) :
    lastWord f (as ++ bs) = (lastWord f bs).or (lastWord f as) := by
  simp [lastWord, List.findSome?_append]

theorem lastWord_cons {α : Type} (f : Said → Option α) (a : Said) (bs : List Said) :
    lastWord f (a :: bs) = (lastWord f bs).or (f a) := by
  rw [show a :: bs = [a] ++ bs from rfl, lastWord_append]
  cases h : f a <;> simp [lastWord, h]

theorem lastWord_drop {α : Type} (f : Said → Option α) {qs : List Said} {m k : Nat} (h : m ≤ k) (x : Option α) :
    (lastWord f (qs.drop m)).or ((lastWord f (qs.take k)).or x) = (lastWord f qs).or x := by
  have e1 : lastWord f qs = (lastWord f (qs.drop k)).or (lastWord f (qs.take k)) := by
    rw [← lastWord_append, List.take_append_drop]
  have e2 : lastWord f (qs.drop m) = (lastWord f (qs.drop k)).or (lastWord f ((qs.drop m).take (k - m))) := by
    rw [← lastWord_append]
    congr 1
    rw [show qs.drop k = (qs.drop m).drop (k - m) by rw [List.drop_drop]; congr 1; omega, List.take_append_drop]
  have e3 : lastWord f (qs.take k) = (lastWord f ((qs.drop m).take (k - m))).or (lastWord f (qs.take m)) := by
    rw [← lastWord_append]
    congr 1
    rw [← List.drop_take]
    conv_lhs => rw [← List.take_append_drop m (qs.take k)]
    rw [List.take_take, Nat.min_eq_left h]
  rw [e1, e2, e3]
  cases lastWord f (qs.drop k) <;> cases lastWord f ((qs.drop m).take (k - m)) <;> simp

/-- What a request stores under an ID. -/
def stores (cfg : Cfg) (oid : Bytes) : Said → Option (Option Bytes)
  | .ask (.put o n d) => if o = oid ∧ putError cfg o n d = none then some (some d) else none
  | _ => none

/-- What a request does to a lock. -/
def locks (cfg : Cfg) (id : Bytes) : Said → Option Bool
  | .ask (.lock path) => if lockName cfg.sha path = id then some true else none
  | .ask (.unlock i) => if i = id then some false else none
  | _ => none

theorem find_isSome {id : Bytes} : (s.find cfg id).isSome = true ↔ ∃ l ∈ s.locks, lockName cfg.sha l.path = id := by
  simp [Store.find, List.find?_isSome]

theorem reply_objs (t t' : Int) (q : Said) (oid : Bytes) :
    (reply cfg mode s t t' q).2.objs oid = ((stores cfg oid q).or (some (s.objs oid))).getD none := by
  cases q with
  | nonsense => rfl
  | ask q =>
    cases q with
    | put o n d =>
      cases h : putError cfg o n d with
      | some m => simp [reply, answer, stores, h]
      | none =>
        by_cases he : o = oid
        · subst he
          simp [reply, answer, stores, h]
        · simp [reply, answer, stores, h, he, Ne.symm he]
    | verify o n =>
      simp only [reply, answer]
      split
      · rfl
      · split <;> rfl
    | get o => simp only [reply, answer]; split <;> rfl
    | lock p =>
      simp only [reply, answer]
      split
      · rfl
      · split <;> rfl
    | unlock i => simp only [reply, answer]; split <;> rfl
    | listLocks p c l =>
      cases p with
      | none => rfl
      | some p =>
        simp only [reply, answer]
        split
        · rfl
        · split
          · rfl
          · split <;> rfl
    | _ => rfl

theorem reply_find (t t' : Int) (q : Said) (id : Bytes) :
    ((reply cfg mode s t t' q).2.find cfg id).isSome = ((locks cfg id q).or (some (s.find cfg id).isSome)).getD false := by
  cases q with
  | nonsense => rfl
  | ask q =>
    cases q with
    | put o n d => cases h : putError cfg o n d <;> simp [reply, answer, locks, h, Store.find]
    | verify o n =>
      simp only [reply, answer]
      split
      · rfl
      · split <;> rfl
    | get o => simp only [reply, answer]; split <;> rfl
    | lock p =>
      simp only [reply, answer, locks]
      split
      next h =>
        rw [Bool.eq_iff_iff, find_isSome]
        simp only [mem_insertLock]
        by_cases he : lockName cfg.sha p = id
        · simp only [he, if_true]
          simp [he]
        · rw [if_neg he]
          simp only [Option.none_or, Option.getD_some, find_isSome]
          constructor
          · rintro ⟨l, rfl | hl, h⟩
            · exact absurd h he
            · exact ⟨l, hl, h⟩
          · rintro ⟨l, hl, h⟩
            exact ⟨l, .inr hl, h⟩
      next l h =>
        have : (s.find cfg (lockName cfg.sha p)).isSome := by rw [h]; rfl
        by_cases he : lockName cfg.sha p = id
        · subst he
          split <;> simp [h]
        · split <;> simp [he]
    | unlock i =>
      simp only [reply, answer, locks]
      split
      next h =>
        by_cases he : i = id
        · subst he; simp [h]
        · simp [he]
      next l h =>
        rw [Bool.eq_iff_iff, find_isSome]
        by_cases he : i = id
        · subst he; simp
        · simp only [he, if_false, Option.none_or, Option.getD_some, find_isSome]
          constructor
          · rintro ⟨l, hl, h⟩
            exact ⟨l, (List.mem_filter.mp hl).1, h⟩
          · rintro ⟨l, hl, h⟩
            exact ⟨l, List.mem_filter.mpr ⟨hl, by simpa [h] using Ne.symm he⟩, h⟩
    | listLocks p c l =>
      cases p with
      | none => rfl
      | some p =>
        simp only [reply, answer]
        split
        · rfl
        · split
          · rfl
          · split <;> rfl
    | _ => rfl

theorem conversation_length {qs : List Said} {ws : List Bytes} (h : Conversation cfg mode ch s qs ws s') :
    ws.length = qs.length := by
  induction h with
  | nil => rfl
  | cons _ _ _ _ _ ih => simp [ih]

theorem conversation_replies {qs : List Said} {ws : List Bytes} (h : Conversation cfg mode ch s qs ws s') :
    ∀ b ∈ ws, IsReply b := by
  induction h with
  | nil => simp
  | cons _ _ _ hs _ ih =>
    obtain ⟨r, h1, h2, _⟩ := hs
    exact List.forall_mem_cons.mpr ⟨⟨r, h1, h2⟩, ih⟩

theorem conversation_objs {qs : List Said} {ws : List Bytes} (h : Conversation cfg mode ch s qs ws s') (oid : Bytes) :
    s'.objs oid = ((lastWord (stores cfg oid) qs).or (some (s.objs oid))).getD none := by
  induction h with
  | nil => rfl
  | @cons s s1 s2 q qs t t' a w ws _ _ hr _ _ ih =>
    have := reply_objs (cfg := cfg) (mode := mode) (s := s) t t' q oid
    rw [hr] at this
    rw [ih, this, lastWord_cons]
    cases lastWord (stores cfg oid) qs <;> cases stores cfg oid q <;> simp

theorem conversation_find {qs : List Said} {ws : List Bytes} (h : Conversation cfg mode ch s qs ws s') (id : Bytes) :
    (s'.find cfg id).isSome = ((lastWord (locks cfg id) qs).or (some (s.find cfg id).isSome)).getD false := by
  induction h with
  | nil => rfl
  | @cons s s1 s2 q qs t t' a w ws _ _ hr _ _ ih =>
    have := reply_find (cfg := cfg) (mode := mode) (s := s) t t' q id
    rw [hr] at this
    rw [ih, this, lastWord_cons]
    cases lastWord (locks cfg id) qs <;> cases locks cfg id q <;> simp

/-- Without `lock`, locks are only removed. -/
theorem conversation_locks {qs : List Said} {ws : List Bytes} (h : Conversation cfg mode ch s qs ws s')
    (hn : ∀ p, Said.ask (.lock p) ∉ qs) : s'.locks = s.locks.filter fun l =>
      (lastWord (locks cfg (lockName cfg.sha l.path)) qs).isNone := by
  induction h with
  | nil => exact (List.filter_eq_self.mpr fun _ _ => rfl).symm
  | @cons s s1 s2 q qs t t' a w ws _ _ hr _ _ ih =>
    rw [ih fun p hp => hn p (by simp [hp])]
    have e : s1.locks = s.locks.filter fun l => (locks cfg (lockName cfg.sha l.path) q).isNone := by
      have e1 : s1 = (reply cfg mode s t t' q).2 := by rw [hr]
      have other : (∀ id, locks cfg id q = none) → s1.locks = s.locks →
          s1.locks = s.locks.filter fun l => (locks cfg (lockName cfg.sha l.path) q).isNone := by
        intro h1 h2
        rw [h2, List.filter_eq_self.mpr fun l _ => by simp [h1]]
      cases q with
      | nonsense => exact other (fun _ => rfl) (by rw [e1]; rfl)
      | ask q =>
        cases q with
        | lock p => exact absurd (by simp) (hn p)
        | put o n d =>
          refine other (fun _ => rfl) ?_
          rw [e1]
          cases h : putError cfg o n d <;> simp [reply, answer, h]
        | verify o n =>
          refine other (fun _ => rfl) ?_
          rw [e1]
          simp only [reply, answer]
          split
          · rfl
          · split <;> rfl
        | get o =>
          refine other (fun _ => rfl) ?_
          rw [e1]
          simp only [reply, answer]
          split <;> rfl
        | listLocks p c l =>
          refine other (fun _ => rfl) ?_
          rw [e1]
          cases p with
          | none => rfl
          | some p =>
            simp only [reply, answer]
            split
            · rfl
            · split
              · rfl
              · split <;> rfl
        | unlock i =>
          rw [e1]
          simp only [reply, answer, locks]
          cases h : s.find cfg i with
          | none =>
            have : ∀ l ∈ s.locks, lockName cfg.sha l.path ≠ i := by
              intro l hl he
              have := find_isSome.mpr ⟨l, hl, he⟩
              simp [h] at this
            simp only
            symm
            rw [List.filter_eq_self]
            intro l hl
            simpa using fun e => this l hl e.symm
          | some l =>
            simp only
            refine List.filter_congr fun m _ => ?_
            by_cases he : lockName cfg.sha m.path = i
            · simp [he]
            · simp [he, Ne.symm he]
        | _ => exact other (fun _ => rfl) (by rw [e1]; rfl)
    rw [e, List.filter_filter]
    refine List.filter_congr fun l _ => ?_
    rw [lastWord_cons]
    cases lastWord (locks cfg (lockName cfg.sha l.path)) qs <;> simp

/-! ### C73 -/

theorem replies_prefix : ∀ {us ws : List Bytes} {part : Bytes}, (∀ b ∈ us, IsReply b) → (∀ b ∈ ws, IsReply b) →
    us.flatten ++ part <+: ws.flatten → us <+: ws
  | [], _, _, _, _, _ => List.nil_prefix
  | u :: us, [], part, hu, _, h => by
    have := List.prefix_nil.mp h
    simp only [List.flatten_cons, List.append_eq_nil_iff] at this
    exact absurd this.1.1 (isReply_ne (hu u (by simp)))
  | u :: us, w :: ws, part, hu, hw, h => by
    obtain ⟨z, hz⟩ := h
    simp only [List.flatten_cons, List.append_assoc] at hz
    have : u = w := by
      rcases List.append_eq_append_iff.mp hz with ⟨a, h1, _⟩ | ⟨a, h1, _⟩
      · have := C71_prefix (hu u (by simp)) (h1 ▸ hw w (by simp))
        simp [h1, this]
      · have := C71_prefix (hw w (by simp)) (h1 ▸ hu u (by simp))
        simp [h1, this]
    subst this
    have := replies_prefix (us := us) (ws := ws) (part := part) (fun b hb => hu b (by simp [hb])) (fun b hb => hw b (by simp [hb]))
      ⟨z, by rw [List.append_assoc]; exact List.append_cancel_left hz⟩
    exact List.cons_prefix_cons.mpr ⟨rfl, this⟩

/-- After the first `k` requests, those from some `m ≤ k` on. -/
theorem resumed {ch1 : Nat → Choice} {qs : List Said} {k m : Nat} {ws0 ws ws1 : List Bytes} {s1 s2 : Store} (hk : m ≤ k)
    (hconv : Conversation cfg mode ch s (qs.take k) ws0 s') (h2 : Conversation cfg mode ch2 s' (qs.drop m) ws s2)
    (h : Conversation cfg mode ch1 s qs ws1 s1) : SameStore cfg s2 s1 ∧ ((∀ p, .ask (.lock p) ∉ qs) → s2 = s1) := by
  have hobjs : s2.objs = s1.objs := by
    funext oid
    rw [conversation_objs h2, conversation_objs hconv, conversation_objs h, ← lastWord_drop (stores cfg oid) (qs := qs) hk (some (s.objs oid))]
    cases lastWord (stores cfg oid) (qs.drop m) <;> cases lastWord (stores cfg oid) (qs.take k) <;> simp
  refine ⟨⟨hobjs, fun id => ?_⟩, fun hn => ?_⟩
  · rw [conversation_find h2, conversation_find hconv, conversation_find h, ← lastWord_drop (locks cfg id) (qs := qs) hk (some (s.find cfg id).isSome)]
    cases lastWord (locks cfg id) (qs.drop m) <;> cases lastWord (locks cfg id) (qs.take k) <;> simp
  · have e2 := conversation_locks h2 fun p hp => hn p (List.mem_of_mem_drop hp)
    rw [conversation_locks hconv fun p hp => hn p (List.mem_of_mem_take hp), List.filter_filter] at e2
    have e : s2.locks = s1.locks := by
      rw [e2, conversation_locks h hn]
      refine List.filter_congr fun l _ => ?_
      have := lastWord_drop (locks cfg (lockName cfg.sha l.path)) (qs := qs) hk none
      rw [Option.or_none, Option.or_none] at this
      rw [← this]
      cases lastWord (locks cfg (lockName cfg.sha l.path)) (qs.drop m) <;>
        cases lastWord (locks cfg (lockName cfg.sha l.path)) (qs.take k) <;> simp
    cases s2
    cases s1
    simp only at hobjs e
    rw [hobjs, e]

/-- **C73.** A server killed at any moment has done some of its requests, in order, and none of the others; what the client
has read are (the beginning of) the replies to those. The store is that after these requests. Only a `lock` leaves
something else, for a while: the file in which it prepares its record. -/
theorem C73_stopped (hc : ∀ n, (ch n).fault = none) (hsha : ∀ b, (cfg.sha b).length = 32)
    (hclk : ∀ t, Clock cfg ch t → TimeOk cfg t) {qs : List Said} {w : World} {r : Rdr} (hs : Talk mode qs r.input)
    (hr : Rep cfg s w.fs) (hp : r.pending = []) (hfin : r.fin.kind = .unexpectedEof) (n : Nat) :
    Progress cfg mode ch s qs (w.out ++ b!"000eversion=1\n0000") (stopped ch n (mainProg cfg (Mode.operation mode) r) w) := by
  refine stopped_wp (Q := fun _ => Progress cfg mode ch s qs (w.out ++ b!"000eversion=1\n0000")) n ?_ fun _ _ h => h
  unfold mainProg
  rw [Prog.wp_bind]
  refine Prog.wp_mono (stops_program_talk hc hsha hclk hs hp hfin hr) ?_
  rintro ⟨x, r'⟩ w' h
  cases x <;> exact h

/-- **C73.** A request whose reply the client has read is in the store: with `us` read, and perhaps a part of the next
reply, the store is that after at least as many requests. -/
theorem C73_read (hc : ∀ n, (ch n).fault = none) (hsha : ∀ b, (cfg.sha b).length = 32)
    (hclk : ∀ t, Clock cfg ch t → TimeOk cfg t) {qs : List Said} {w : World} {r : Rdr} (hs : Talk mode qs r.input)
    (hr : Rep cfg s w.fs) (hp : r.pending = []) (hfin : r.fin.kind = .unexpectedEof) (n : Nat) {us : List Bytes} {part : Bytes}
    (hu : ∀ b ∈ us, IsReply b)
    (ho : (stopped ch n (mainProg cfg (Mode.operation mode) r) w).out = w.out ++ b!"000eversion=1\n0000" ++ us.flatten ++ part)
    (hl : ∀ p, .ask (.lock p) ∈ qs → (stopped ch n (mainProg cfg (Mode.operation mode) r) w).fs.get (halfLock cfg p) = none) :
    ∃ k ws s', us.length ≤ k ∧ us <+: ws ∧ Conversation cfg mode ch s (qs.take k) ws s' ∧
      Rep cfg s' (stopped ch n (mainProg cfg (Mode.operation mode) r) w).fs := by
  obtain ⟨k, ws, s', h1, h2, h3⟩ := C73_stopped (n := n) hc hsha hclk hs hr hp hfin
  rw [ho, List.append_assoc] at h2
  have hpre := replies_prefix hu (conversation_replies h1) ((List.prefix_append_right_inj _).mp h2)
  refine ⟨k, ws, s', ?_, hpre, h1, ?_⟩
  · have := hpre.length_le
    rw [conversation_length h1, List.length_take] at this
    omega
  · rcases h3 with h3 | ⟨path, h3, h4, _⟩
    · exact h3
    · have : Said.ask (.lock path) ∈ qs := by
        rcases h3 with h3 | h3
        · exact List.mem_of_getElem? h3
        · exact List.mem_of_mem_take (List.mem_of_getLast? h3)
      rw [hl path this] at h4
      cases h4

/-- **C73.** The client starts again, with the first request for which it has no reply (or from the beginning: `us` may be
empty). All is then as if nothing had happened: the second server works as usual, and at the end there are the same
objects, and the same files are locked.

Full property: also if the server was killed while it was creating a lock. That is false (`C73_refuted`); here no file
of such a `lock` is left. -/
theorem C73_again_partial (hc : ∀ n, (ch n).fault = none) (hc2 : ∀ n, (ch2 n).fault = none) (hsha : ∀ b, (cfg.sha b).length = 32)
    (hclk : ∀ t, Clock cfg ch t → TimeOk cfg t) (hclk2 : ∀ t, Clock cfg ch2 t → TimeOk cfg t) {qs : List Said} {w : World}
    {r r2 : Rdr} (hs : Talk mode qs r.input) (hr : Rep cfg s w.fs) (hp : r.pending = []) (hfin : r.fin.kind = .unexpectedEof)
    (n : Nat) {us : List Bytes} {part : Bytes} (hu : ∀ b ∈ us, IsReply b)
    (ho : (stopped ch n (mainProg cfg (Mode.operation mode) r) w).out = w.out ++ b!"000eversion=1\n0000" ++ us.flatten ++ part)
    (hl : ∀ p, .ask (.lock p) ∈ qs → (stopped ch n (mainProg cfg (Mode.operation mode) r) w).fs.get (halfLock cfg p) = none)
    {w2 : World} (hfs : w2.fs = (stopped ch n (mainProg cfg (Mode.operation mode) r) w).fs)
    (hs2 : Talk mode (qs.drop us.length) r2.input) (hp2 : r2.pending = []) (hfin2 : r2.fin.kind = .unexpectedEof) :
    ((mainProg cfg (Mode.operation mode) r2).run ch2 w2).1 = ⟨0, []⟩ ∧
    ∃ ws s' s2, ((mainProg cfg (Mode.operation mode) r2).run ch2 w2).2.out = w2.out ++ b!"000eversion=1\n0000" ++ ws.flatten ∧
      Conversation cfg mode ch2 s' (qs.drop us.length) ws s2 ∧
      Rep cfg s2 ((mainProg cfg (Mode.operation mode) r2).run ch2 w2).2.fs ∧
      ∀ ch1 ws1 s1, Conversation cfg mode ch1 s qs ws1 s1 →
        SameStore cfg s2 s1 ∧ ((∀ p, .ask (.lock p) ∉ qs) → s2 = s1) := by
  obtain ⟨k, ws0, s', hk, _, hconv, hrep⟩ := C73_read (n := n) hc hsha hclk hs hr hp hfin hu ho hl
  rw [← hfs] at hrep
  obtain ⟨hx, ws, s2, h1, h2, h3⟩ := C72_session_partial hc2 hsha hclk2 hs2 hrep hp2 hfin2
  exact ⟨hx, ws, s', s2, h1, h2, h3, fun ch1 ws1 s1 h => resumed hk hconv h2 h⟩

open Tests in
/-- **C73** is false for `lock`: a server is killed while it serves this request, and the same request then crashes the
next server. (This one removes the file in which the first prepared the record of the lock, so that the third server
works.) -/
theorem C73_refuted : ∃ (cfg : Cfg) (s : Store) (wire : Bytes) (n : Nat) (fs : FS), Rep cfg s fs ∧
    Talk .upload [.ask (.lock b!"f")] wire ∧ (∀ t, Clock cfg calm t → TimeOk cfg t) ∧
    let w := stopped calm n (server cfg b!"upload" wire) ⟨fs, [], 0⟩
    ((server cfg b!"upload" wire).run calm ⟨w.fs, [], 0⟩).1.code = 101 ∧
    (w.fs.get (halfLock cfg b!"f")).isSome ∧
    ((server cfg b!"upload" wire).run calm ⟨((server cfg b!"upload" wire).run calm ⟨w.fs, [], 0⟩).2.fs, [], 0⟩).1.code = 0 := by
  refine ⟨Tests.cfg, s0, lockReq, 9, fs0, rep0, ?_, clock_ok _, by decide +kernel, by decide +kernel, by decide +kernel⟩
  have : Session .upload [.lock b!"f"] (lockReq ++ []) := .cons (lockOf_encodes _) (frames_enc _ (by decide)) rfl (by simp) .eof
  simpa using C72_sessions this

namespace Tests

/-- What is left of the session `demoWire` after the first reply. -/
def restWire : Bytes := enc batchAB ++ (enc (putA [b!"abc"]) ++ (b!"0008quit" ++ b!"junk"))

theorem demo_talk : Talk .upload ([.put oidA 6 b!"abc123", .batch [(oidA, 6), (idF, 42)], .put oidA 6 b!"abc", .quit].map .ask)
    demoWire := C72_sessions demo_session

theorem rest_talk : Talk .upload (([.put oidA 6 b!"abc123", .batch [(oidA, 6), (idF, 42)], .put oidA 6 b!"abc", .quit].map
    Said.ask).drop 1) restWire :=
  C72_sessions (qs := [.batch [(oidA, 6), (idF, 42)], .put oidA 6 b!"abc", .quit])
    (.cons batchAB_encodes (frames_enc _ (by decide +kernel)) trivial (by simp)
      (.cons (putA_encodes [b!"abc"] (by decide)) (frames_enc _ (by decide +kernel)) rfl (by simp)
        (.quit (.quit (.inl rfl)) (frames_enc [.data b!"quit"] (by decide)))))

/-- The server of `demoWire`, killed after `n` calls. -/
def demoStopped (n : Nat) : World := stopped calm n (server Tests.cfg b!"upload" demoWire) ⟨fs0, [], 0⟩

/-- `C73_stopped`, `C73_read` and `C73_again_partial` apply to this session. Killed after 12 calls, the server has
received the object but has not stored it; after 14 calls the object is stored, but the client does not know; after 26
calls the client has one reply and some bytes of the next. -/
example : Rep Tests.cfg s0 fs0 ∧
    (demoStopped 12).fs.content (objPath Tests.cfg.root oidA) = none ∧ (demoStopped 12).out = b!"000eversion=1\n0000" ∧
    (demoStopped 14).fs.content (objPath Tests.cfg.root oidA) = some b!"abc123" ∧
    (demoStopped 14).out = b!"000eversion=1\n0000" ∧
    (demoStopped 26).out = b!"000eversion=1\n0000" ++ [b!"000fstatus 200\n0000"].flatten ++
      (b!"000fstatus 200\n0001004c" ++ oidA ++ b!" 6 noop\n") ∧
    IsReply b!"000fstatus 200\n0000" := by
  refine ⟨rep0, by decide +kernel, by decide +kernel, by decide +kernel, by decide +kernel, by decide +kernel, ?_⟩
  have h : b!"000fstatus 200\n0000" = enc (Reply.packets ⟨200, b!"200", [], none⟩) := by decide +kernel
  rw [h]
  exact ⟨⟨200, b!"200", [], none⟩, ⟨by decide, ⟨rfl, .snoc (s := b!"20") (n := 20) (v := 0) (.snoc (s := b!"2") (n := 2) (v := 0) (.one rfl) rfl) rfl⟩, by simp [PayloadsOk], by simp⟩, frames_enc _ (by decide +kernel)⟩

/-- Started again after 12 and after 26 calls, from the beginning and from the second request. -/
example : ((server Tests.cfg b!"upload" demoWire).run calm ⟨(demoStopped 12).fs, [], 0⟩).1 = ⟨0, []⟩ ∧
    ((server Tests.cfg b!"upload" demoWire).run calm ⟨(demoStopped 12).fs, [], 0⟩).2.fs.content
      (objPath Tests.cfg.root oidA) = some b!"abc123" ∧
    ((server Tests.cfg b!"upload" restWire).run calm ⟨(demoStopped 26).fs, [], 0⟩).1 = ⟨0, []⟩ ∧
    ((server Tests.cfg b!"upload" restWire).run calm ⟨(demoStopped 26).fs, [], 0⟩).2.fs.content
      (objPath Tests.cfg.root oidA) = some b!"abc123" := by
  refine ⟨by decide +kernel, by decide +kernel, by decide +kernel, by decide +kernel⟩

end Tests

end Verif
