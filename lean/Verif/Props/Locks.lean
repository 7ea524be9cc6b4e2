import Verif.Props.Objects
/-!
C26, C30, C32-C35, C42: what the commands on locks answer when the server runs alone and no call fails, for
every request, every store and every environment.
-/
namespace Verif
open Spec

variable {ch : Nat → Choice} {cfg : Cfg} {s : Store} {mode : Mode} {rest : Bytes} {r : Rdr} {w : World}

/-! ### The list of locks -/

theorem find_insert {l : Lock} {ls : List Lock} (id : Bytes)
    (hn : ls.find? (fun m => lockName cfg.sha m.path = lockName cfg.sha l.path) = none) :
    (insertLock cfg l ls).find? (fun m => lockName cfg.sha m.path = id) =
      if lockName cfg.sha l.path = id then some l else ls.find? (fun m => lockName cfg.sha m.path = id) := by
  have hls : ls.find? (fun m => lockName cfg.sha m.path = id) =
      (ls.takeWhile (fun m => lockName cfg.sha m.path < lockName cfg.sha l.path) ++
        ls.dropWhile (fun m => lockName cfg.sha m.path < lockName cfg.sha l.path)).find?
        (fun m => lockName cfg.sha m.path = id) := by rw [List.takeWhile_append_dropWhile]
  unfold insertLock
  by_cases h : lockName cfg.sha l.path = id
  · subst h
    rw [if_pos rfl, List.find?_append]
    have : (ls.takeWhile (fun m => lockName cfg.sha m.path < lockName cfg.sha l.path)).find?
        (fun m => lockName cfg.sha m.path = lockName cfg.sha l.path) = none := by
      rw [List.find?_eq_none] at hn ⊢
      intro x hx
      exact hn x ((List.takeWhile_prefix _).subset hx)
    rw [this]
    simp
  · rw [if_neg h, hls, List.find?_append, List.find?_append, List.find?_cons]
    simp [h]

theorem find_remove {ls : List Lock} (id id' : Bytes) :
    (ls.filter fun m => lockName cfg.sha m.path ≠ id).find? (fun m => lockName cfg.sha m.path = id') =
      if id' = id then none else ls.find? (fun m => lockName cfg.sha m.path = id') := by
  rw [List.find?_filter]
  by_cases h : id' = id
  · subst h
    rw [if_pos rfl, List.find?_eq_none]
    intro x _
    simp
  · rw [if_neg h]
    congr 1
    funext x
    by_cases hx : lockName cfg.sha x.path = id'
    · simp [hx, h]
    · simp [hx]

theorem find_name {l : Lock} {id : Bytes} (h : s.find cfg id = some l) : l ∈ s.locks ∧ lockName cfg.sha l.path = id :=
  ⟨List.mem_of_find?_eq_some h, by simpa using List.find?_some h⟩

/-! ### C26 -/

/-- **C26.** A lock request for a free path answers 201 with id and path (and a time and the owner), and
the lock is then held by the current user; for a held path it answers 409 with the id, path, time and
owner of the holder's lock, and nothing changes (400 if the lock that has the ID is for another path,
that is, if SHA-256 collides). Other locks, and the objects, are never touched. -/
theorem C26_lock_exact {path : Bytes} (h : Next cfg mode ch s (.lock path) rest r w) :
    OneReply cfg mode ch rest r w fun reply fs' => SameObjs cfg.root w.fs fs' ∧
      match held cfg.root w.fs (lockName cfg.sha path) with
      | none => reply.code = 201 ∧ reply.data = none ∧ ∃ t t', Clock cfg ch t ∧ Clock cfg ch t' ∧
          LinesPackets [b!"id=" ++ lockName cfg.sha path ++ b!"\n", b!"path=" ++ path ++ b!"\n",
            b!"locked-at=" ++ timeText cfg t' ++ b!"\n",
            b!"ownername=" ++ ownerName cfg cfg.uid ++ b!"\n"] reply.args ∧
          held cfg.root fs' (lockName cfg.sha path) = some (lockText ⟨path, t, cfg.uid⟩, cfg.uid) ∧
          ∀ id, id ≠ lockName cfg.sha path → held cfg.root fs' id = held cfg.root w.fs id
      | some (text, uid) => SameLocks cfg.root w.fs fs' ∧ ∃ l : Lock, text = lockText l ∧ uid = l.uid ∧
          if l.path = path then reply.code = 409 ∧ LinesPackets (lockFields cfg l) reply.args
          else reply.code = 400 := by
  obtain ⟨t, t', ht, ht', h0, reply, b, k0, k1, k2, k3, k4, k5, k6, k7⟩ := h.run (by simp)
  refine ⟨h0, reply, b, k0, k1, k2, ?_⟩
  rw [rep_held h.rep]
  cases hf : s.find cfg (lockName cfg.sha path) with
  | none =>
    simp only [answer, hf] at k3 k4 k5 k6
    refine ⟨sameObjs_of h.rep k6 fun _ _ => rfl, k3, k5, t, t', ht, ht', k4, ?_, ?_⟩
    · rw [rep_held k6]
      simp only [Store.find] at hf ⊢
      rw [find_insert _ hf]
      simp
    · intro id hid
      rw [rep_held k6, rep_held h.rep]
      simp only [Store.find] at hf ⊢
      rw [find_insert _ hf, if_neg (fun e => hid e.symm)]
  | some l =>
    by_cases hl : l.path = path
    · simp only [answer, hf, hl, if_true] at k3 k4 k5 k6
      exact ⟨sameObjs_of h.rep k6 fun _ _ => rfl, sameLocks_of h.rep k6 rfl, l, rfl, rfl,
        by rw [if_pos hl]; exact ⟨k3, k4⟩⟩
    · simp only [answer, hf, hl, if_false] at k3 k4 k5 k6
      exact ⟨sameObjs_of h.rep k6 fun _ _ => rfl, sameLocks_of h.rep k6 rfl, l, rfl, rfl,
        by rw [if_neg hl]; exact k3⟩

/-- Non-vacuity: a free path and a held one. -/
example : Next Tests.cfg .upload Tests.calm Tests.sL (.lock b!"a\nb=c") b!"xyz"
    (Tests.seeing (Tests.lockOf b!"a\nb=c") b!"xyz") ⟨Tests.fsL, b!"out", 3⟩ :=
  Tests.next _ _ _ (Tests.lockOf_encodes _) (by decide +kernel) rfl Tests.repL Tests.readyL
example : Next Tests.cfg .upload Tests.calm Tests.sL (.lock b!"g:h") b!"xyz"
    (Tests.seeing (Tests.lockOf b!"g:h") b!"xyz") ⟨Tests.fsL, b!"out", 3⟩ :=
  Tests.next _ _ _ (Tests.lockOf_encodes _) (by decide +kernel) rfl Tests.repL Tests.readyL
example : held Tests.cfg.root Tests.fsL (lockName Tests.cfg.sha b!"a\nb=c") = none ∧
    held Tests.cfg.root Tests.fsL (lockName Tests.cfg.sha b!"g:h") = some (b!"v1:5:g:h", 0) := by decide +kernel

/-! ### C30 -/

/-- **C30**, unlock: of an id with no lock it answers 404 and changes nothing; otherwise it answers 200
with the lock's fields, the lock is gone, and no other lock is affected. -/
theorem C30_unlock_exact {id : Bytes} (h : Next cfg mode ch s (.unlock id) rest r w) :
    OneReply cfg mode ch rest r w fun reply fs' => SameObjs cfg.root w.fs fs' ∧
      match held cfg.root w.fs id with
      | none => reply.code = 404 ∧ SameLocks cfg.root w.fs fs'
      | some (text, uid) => reply.code = 200 ∧ held cfg.root fs' id = none ∧
          (∀ id', id' ≠ id → held cfg.root fs' id' = held cfg.root w.fs id') ∧
          ∃ l : Lock, text = lockText l ∧ uid = l.uid ∧ LinesPackets (lockFields cfg l) reply.args := by
  obtain ⟨t, t', ht, ht', h0, reply, b, k0, k1, k2, k3, k4, k5, k6, k7⟩ := h.run (by simp)
  refine ⟨h0, reply, b, k0, k1, k2, ?_⟩
  rw [rep_held h.rep]
  cases hf : s.find cfg id with
  | none =>
    simp only [answer, hf] at k3 k4 k5 k6
    exact ⟨sameObjs_of h.rep k6 fun _ _ => rfl, k3, sameLocks_of h.rep k6 rfl⟩
  | some l =>
    simp only [answer, hf] at k3 k4 k5 k6
    refine ⟨sameObjs_of h.rep k6 fun _ _ => rfl, k3, ?_, ?_, l, rfl, rfl, k4⟩
    · rw [rep_held k6]
      simp only [Store.find, find_remove, if_true, Option.map_none]
    · intro id' hid
      rw [rep_held k6, rep_held h.rep]
      simp only [Store.find, find_remove, hid, if_false]

/-- Non-vacuity: a lock that is held, one that is not. -/
example : Next Tests.cfg .upload Tests.calm Tests.sL (.unlock Tests.idF) b!"xyz"
    (Tests.seeing Tests.unlockF b!"xyz") ⟨Tests.fsL, b!"out", 3⟩ :=
  Tests.next _ _ _ Tests.unlockF_encodes (by decide +kernel) rfl Tests.repL Tests.readyL
example : Next Tests.cfg .upload Tests.calm Tests.sA (.unlock Tests.idF) b!"xyz"
    (Tests.seeing Tests.unlockF b!"xyz") ⟨Tests.fsA, b!"out", 3⟩ :=
  Tests.next _ _ _ Tests.unlockF_encodes (by decide +kernel) rfl Tests.repA Tests.readyA

/-- Whether a path is held after some requests: `lock` of it takes it, `unlock` of its id frees it. -/
def heldAfter (sha : Bytes → Bytes) (path : Bytes) (init : Bool) (qs : List Request) : Bool :=
  qs.foldl (fun b q => match q with
    | .lock p => if p = path then true else b
    | .unlock id => if id = lockName sha path then false else b
    | _ => b) init

theorem served_held {qs : List Request} {b : Bytes} {s' : Store} {path : Bytes} (h : Served cfg mode ch s qs b s')
    (hcol : ∀ p, .lock p ∈ qs → lockName cfg.sha p = lockName cfg.sha path → p = path) :
    (s'.find cfg (lockName cfg.sha path)).isSome =
      heldAfter cfg.sha path (s.find cfg (lockName cfg.sha path)).isSome qs := by
  induction h with
  | nil => rfl
  | @cons s s' s'' q qs t t' a w ws _ _ ha _ _ ih =>
    rw [ih fun p hp => hcol p (List.mem_cons_of_mem _ hp)]
    simp only [heldAfter, List.foldl_cons]
    congr 1
    have hs : s' = (answer cfg mode s t t' q).2 := by rw [ha]
    subst hs
    cases q with
    | lock p =>
      simp only [answer]
      by_cases hp : p = path
      · subst hp
        rw [if_pos rfl]
        cases hf : s.find cfg (lockName cfg.sha p) with
        | none =>
          simp only [Store.find] at hf ⊢
          rw [find_insert _ hf]
          simp
        | some l =>
          by_cases hl : l.path = p
          · simp only [hl, if_true, hf, Option.isSome_some]
          · simp only [hl, if_false, hf, Option.isSome_some]
      · rw [if_neg hp]
        have hne : lockName cfg.sha p ≠ lockName cfg.sha path := fun e => hp (hcol p (by simp) e)
        cases hf : s.find cfg (lockName cfg.sha p) with
        | none =>
          simp only [Store.find] at hf ⊢
          rw [find_insert _ hf]
          simp [hne]
        | some l =>
          by_cases hl : l.path = p
          · simp only [hl, if_true]
          · simp only [hl, if_false]
    | unlock id =>
      simp only [answer]
      cases hf : s.find cfg id with
      | none =>
        by_cases hid : id = lockName cfg.sha path
        · rw [if_pos hid, ← hid, hf]; rfl
        · rw [if_neg hid]
      | some l =>
        simp only [Store.find, find_remove]
        by_cases hid : id = lockName cfg.sha path
        · simp [hid]
        · have hid' : ¬ lockName cfg.sha path = id := fun e => hid e.symm
          simp [hid, hid']
    | put o n d => simp only [answer]; split <;> rfl
    | verify o n => simp only [answer]; (repeat' split) <;> rfl
    | get o => simp only [answer]; split <;> rfl
    | listLocks p c l =>
      cases p with
      | none => rfl
      | some p => simp only [answer]; repeat' first | rfl | split
    | _ => rfl

/-- **C30**, histories: after any session, a path is locked exactly when the last `lock` of it or `unlock`
of its id in the session was the `lock` (or when there was none and it was locked before), whatever else
happened. In particular after `lock` and `unlock` it is free, and can be locked again. Assumed: no other
path locked in the session has an ID with the same SHA-256. -/
theorem C30_history (hc : ∀ n, (ch n).fault = none) (hsha : ∀ b, (cfg.sha b).length = 32)
    (hclk : ∀ t, Clock cfg ch t → TimeOk cfg t) {qs : List Request} {wire : Bytes} (hs : Session mode qs wire)
    (hr : Rep cfg s w.fs) (hi : r.input = wire) (hp : r.pending = []) (hfin : r.fin.kind = .unexpectedEof)
    {path : Bytes} (hcol : ∀ p, .lock p ∈ qs → lockName cfg.sha p = lockName cfg.sha path → p = path) :
    (held cfg.root ((mainProg cfg (Mode.operation mode) r).run ch w).2.fs (lockName cfg.sha path)).isSome =
      heldAfter cfg.sha path (held cfg.root w.fs (lockName cfg.sha path)).isSome qs := by
  obtain ⟨_, b, s', _, h1, h2⟩ := C37_pipelined hc hsha hclk hs hr hi hp hfin
  rw [rep_held h2, rep_held hr, Option.isSome_map, Option.isSome_map]
  exact served_held h1 hcol

/-- Non-vacuity: lock, unlock, lock again. -/
example : Session .upload [.lock b!"f", .unlock Tests.idF, .lock b!"f"]
    (Tests.enc (Tests.lockOf b!"f") ++ (Tests.enc Tests.unlockF ++ (Tests.enc (Tests.lockOf b!"f") ++ []))) :=
  .cons (Tests.lockOf_encodes _) (Tests.frames_enc _ (by decide +kernel)) rfl (by simp)
    (.cons Tests.unlockF_encodes (Tests.frames_enc _ (by decide +kernel)) rfl (by simp)
      (.cons (Tests.lockOf_encodes _) (Tests.frames_enc _ (by decide +kernel)) rfl (by simp) .eof))
example : heldAfter Tests.cfg.sha b!"f" false [.lock b!"f", .unlock Tests.idF] = false ∧
    heldAfter Tests.cfg.sha b!"f" false [.lock b!"f", .unlock Tests.idF, .lock b!"f"] = true ∧
    heldAfter Tests.cfg.sha b!"f" true [.lock b!"g", .unlock Tests.idG] = true := by decide +kernel

/-! ### C32 -/

/-- What the files say about a list of locks: each is there, with its content and owner, and there is
nothing else. -/
def AllHeld (cfg : Cfg) (fs : FS) (ls : List Lock) : Prop :=
  ∀ id v, held cfg.root fs id = some v ↔ ∃ l ∈ ls, lockName cfg.sha l.path = id ∧ v = (lockText l, l.uid)

theorem find_sorted {ls : List Lock}
    (h : ls.Pairwise fun l m => lockName cfg.sha l.path < lockName cfg.sha m.path) {l : Lock} (hl : l ∈ ls) :
    ls.find? (fun m => lockName cfg.sha m.path = lockName cfg.sha l.path) = some l := by
  induction ls with
  | nil => simp at hl
  | cons m ls ih =>
    rw [List.pairwise_cons] at h
    rcases List.mem_cons.mp hl with rfl | hl
    · simp
    · have hlt := h.1 l hl
      have : lockName cfg.sha m.path ≠ lockName cfg.sha l.path := fun e => by
        rw [e] at hlt
        exact absurd hlt (List.lt_irrefl _)
      rw [List.find?_cons]
      simp [this, ih h.2 hl]

theorem rep_allHeld {fs : FS} (h : Rep cfg s fs) : AllHeld cfg fs s.locks := by
  intro id v
  rw [rep_held h]
  constructor
  · intro hv
    obtain ⟨l, hl, rfl⟩ := Option.map_eq_some_iff.mp hv
    exact ⟨l, (find_name hl).1, (find_name hl).2, rfl⟩
  · rintro ⟨l, hl, rfl, rfl⟩
    simp only [Store.find, find_sorted h.sorted hl, Option.map_some]

/-- **C32.** Without cursor or path, and with at most as many locks as the limit, the listing has each
held lock exactly once, in increasing order of IDs, with its path, time and owner, and nothing else (not
even a cursor). No file is changed. -/
theorem C32_list_exact {limit : Option Nat} (h : Next cfg mode ch s (.listLocks none none limit) rest r w) :
    ∃ ls : List Lock, AllHeld cfg w.fs ls ∧
      ls.Pairwise (fun l m => lockName cfg.sha l.path < lockName cfg.sha m.path) ∧
      (ls.length ≤ min (limit.getD 100) 100 → OneReply cfg mode ch rest r w fun reply fs' =>
        fs' = w.fs ∧ reply.code = 200 ∧ reply.args = [] ∧ ∃ ds, reply.data = some ds ∧
          LinesPackets (ls.flatMap (lockLines cfg mode)) ds) := by
  refine ⟨s.locks, rep_allHeld h.rep, h.rep.sorted, fun hlen => ?_⟩
  obtain ⟨t, t', ht, ht', h0, reply, b, k0, k1, k2, k3, k4, k5, k6, k7⟩ := h.run (by simp)
  refine ⟨h0, reply, b, k0, k1, k2, h.fs trivial, k3, ?_, ?_⟩
  · simp only [answer, fromCursor] at k4
    rw [List.getElem?_eq_none (by rw [List.length_take]; unfold pageSize; omega)] at k4
    have k4 : LinesPackets [] reply.args := k4
    generalize reply.args = x at k4
    cases k4; rfl
  · simp only [answer, fromCursor] at k5
    rwa [List.take_of_length_le (by unfold pageSize; omega)] at k5

/-- Non-vacuity: two locks, listed without arguments. -/
example (mode : Mode) : Next Tests.cfg mode Tests.calm Tests.sL (.listLocks none none none) b!"xyz"
    (Tests.seeing Tests.listAll b!"xyz") ⟨Tests.fsL, b!"out", 3⟩ :=
  Tests.next _ _ _ Tests.listAll_encodes (by decide +kernel) trivial Tests.repL Tests.readyL

/-! ### C33 -/

theorem linePackets_ne {l : Bytes} {ps : List Bytes} (h : LinePackets l ps) : ps ≠ [] := by
  cases h <;> simp

theorem linesPackets_nil {ls : List Bytes} (h : LinesPackets ls []) : ls = [] := by
  generalize hx : ([] : List Bytes) = x at h
  cases h with
  | nil => rfl
  | cons hl _ =>
    have := (List.append_eq_nil_iff.mp hx.symm).1
    exact absurd this (linePackets_ne hl)

/-- **C33**, what holds: a listing has at most *one more* lock than the limit (and than 100); it is one
more exactly when a cursor is given, and then the cursor names the last lock of the page. Missing: the
bound itself, see `C33_refuted`. -/
theorem C33_page_partial {cursor : Option Bytes} {limit : Option Nat}
    (h : Next cfg mode ch s (.listLocks none cursor limit) rest r w) :
    OneReply cfg mode ch rest r w fun reply fs' => fs' = w.fs ∧ reply.code = 200 ∧
      ∃ (page : List Lock) (ds : List Bytes), (∀ l ∈ page, l ∈ s.locks) ∧ reply.data = some ds ∧
        LinesPackets (page.flatMap (lockLines cfg mode)) ds ∧
        page.length ≤ min (limit.getD 100) 100 + 1 ∧
        (reply.args = [] → page.length ≤ min (limit.getD 100) 100) ∧
        (reply.args ≠ [] → ∃ l, page[min (limit.getD 100) 100]? = some l ∧
          LinesPackets [b!"next-cursor=" ++ lockName cfg.sha l.path ++ b!"\n"] reply.args) := by
  obtain ⟨t, t', ht, ht', h0, reply, b, k0, k1, k2, k3, k4, k5, k6, k7⟩ := h.run (by simp)
  refine ⟨h0, reply, b, k0, k1, k2, h.fs trivial, k3, ?_⟩
  simp only [answer] at k4 k5
  obtain ⟨ds, e1, e2⟩ := k5
  refine ⟨(fromCursor cfg cursor s.locks).take (pageSize limit + 1), ds, ?_, e1, e2, ?_, ?_, ?_⟩
  · intro l hl
    have := (List.take_sublist _ _).subset hl
    unfold fromCursor at this
    split at this
    · exact (List.dropWhile_sublist _).subset this
    · exact this
  · rw [List.length_take]; unfold pageSize; omega
  · intro ha
    rw [ha] at k4
    cases hp : ((fromCursor cfg cursor s.locks).take (pageSize limit + 1))[pageSize limit]? with
    | none =>
      have := List.getElem?_eq_none_iff.mp hp
      exact this
    | some l =>
      rw [hp] at k4
      have := linesPackets_nil k4
      simp at this
  · intro ha
    cases hp : ((fromCursor cfg cursor s.locks).take (pageSize limit + 1))[pageSize limit]? with
    | none =>
      rw [hp] at k4
      have k4 : LinesPackets [] reply.args := k4
      exact absurd (linesPackets_unique k4 .nil) ha
    | some l =>
      rw [hp] at k4
      exact ⟨l, hp, k4⟩

/-- The number of locks in a listing. -/
def lockCount (reply : Reply) : Nat := (reply.data.getD []).countP (b!"lock ").isPrefixOf

namespace Tests

/-- The listing with limit 1 of a store with two locks. -/
def listed : Reply :=
  ⟨200, b!"200", [b!"next-cursor=" ++ idG ++ b!"\n"], some (lockLines Tests.cfg .upload ⟨b!"f", 1000684800, 1000⟩ ++
    lockLines Tests.cfg .upload ⟨b!"g:h", 5, 0⟩)⟩

theorem listed_ok : listed.Ok where
  code := by decide
  digits := ⟨rfl, (dec_iff _ _).mpr (by decide)⟩
  args := by unfold PayloadsOk; decide +kernel
  data ds h := by
    have : ds = lockLines Tests.cfg .upload ⟨b!"f", 1000684800, 1000⟩ ++ lockLines Tests.cfg .upload ⟨b!"g:h", 5, 0⟩ := by
      cases h; rfl
    subst this
    unfold PayloadsOk
    decide +kernel

end Tests

/-- **C33** is false for the code: two locks are listed though the limit is one. -/
theorem C33_refuted : ∃ (cfg : Cfg) (ch : Nat → Choice) (s : Store) (r : Rdr) (w : World),
    Next cfg .upload ch s (.listLocks none none (some 1)) [] r w ∧
    OneReply cfg .upload ch [] r w fun reply _ => lockCount reply = 2 := by
  refine ⟨Tests.cfg, Tests.calm, Tests.sL, Tests.seeing (Tests.listOne none) [], ⟨Tests.fsL, [], 0⟩,
    Tests.next _ _ _ (Tests.listOne_encodes none) (by decide +kernel) trivial Tests.repL Tests.readyL, ?_, ?_⟩
  · have := (Tests.next [] [] 0 (Tests.listOne_encodes none) (mode := .upload) (by decide +kernel) trivial
      Tests.repL Tests.readyL).run (by simp)
    obtain ⟨t, t', _, _, h, _⟩ := this
    exact h
  · exact ⟨Tests.listed, Tests.enc Tests.listed.packets, Tests.listed_ok,
      Tests.frames_enc _ (by decide +kernel), by decide +kernel, by decide +kernel⟩

/-! ### C35 -/

/-- The lines of a lock, the last one being the flag. -/
def flaggedLines (cfg : Cfg) (mode : Mode) (l : Lock) : List Bytes :=
  let id := lockName cfg.sha l.path
  let owner := (cfg.passwd l.uid).getD (b!"uid " ++ decimal l.uid)
  let me := (cfg.passwd cfg.uid).getD (b!"uid " ++ decimal cfg.uid)
  [b!"lock " ++ id ++ b!"\n", b!"path " ++ id ++ b!" " ++ l.path ++ b!"\n",
   b!"locked-at " ++ id ++ b!" " ++ timeText cfg l.time ++ b!"\n",
   b!"ownername " ++ id ++ b!" " ++ owner ++ b!"\n"] ++
  (match mode with
    | .upload => [b!"owner " ++ id ++ b!" " ++ (if owner = me then b!"ours" else b!"theirs") ++ b!"\n"]
    | .download => [])

theorem flaggedLines_eq : flaggedLines cfg mode = lockLines cfg mode := by
  funext l
  cases mode <;> rfl

/-- **C35.** In upload mode each listed lock is flagged `ours` exactly when its owner's name is the
current user's name, and `theirs` otherwise; in download mode there is no flag. (The reply is 200 with
these lines, or an error without locks.) -/
theorem C35_owner_flag {path cursor : Option Bytes} {limit : Option Nat}
    (h : Next cfg mode ch s (.listLocks path cursor limit) rest r w) :
    OneReply cfg mode ch rest r w fun reply _ => reply.code ≠ 200 ∨
      ∃ (ls : List Lock) (ds : List Bytes), (∀ l ∈ ls, l ∈ s.locks) ∧ reply.data = some ds ∧
        LinesPackets (ls.flatMap (flaggedLines cfg mode)) ds := by
  obtain ⟨t, t', ht, ht', h0, reply, b, k0, k1, k2, k3, k4, k5, k6, k7⟩ := h.run (by simp)
  refine ⟨h0, reply, b, k0, k1, k2, ?_⟩
  rw [flaggedLines_eq]
  cases path with
  | none =>
    simp only [answer] at k5
    obtain ⟨ds, e1, e2⟩ := k5
    refine .inr ⟨_, ds, ?_, e1, e2⟩
    intro l hl
    have := (List.take_sublist _ _).subset hl
    unfold fromCursor at this
    split at this
    · exact (List.dropWhile_sublist _).subset this
    · exact this
  | some p =>
    simp only [answer] at k3 k5
    cases hf : s.find cfg (lockName cfg.sha p) with
    | none =>
      rw [hf] at k3
      have k3 : reply.code = 404 := k3
      exact .inl (by rw [k3]; decide)
    | some l =>
      rw [hf] at k3 k5
      by_cases hl : l.path ≠ p
      · simp only [hl, if_true, ne_eq, not_false_eq_true] at k3
        have k3 : reply.code = 400 := k3
        exact .inl (by rw [k3]; decide)
      · simp only [hl, if_false] at k3 k5
        split at k3
        · have k3 : reply.code = 404 := k3
          exact .inl (by rw [k3]; decide)
        · rename_i hc
          rw [if_neg hc] at k5
          obtain ⟨ds, e1, e2⟩ := k5
          exact .inr ⟨[l], ds, by simpa using (find_name hf).1, e1, by simpa using e2⟩

/-- Non-vacuity: the locks of `sL` belong to the current user and to somebody else. -/
example : flaggedLines Tests.cfg .upload ⟨b!"f", 1000684800, 1000⟩ = [b!"lock " ++ Tests.idF ++ b!"\n",
    b!"path " ++ Tests.idF ++ b!" f\n", b!"locked-at " ++ Tests.idF ++ b!" 2001-09-17T00:00:00+00:00\n",
    b!"ownername " ++ Tests.idF ++ b!" test user\n", b!"owner " ++ Tests.idF ++ b!" ours\n"] := by decide +kernel
example : (flaggedLines Tests.cfg .upload ⟨b!"g:h", 5, 0⟩).drop 3 =
    [b!"ownername " ++ Tests.idG ++ b!" uid 0\n", b!"owner " ++ Tests.idG ++ b!" theirs\n"] := by decide +kernel
example : (flaggedLines Tests.cfg .download ⟨b!"g:h", 5, 0⟩).drop 3 =
    [b!"ownername " ++ Tests.idG ++ b!" uid 0\n"] := by decide +kernel

/-! ### C42 -/

/-- **C42**, what holds: when the clock does not move (in particular when the time is configured), the
time reported by `lock` is the recorded one. Missing: the general case, see `C42_refuted`. -/
theorem C42_time_partial {path : Bytes} (h : Next cfg mode ch s (.lock path) rest r w)
    (hfree : held cfg.root w.fs (lockName cfg.sha path) = none)
    (hstill : ∀ t t', Clock cfg ch t → Clock cfg ch t' → t = t') :
    OneReply cfg mode ch rest r w fun reply fs' => reply.code = 201 ∧ ∃ l : Lock, l.path = path ∧
      held cfg.root fs' (lockName cfg.sha path) = some (lockText l, l.uid) ∧
      LinesPackets (lockFields cfg l) reply.args := by
  refine (C26_lock_exact h).mono ?_
  rintro reply fs' _ ⟨_, k⟩
  rw [hfree] at k
  obtain ⟨k1, _, t, t', ht, ht', k2, k3, _⟩ := k
  have := hstill t t' ht ht'
  subst this
  exact ⟨k1, ⟨path, t, cfg.uid⟩, rfl, k3, k2⟩

namespace Tests

/-- A clock that moves. -/
def ticking : Nat → Choice := fun n => { Choice.none with time := min (10 * n) 1000 }
def cfgT : Cfg := { Tests.cfg with timestamp := none }

theorem ticking_ok (t : Int) (h : Clock cfgT ticking t) : TimeOk cfgT t := by
  rcases h with h | ⟨_, n, rfl⟩
  · cases h
  · have h0 : 0 ≤ (ticking n).time ∧ (ticking n).time ≤ 1000 := by
      simp only [ticking]; omega
    refine ⟨by omega, by omega, ?_⟩
    show (rfc3339 (ticking n).time).isSome = true
    unfold rfc3339
    rw [if_neg (by omega)]
    rfl

end Tests

/-- **C42** is false for the code: the lock is recorded with time 0 and reported with another time. -/
theorem C42_refuted : ∃ (cfg : Cfg) (ch : Nat → Choice) (s : Store) (r : Rdr) (w : World),
    Next cfg .upload ch s (.lock b!"x") [] r w ∧ timeText cfg 0 ≠ b!"1970-01-01T00:01:00+00:00" ∧
    ((turn cfg .upload r).run ch w).2.out = Tests.enc [.data b!"status 201\n",
      .data (b!"id=" ++ lockName cfg.sha b!"x" ++ b!"\n"), .data b!"path=x\n",
      .data b!"locked-at=1970-01-01T00:01:00+00:00\n", .data b!"ownername=test user\n", .flush] ∧
    held cfg.root ((turn cfg .upload r).run ch w).2.fs (lockName cfg.sha b!"x") =
      some (lockText ⟨b!"x", 0, cfg.uid⟩, cfg.uid) := by
  refine ⟨Tests.cfgT, Tests.ticking, Tests.sL, Tests.seeing (Tests.lockOf b!"x") [], ⟨Tests.fsL, [], 0⟩, ?_,
    by decide +kernel, by decide +kernel, by decide +kernel⟩
  have h := Tests.repL
  exact ⟨fun _ => rfl, Tests.sha_len, Tests.ticking_ok,
    ⟨_, _, Tests.lockOf_encodes _, Tests.frames_enc _ (by decide +kernel), rfl⟩, rfl, rfl,
    ⟨h.objs, h.locks, h.only, h.sorted, h.times, h.objFiles, h.lockFiles, h.noFile, h.nodup, h.bound⟩, Tests.readyL⟩

/-- Non-vacuity of `C42_time_partial`: the demo configuration has a fixed time. -/
example (t t' : Int) (h : Clock Tests.cfg Tests.calm t) (h' : Clock Tests.cfg Tests.calm t') : t = t' := by
  rcases h with h | ⟨h, _⟩ <;> rcases h' with h' | ⟨h', _⟩
  · cases h; cases h'; rfl
  all_goals first | (cases h; done) | (cases h'; done)

/-! ### C34 -/

/-- `Cover cfg ls cs pages`: the pages are consecutive pieces of `ls`, all of it, each overlapping with
the next in exactly one lock, whose ID is the cursor; every page but the last makes progress. -/
inductive Cover (cfg : Cfg) : List Lock → List Bytes → List (List Lock) → Prop
  | last {ls : List Lock} : Cover cfg ls [] [ls]
  | next {a : List Lock} {l : Lock} {ls : List Lock} {cs : List Bytes} {pages : List (List Lock)} :
      a ≠ [] → Cover cfg (l :: ls) cs pages →
      Cover cfg (a ++ l :: ls) (lockName cfg.sha l.path :: cs) ((a ++ [l]) :: pages)

/-- `Pages cfg mode cs pages w`: the bytes `w` are replies listing the pages, each but the last one giving
the next cursor. -/
inductive Pages (cfg : Cfg) (mode : Mode) : List Bytes → List (List Lock) → Bytes → Prop
  | last {page : List Lock} {w : Bytes} :
      Sends ⟨200, [], .lines (page.flatMap (lockLines cfg mode))⟩ w → Pages cfg mode [] [page] w
  | next {c : Bytes} {cs : List Bytes} {page : List Lock} {pages : List (List Lock)} {w ws : Bytes} :
      Sends ⟨200, [b!"next-cursor=" ++ c ++ b!"\n"], .lines (page.flatMap (lockLines cfg mode))⟩ w →
      Pages cfg mode cs pages ws → Pages cfg mode (c :: cs) (page :: pages) (w ++ ws)

theorem fromCursor_sorted {a : List Lock} {l : Lock} {ls : List Lock}
    (h : (a ++ l :: ls).Pairwise fun l m => lockName cfg.sha l.path < lockName cfg.sha m.path) :
    fromCursor cfg (some (lockName cfg.sha l.path)) (a ++ l :: ls) = l :: ls := by
  simp only [fromCursor]
  induction a with
  | nil =>
    rw [List.nil_append, List.dropWhile_cons_of_neg]
    simp [List.lt_irrefl]
  | cons x a ih =>
    rw [List.cons_append, List.pairwise_cons] at h
    have := h.1 l (by simp)
    rw [List.cons_append, List.dropWhile_cons_of_pos (by simpa using this)]
    exact ih h.2

theorem cover_exists {p : Nat} (hp : 1 ≤ p) : ∀ (n : Nat) (front ls : List Lock), ls.length ≤ n →
    ∃ cs pages, Cover cfg ls cs pages ∧ (
      (front ++ ls).Pairwise (fun l m => lockName cfg.sha l.path < lockName cfg.sha m.path) →
      ∀ (c : Option Bytes) (limit : Option Nat), pageSize limit = p → fromCursor cfg c (front ++ ls) = ls →
      ∀ (st : Store), st.locks = front ++ ls → ∀ b s',
      Served cfg mode ch st (.listLocks none c limit :: cs.map fun c => .listLocks none (some c) limit) b s' →
      Pages cfg mode cs pages b)
  | n, front, ls, hn => by
    by_cases hl : ls.length ≤ p
    · refine ⟨[], [ls], .last, ?_⟩
      intro hsort c limit hlim hc st hst b s' hs
      cases hs with
      | @cons _ _ _ _ _ t t' a w ws ht ht' ha hw hrest =>
        cases hrest
        simp only [answer, hst, hc, hlim] at ha
        rw [List.take_of_length_le (by omega), List.getElem?_eq_none hl] at ha
        cases ha
        rw [List.append_nil]
        exact .last hw
    · have hlt : p < ls.length := by omega
      match n, hn with
      | 0, hn => exact absurd hlt (by omega)
      | n + 1, hn =>
        have hsplit : ls = ls.take p ++ ls[p] :: ls.drop (p + 1) := by
          rw [List.getElem_cons_drop, List.take_append_drop]
        obtain ⟨cs, pages, h1, h2⟩ := cover_exists hp n (front ++ ls.take p) (ls[p] :: ls.drop (p + 1))
          (by simp only [List.length_cons, List.length_drop]; omega)
        have happ : front ++ ls.take p ++ (ls[p] :: ls.drop (p + 1)) = front ++ ls := by
          rw [List.append_assoc, ← hsplit]
        refine ⟨lockName cfg.sha ls[p].path :: cs, (ls.take p ++ [ls[p]]) :: pages, ?_, ?_⟩
        · conv => arg 2; rw [hsplit]
          refine .next ?_ h1
          intro h0
          have := congrArg List.length h0
          rw [List.length_take, List.length_nil] at this
          omega
        · intro hsort c limit hlim hc st hst b s' hs
          cases hs with
          | @cons _ s1 _ _ _ t t' a w ws ht ht' ha hw hrest =>
            simp only [answer, hst, hc, hlim] at ha
            have e1 : ls.take (p + 1) = ls.take p ++ [ls[p]] := by
              rw [List.take_succ_eq_append_getElem hlt]
            have e2 : (ls.take (p + 1))[p]? = some ls[p] := by
              rw [List.getElem?_take_of_lt (by omega)]
              exact List.getElem?_eq_getElem hlt
            rw [e2, e1] at ha
            cases ha
            refine .next hw ?_
            refine h2 ?_ (some (lockName cfg.sha ls[p].path)) limit hlim ?_ st ?_ ws s' ?_
            · rw [happ]; exact hsort
            · refine fromCursor_sorted ?_
              rw [happ]; exact hsort
            · rw [happ]; exact hst
            · simpa using hrest

/-- **C34.** Listing without cursor and then, as long as the reply gives one, with the next cursor, ends
after finitely many requests; the pages so obtained cover all locks in order, consecutive pages
overlapping in exactly the lock named by the cursor. -/
theorem C34_traversal (hc : ∀ n, (ch n).fault = none) (hsha : ∀ b, (cfg.sha b).length = 32)
    (hclk : ∀ t, Clock cfg ch t → TimeOk cfg t) (hr : Rep cfg s w.fs) {limit : Option Nat}
    (hlim : ∀ n, limit = some n → 1 ≤ n) :
    ∃ (ls : List Lock) (cs : List Bytes) (pages : List (List Lock)), AllHeld cfg w.fs ls ∧
      ls.Pairwise (fun l m => lockName cfg.sha l.path < lockName cfg.sha m.path) ∧
      Cover cfg ls cs pages ∧
      ∀ (wire : Bytes) (r : Rdr), Session mode
          (.listLocks none none limit :: cs.map fun c => .listLocks none (some c) limit) wire →
        r.input = wire → r.pending = [] → r.fin.kind = .unexpectedEof →
        ∃ b, ((mainProg cfg (Mode.operation mode) r).run ch w).2.out =
          w.out ++ b!"000eversion=1\n0000" ++ b ∧ Pages cfg mode cs pages b := by
  have hp : 1 ≤ pageSize limit := by
    unfold pageSize
    cases limit with
    | none => decide
    | some n => have := hlim n rfl; simp only [Option.getD_some]; omega
  obtain ⟨cs, pages, h1, h2⟩ := cover_exists (cfg := cfg) (mode := mode) (ch := ch) hp _ [] s.locks (Nat.le_refl _)
  refine ⟨s.locks, cs, pages, rep_allHeld hr, hr.sorted, h1, ?_⟩
  intro wire r hs hi hpend hfin
  obtain ⟨_, b, s', e, hserved, _⟩ := C37_pipelined hc hsha hclk hs hr hi hpend hfin
  exact ⟨b, e, h2 hr.sorted none limit rfl rfl s rfl b s' hserved⟩

/-- Non-vacuity: two locks, one per page: the second request uses the cursor of the first reply. -/
example : Cover Tests.cfg Tests.sL.locks [Tests.idG]
    [[⟨b!"f", 1000684800, 1000⟩, ⟨b!"g:h", 5, 0⟩], [⟨b!"g:h", 5, 0⟩]] := by
  rw [← Tests.lockName_g]
  exact .next (a := [⟨b!"f", 1000684800, 1000⟩]) (by simp) .last
example (mode : Mode) : Session mode (.listLocks none none (some 1) :: [Tests.idG].map fun c => .listLocks none (some c) (some 1))
    (Tests.enc (Tests.listOne none) ++ (Tests.enc (Tests.listOne (some Tests.idG)) ++ [])) :=
  .cons (Tests.listOne_encodes _) (Tests.frames_enc _ (by decide +kernel)) trivial (by simp)
    (.cons (Tests.listOne_encodes _) (Tests.frames_enc _ (by decide +kernel)) trivial (by simp) .eof)

end Verif
