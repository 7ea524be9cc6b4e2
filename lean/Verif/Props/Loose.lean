import Verif.Spec.Loose
import Verif.Props.Report
import Verif.Props.Readable
/-!
C84: listings of locks, whatever happens to other files meanwhile.
-/
namespace Verif
open Spec

variable {cfg : Cfg} {mode : Mode}

theorem recordIs_unique {d path path' : Bytes} {t t' : Int} (h : RecordIs d t path) (h' : RecordIs d t' path') :
    t = t' ∧ path = path' := by
  have := (parseLock_iff.mpr h).symm.trans (parseLock_iff.mpr h')
  simpa using this

theorem Spec.Steady.lock {tr : List Event} {l x : Shown} (h : Steady cfg tr l)
    (hx : SaidLock cfg tr (lockName cfg.sha l.path) x) : x = l := by
  obtain ⟨⟨d, ⟨k, cs, h1, h2, rfl⟩, h3⟩, h4⟩ := hx
  obtain ⟨e1, e2⟩ := recordIs_unique h3 ((h.read k h1).2 _ h2).2
  have : x.owner = l.owner := by
    rcases h4 with ⟨st, h5, h6⟩ | ⟨e, h5, _⟩
    · obtain ⟨st', h7, h8⟩ := h.stated _ h5
      cases h7
      rw [h6, h8]
    · obtain ⟨st', h7, _⟩ := h.stated _ h5
      cases h7
  cases x; cases l; simp_all

theorem not_lt_of_not_lt {a b c : Bytes} (h1 : ¬ b < a) (h2 : ¬ c < b) : ¬ c < a :=
  List.not_lt.mpr (List.le_trans (List.not_lt.mp h1) (List.not_lt.mp h2))

/-- In a listing that reads these names, in this order, the lock is shown, unless the page is full before. -/
theorem named_shown {lax : Bool} {tr : List Event} {cursor : Option Bytes} {l : Shown} {k : Nat} {all names : List Bytes}
    {ls : List Shown} (hid : IsOid (lockName cfg.sha l.path)) (hs : Steady cfg tr l)
    (hc : ∀ c, cursor = some c → ¬ lockName cfg.sha l.path < c)
    (hd : (⟨.readDir (cfg.root ++ [b!"locks"]), .ok all⟩ : Event) ∈ tr) (hsub : ∀ n ∈ names, n ∈ all)
    (hsort : names.Pairwise (fun a b => ¬ b < a))
    (hmem : lockName cfg.sha l.path ∈ names) (h : NamesSaid lax cfg tr cursor k names ls) :
    l ∈ ls ∨ (ls.length = k ∧ ∀ x ∈ ls, ¬ lockName cfg.sha l.path < lockName cfg.sha x.path ∨ Misnamed cfg tr x) := by
  induction h with
  | nil => cases hmem
  | full => exact .inr ⟨rfl, fun _ h => by cases h⟩
  | @lock k n id ns x ls h1 h2 _ ih =>
    by_cases hn : n = lockName cfg.sha l.path
    · subst hn
      rw [oid_kept hid h2] at h1
      rw [hs.lock h1]
      exact .inl (List.mem_cons_self ..)
    · have hm := (List.mem_cons.mp hmem).resolve_left (Ne.symm hn)
      rcases ih (fun n h => hsub n (by simp [h])) (List.pairwise_cons.mp hsort).2 hm with h | ⟨h3, h4⟩
      · exact .inl (List.mem_cons_of_mem _ h)
      · refine .inr ⟨by simp [h3], fun y hy => ?_⟩
        rcases List.mem_cons.mp hy with rfl | hy
        · by_cases hp : n < lockName cfg.sha y.path
          · exact .inr ⟨all, n, id, hd, hsub n (by simp), h2, h1, hp⟩
          · exact .inl (not_lt_of_not_lt hp ((List.pairwise_cons.mp hsort).1 _ hm))
        · exact h4 y hy
  | @before k n id c ns x ls h1 h2 h3 h4 _ ih =>
    by_cases hn : n = lockName cfg.sha l.path
    · subst hn
      rw [oid_kept hid h2] at h1
      rw [hs.lock h1] at h4
      exact absurd h4 (hc c h3)
    · exact ih (fun n h => hsub n (by simp [h])) (List.pairwise_cons.mp hsort).2
        ((List.mem_cons.mp hmem).resolve_left (Ne.symm hn))
  | @gone k n id ns ls h1 h2 _ ih =>
    by_cases hn : n = lockName cfg.sha l.path
    · subst hn
      rw [oid_kept hid h2] at h1
      obtain ⟨e, _, h | h | ⟨hh, h, h'⟩⟩ := h1
      · obtain ⟨_, h, _⟩ := hs.stated _ h
        cases h
      · exact absurd h (hs.opened _)
      · exact absurd h' ((hs.read _ h).1 _)
    · exact ih (fun n h => hsub n (by simp [h])) (List.pairwise_cons.mp hsort).2
        ((List.mem_cons.mp hmem).resolve_left (Ne.symm hn))
  | @noLock k n id d ns ls h1 h2 h3 _ ih =>
    by_cases hn : n = lockName cfg.sha l.path
    · subst hn
      rw [oid_kept hid h2] at h1
      obtain ⟨hh, cs, h4, h5, rfl⟩ := h1
      exact absurd ((hs.read _ h4).2 _ h5).2 (h3 _ _)
    · exact ih (fun n h => hsub n (by simp [h])) (List.pairwise_cons.mp hsort).2
        ((List.mem_cons.mp hmem).resolve_left (Ne.symm hn))
  | @failed k n id ns ls _ h2 h1 _ ih =>
    by_cases hn : n = lockName cfg.sha l.path
    · subst hn
      rw [oid_kept hid h2] at h1
      rcases h1 with ⟨e, h⟩ | ⟨hh, cs, e, h, h'⟩
      · exact absurd h (hs.opened _)
      · have := ((hs.read _ h).2 _ h').1
        cases this
    · exact ih (fun n h => hsub n (by simp [h])) (List.pairwise_cons.mp hsort).2
        ((List.mem_cons.mp hmem).resolve_left (Ne.symm hn))

/-- **C84, one listing.** Whatever the OS answers about other files (and even if listing the directory gives names that
come and go), a lock whose file is answered for steadily is shown, if it is not before the cursor. Otherwise the reply is
an internal error, or the page is full and the next one starts at or before the lock, or with a misnamed lock. (The server
may also panic, at a time that cannot be shown.) -/
theorem C84_shown {ps : List Packet} {wire rest : Bytes} {r r' : Rdr} {tr : List Event} {x : Res Turn} {cursor : Option Bytes}
    {limit : Option Nat} {l : Shown}
    (hsha : ∀ b, (cfg.sha b).length = 32) (he : Encodes (.listLocks none cursor limit) ps) (hF : Frames ps wire)
    (hi : r.input = wire ++ rest) (hp : r.pending = [])
    (h : (turn cfg mode r).Finished tr (x, r')) (ho : ∀ e ∈ tr, e.OutOk) (hs : Steady cfg tr l)
    (hc : ∀ c, cursor = some c → ¬ lockName cfg.sha l.path < c) :
    x = .panic ∨ (x = .ok .again ∧ ∃ a, Sends a (output tr) ∧ ((∃ t, a = ⟨500, [], .lines t⟩) ∨
      ∃ ls, a = showing cfg mode limit ls ∧ (l ∈ ls ∨
        ∃ y, ls[pageSize limit]? = some y ∧ (¬ lockName cfg.sha l.path < lockName cfg.sha y.path ∨ Misnamed cfg tr y)))) := by
  rcases C60_request_partial hsha he hF hi hp trivial h ho with h | ⟨hx, a, h1, h2, _⟩ | ⟨_, _, _, _, _, _, h, _⟩
  · exact .inl h
  · refine .inr ⟨hx, a, h1, ?_⟩
    cases h2 with
    | internal => exact .inl ⟨_, rfl⟩
    | @listing _ _ names sorted ls k1 k2 k3 k4 =>
      refine .inr ⟨ls, rfl, ?_⟩
      rcases named_shown (isOid_lockName hsha _) hs hc k1 (fun n h => k2.mem_iff.mp h) k3 (k2.mem_iff.mpr (hs.listed _ k1)) k4 with h | ⟨h3, h4⟩
      · exact .inl h
      · have : pageSize limit < ls.length := by omega
        exact .inr ⟨_, List.getElem?_eq_getElem this, h4 _ (List.getElem_mem this)⟩
  · cases h


/-! ### All pages -/

theorem pointer_showing {w : Bytes} {next : Option Bytes} {limit : Option Nat} {ls : List Shown} (hsha : ∀ b, (cfg.sha b).length = 32)
    (h : Pointer w next) (hs : Sends (showing cfg mode limit ls) w) :
    next = ls[pageSize limit]?.map fun y => lockName cfg.sha y.path := by
  obtain ⟨r, ho, hF, _, hg⟩ := h
  obtain ⟨r', ho', hF', _, hg', _⟩ := hs
  obtain rfl := C71_reply ho ho' hF hF'
  have hlen : ∀ l ∈ (showing cfg mode limit ls).args, l.length ≤ 65516 := by
    intro l hl
    simp only [showing, Option.mem_toList, Option.map_eq_some_iff] at hl
    obtain ⟨y, _, rfl⟩ := hl
    have := (isOid_lockName hsha y.path).1
    simp [this]
  have key := linesPackets_short hlen hg'
  rw [hg] at key
  cases hy : ls[pageSize limit]? with
  | none =>
    simp only [showing, hy, Option.map_none, Option.toList_none] at key
    cases next with
    | none => rfl
    | some c => simp at key
  | some y =>
    simp only [showing, hy, Option.map_some, Option.toList_some] at key
    cases next with
    | none => simp at key
    | some c => simpa using key

theorem pointer_internal {w : Bytes} {next : Option Bytes} {t : List Bytes} (h : Pointer w next)
    (hs : Sends ⟨500, [], .lines t⟩ w) : False := by
  obtain ⟨r, ho, hF, hc, hg⟩ := h
  obtain ⟨r', ho', hF', hc', hg', _⟩ := hs
  obtain rfl := C71_reply ho ho' hF hF'
  rw [hc] at hc'
  cases hc'

/-- **C84, all pages.** A client asks for page after page, until there is no next one, all replies being successes. A lock
that is not before the first cursor, and whose file is answered for steadily all the time, is shown on one of the pages
(whatever was answered about other files, provided none of them is misnamed). -/
theorem C84_pages {cursor : Option Bytes} {trs : List (List Event)} {l : Shown} (hsha : ∀ b, (cfg.sha b).length = 32)
    (h : PagesFrom cfg mode cursor trs) (hs : ∀ tr ∈ trs, Steady cfg tr l) (hm : ∀ tr ∈ trs, ∀ y, ¬ Misnamed cfg tr y)
    (hc : ∀ c, cursor = some c → ¬ lockName cfg.sha l.path < c) :
    ∃ tr ∈ trs, ∃ limit ls, Sends (showing cfg mode limit ls) (output tr) ∧ l ∈ ls := by
  induction h with
  | @last cursor tr h hp =>
    obtain ⟨limit, ps, wire, rest, r, r', h1, h2, h3, h4, h5, h6⟩ := h
    rcases C84_shown hsha h1 h2 h3 h4 h5 h6 (hs tr (by simp)) hc with h | ⟨_, a, hS, ⟨t, rfl⟩ | ⟨ls, rfl, hl | ⟨y, hy, _⟩⟩⟩
    · cases h
    · exact (pointer_internal hp hS).elim
    · exact ⟨tr, by simp, limit, ls, hS, hl⟩
    · have := pointer_showing hsha hp hS
      rw [hy] at this
      cases this
  | @more cursor c tr trs h hp _ ih =>
    obtain ⟨limit, ps, wire, rest, r, r', h1, h2, h3, h4, h5, h6⟩ := h
    rcases C84_shown hsha h1 h2 h3 h4 h5 h6 (hs tr (by simp)) hc with h | ⟨_, a, hS, ⟨t, rfl⟩ | ⟨ls, rfl, hl | ⟨y, hy, hn | hn⟩⟩⟩
    · cases h
    · exact (pointer_internal hp hS).elim
    · exact ⟨tr, by simp, limit, ls, hS, hl⟩
    · have := pointer_showing hsha hp hS
      rw [hy] at this
      cases this
      obtain ⟨tr', h7, h8⟩ := ih (fun x hx => hs x (by simp [hx])) (fun x hx => hm x (by simp [hx]))
        (fun c hc => by cases hc; exact hn)
      exact ⟨tr', by simp [h7], h8⟩
    · exact absurd hn (hm tr (by simp) y)

/-! ### Listings that take time -/

theorem mem_entries {fs : FS} {d : Path} {n : Bytes} {j : Ino} (h : fs.get (d ++ [n]) = some j) : n ∈ fs.entries d := by
  have : (d ++ [n]) ∈ fs.names.map (·.1) := List.mem_map.mpr ⟨_, FS.alGet_mem h, rfl⟩
  unfold FS.entries
  refine List.mem_filterMap.mpr ⟨d ++ [n], List.mem_append_left _ this, ?_⟩
  simp

/-- **C84, held locks are steady.** While a lock is held, a process that meets no I/O error is answered steadily about it,
though its listings of directories take time, and others make and remove files meanwhile. -/
theorem C84_held {ρ : Ramble} {i a b : Nat} {l : Lock} {tr : List Event} (hsha : ∀ b, (cfg.sha b).length = 32)
    (hl : ρ.Keeps cfg a b l) (hu : ρ.Unhurt i a b) (ht : ρ.During i a b tr) :
    Steady cfg tr ⟨l.path, l.time, ownerName cfg l.uid⟩ := by
  obtain ⟨htime, ino, hl⟩ := hl
  have hid := isOid_lockName hsha l.path
  have hres : ∀ n, a ≤ n → n < b → (ρ.st n).fs.resolve (lockEntry cfg.root (lockName cfg.sha l.path)) =
      .ok (lockFile cfg.root (lockName cfg.sha l.path)) :=
    fun n h1 h2 => resolve_id (hl n h1 (by omega)).1 hid
  have hent : ∀ n, a ≤ n → n ≤ b → lockName cfg.sha l.path ∈ (ρ.st n).fs.entries (cfg.root ++ [b!"locks"]) := by
    intro n h1 h2
    have := (hl n h1 h2).2.1
    refine mem_entries (j := ino) ?_
    rw [List.append_assoc]
    exact this
  -- a call other than a listing is answered from the files there are
  have call : ∀ e ∈ tr, (∀ d, e.1 ≠ .readDir d) → ∃ n c, a ≤ n ∧ n < b ∧ c.fault = none ∧ e.2 = (sem c (ρ.st n).fs e.1).2 := by
    intro e he hd
    obtain ⟨n, h1, h2, h3⟩ := ht e he
    rcases hu n e h1 h2 h3 with ⟨c, h4, h5⟩ | ⟨m, _, _, d, k, names, rfl, _⟩
    · exact ⟨n, c, h1, h2, h4, by rw [h5]⟩
    · exact absurd rfl (hd d)
  constructor
  · intro names hm
    obtain ⟨n, h1, h2, h3⟩ := ht _ hm
    rcases hu n _ h1 h2 h3 with ⟨c, h4, h5⟩ | ⟨m, h4, h5, d, k, ns, he, _, h6, _⟩
    · simp only [sem, h4, (hl n h1 (by omega)).1, if_true] at h5
      have : names = (ρ.st n).fs.entries (cfg.root ++ [b!"locks"]) := by
        simpa using (congrArg Prod.snd h5).symm
      rw [this]
      exact hent n h1 (by omega)
    · cases he
      exact h6 _ fun j h7 h8 => hent j (by omega) (by omega)
  · intro e hm
    obtain ⟨n, c, h1, h2, h3, h4⟩ := call _ hm (fun d h => by cases h)
    simp [sem, h3, hres n h1 h2, (hl n h1 (by omega)).2.1] at h4
  · intro x hm
    obtain ⟨n, c, h1, h2, h3, h4⟩ := call _ hm (fun d h => by cases h)
    simp only [sem, h3, hres n h1 h2, (hl n h1 (by omega)).2.1] at h4
    exact ⟨_, h4, by rw [(hl n h1 (by omega)).2.2.2]⟩
  · intro h hm
    obtain ⟨n, c, h1, h2, h3, h4⟩ := call _ hm (fun d h => by cases h)
    simp only [sem, h3, hres n h1 h2, (hl n h1 (by omega)).2.1, Except.ok.injEq] at h4
    subst h4
    refine ⟨fun e hm => ?_, fun x hm => ?_⟩
    · obtain ⟨n, c, h1, h2, h3, h4⟩ := call _ hm (fun d h => by cases h)
      simp [sem, h3] at h4
    · obtain ⟨n, c, h1, h2, h3, h4⟩ := call _ hm (fun d h => by cases h)
      simp only [sem, h3] at h4
      rw [h4]
      refine ⟨rfl, ?_⟩
      simp only [cutChunks_flatten, (hl n h1 (by omega)).2.2.1]
      exact parseLock_iff.mp (parse_lockText htime)

/-- **C84, pages in an execution.** The lock is held from moment `a` to moment `b`. In this time a client gets all pages,
each from some server that meets no I/O error during it. The lock is on one of them. -/
theorem C84_execution {ρ : Ramble} {a b : Nat} {l : Lock} {cursor : Option Bytes} {trs : List (List Event)}
    (hsha : ∀ b, (cfg.sha b).length = 32) (hl : ρ.Keeps cfg a b l) (h : PagesFrom cfg mode cursor trs)
    (ht : ∀ tr ∈ trs, ∃ i, ρ.During i a b tr ∧ ρ.Unhurt i a b) (hm : ∀ tr ∈ trs, ∀ y, ¬ Misnamed cfg tr y)
    (hc : ∀ c, cursor = some c → ¬ lockName cfg.sha l.path < c) :
    ∃ tr ∈ trs, ∃ limit ls, Sends (showing cfg mode limit ls) (output tr) ∧ ⟨l.path, l.time, ownerName cfg l.uid⟩ ∈ ls :=
  C84_pages hsha h (fun tr h => by
    obtain ⟨i, h1, h2⟩ := ht tr h
    exact C84_held hsha hl h2 h1) hm hc

/-! ### Cases -/

namespace Tests

/-- What a process does and ends with if each call is answered by `f`. -/
def heard {α : Type} (f : (o : Op) → Resp o) : Prog α → List Event × α
  | .ret a => ([], a)
  | .call o k => (⟨o, f o⟩ :: (heard f (k (f o))).1, (heard f (k (f o))).2)

theorem heard_finished {α : Type} (f : (o : Op) → Resp o) : ∀ p : Prog α, p.Finished (heard f p).1 (heard f p).2
  | .ret _ => .ret
  | .call _ k => .call (heard_finished f (k _))

/-- Locks `f` and `g:h` are held. The listing, which took time, has moreover a name that is gone by now, and in any
order; and the lock on `g:h` cannot be read. -/
def unsteady : (o : Op) → Resp o
  | .readDir _ => .ok [idG, b!"0" ++ oidA.drop 1, idF, idF ++ b!".lock"]
  | .openRead p => if p = lockEntry Tests.cfg.root idG then .error eio else (sem Choice.none fsL (.openRead p)).2
  | o => (sem Choice.none fsL o).2

def unsteadyList : List Event × (Res Turn × Rdr) := heard unsteady (turn Tests.cfg .upload (seeing listAll []))

/-- The lock on `f`. -/
def shownF : Shown := ⟨b!"f", 1000684800, ownerName Tests.cfg 1000⟩

/-- As the record of the lock on `f` says; inode 1 is its file. -/
def steadyB : Event → Bool
  | ⟨.readDir _, x⟩ => match x with | .ok ns => ns.contains idF | .error _ => true
  | ⟨.openRead p, x⟩ => p != lockEntry Tests.cfg.root idF || (match x with | .ok h => h == some 1 | .error _ => false)
  | ⟨.stat p, x⟩ => p != lockEntry Tests.cfg.root idF || (match x with | .ok st => st.uid == 1000 | .error _ => false)
  | ⟨.fstat h, x⟩ => h != some 1 || (match x with | .ok _ => true | .error _ => false)
  | ⟨.readAll h, x⟩ => h != some 1 || (x.2.isNone && x.1.flatten == b!"v1:1000684800:f")
  | _ => true

theorem steady_of {tr : List Event} (h : tr.all steadyB = true) : Steady Tests.cfg tr shownF := by
  have key := List.all_eq_true.mp h
  have hn : lockName Tests.cfg.sha shownF.path = idF := lockName_f
  constructor
  · intro names hm
    have := key _ hm
    rw [hn]
    simpa [steadyB] using this
  · intro e hm
    rw [hn] at hm
    have := key _ hm
    simp [steadyB] at this
  · intro x hm
    rw [hn] at hm
    have := key _ hm
    cases x with
    | error e => simp [steadyB] at this
    | ok st =>
      simp [steadyB] at this
      exact ⟨st, rfl, by rw [this]; rfl⟩
  · intro h hm
    rw [hn] at hm
    have := key _ hm
    simp only [steadyB, bne_self_eq_false, Bool.false_or, beq_iff_eq] at this
    subst this
    refine ⟨fun e hm => ?_, fun x hm => ?_⟩
    · have := key _ hm
      simp [steadyB] at this
    · have := key _ hm
      simp only [steadyB, bne_self_eq_false, Bool.false_or, Bool.and_eq_true, Option.isNone_iff_eq_none, beq_iff_eq] at this
      refine ⟨this.1, ?_⟩
      rw [this.2]
      exact parseLock_iff.mp (by decide +kernel)

end Tests

namespace Tests

/-- Only the file of the lock on `f` could be opened. -/
def onlyB : Event → Bool
  | ⟨.openRead p, x⟩ => p == lockEntry Tests.cfg.root idF || (match x with | .ok _ => false | .error _ => true)
  | ⟨.readDir _, x⟩ => match x with
    | .ok ns => ns.all fun m => utf8Lossy m != idF || !decide (m < idF)
    | .error _ => true
  | _ => true

theorem named_of {tr : List Event} (h : tr.all onlyB = true) (hs : Steady Tests.cfg tr shownF) (y : Shown) :
    ¬ Misnamed Tests.cfg tr y := by
  rintro ⟨names, m, id, h1, h2, h3, h4, h5⟩
  have key := List.all_eq_true.mp h
  have hn : lockName Tests.cfg.sha shownF.path = idF := lockName_f
  have hid : id = idF := by
    obtain ⟨⟨d, ⟨k, cs, h6, _⟩, _⟩, _⟩ := h4
    have := key _ h6
    simp only [onlyB, Bool.or_false, beq_iff_eq, lockEntry, FPath.join.injEq, true_and] at this
    exact this
  subst hid
  obtain rfl := hs.lock (hn ▸ h4)
  rw [hn] at h5
  have := key _ h1
  simp only [onlyB, List.all_eq_true] at this
  have := this m h2
  rw [← lossy_iff.mp h3] at this
  simp [h5] at this

theorem finished_pair {p : Prog (Res Turn × Rdr)} {t : List Event × (Res Turn × Rdr)} {x : Res Turn} (h : p.Finished t.1 t.2)
    (hx : t.2.1 = x) : p.Finished t.1 (x, t.2.2) := hx ▸ h

theorem unsteady_page : PageAsked Tests.cfg .upload none unsteadyList.1 := by
  have h : (turn Tests.cfg .upload (seeing listAll [])).Finished unsteadyList.1 unsteadyList.2 := heard_finished unsteady _
  have hx : unsteadyList.2.1 = .ok .again := by decide +kernel
  refine ⟨none, listAll, enc listAll, [], seeing listAll [], unsteadyList.2.2, listAll_encodes, frames_enc _ (by decide), rfl, rfl,
    finished_pair h hx, fun e he => Event.outOk_of (List.all_eq_true.mp (show unsteadyList.1.all Event.outOkB = true by decide +kernel) e he)⟩

theorem unsteady_pointer : Pointer (output unsteadyList.1) none :=
  ⟨⟨200, b!"200", [], some (shownLines Tests.cfg .upload shownF)⟩, replyOk_ok (by decide +kernel),
    (show output unsteadyList.1 = enc (Reply.packets ⟨200, b!"200", [], some (shownLines Tests.cfg .upload shownF)⟩) by
      decide +kernel) ▸ frames_enc _ (by decide +kernel), rfl, rfl⟩

end Tests

open Tests in
/-- A case of `C84_pages` (and of `C84_shown`): the lock on `f` is shown. -/
example : ∃ tr ∈ [unsteadyList.1], ∃ limit ls, Sends (showing Tests.cfg .upload limit ls) (output tr) ∧ shownF ∈ ls := by
  have hs : Steady Tests.cfg unsteadyList.1 shownF := steady_of (by decide +kernel)
  refine C84_pages sha_len (.last unsteady_page unsteady_pointer) ?_ ?_ (by simp)
  · intro tr h
    rw [List.mem_singleton.mp h]
    exact hs
  · intro tr h
    rw [List.mem_singleton.mp h]
    exact named_of (by decide +kernel) hs

namespace Tests

/-- Process 0 goes on. A listing of a directory has a name too many. -/
def goOn (s : Sys) : Option (Nat × Event) × Sys :=
  match s.procs 0 with
  | .ret _ => (none, s)
  | .call (.readDir d) k =>
    (some (0, ⟨.readDir d, .ok (b!"x" :: s.fs.entries d)⟩), ⟨s.fs, s.setProc 0 (k (.ok (b!"x" :: s.fs.entries d)))⟩)
  | .call o k => (some (0, ⟨o, (sem Choice.none s.fs o).2⟩), ⟨(sem Choice.none s.fs o).1, s.setProc 0 (k (sem Choice.none s.fs o).2)⟩)

def goOns : Nat → Sys
  | 0 => ⟨fsL, fun _ => mainProg Tests.cfg b!"upload" (seeing listAll [])⟩
  | n + 1 => (goOn (goOns n)).2

theorem goOn_cases (st : Nat → Sys) (n : Nat) (h : st (n + 1) = (goOn (st n)).2) :
    (st (n + 1) = st n ∧ (goOn (st n)).1 = none) ∨
    (∃ o k, (st n).procs 0 = .call o k ∧ (goOn (st n)).1 = some (0, ⟨o, (sem Choice.none (st n).fs o).2⟩) ∧
      st (n + 1) = ⟨(sem Choice.none (st n).fs o).1, (st n).setProc 0 (k (sem Choice.none (st n).fs o).2)⟩) ∨
    ∃ e, (goOn (st n)).1 = some (0, e) ∧ Wandered st 0 n n e := by
  rw [h]
  unfold goOn
  split
  · exact .inl ⟨rfl, rfl⟩
  · rename_i d k hp
    refine .inr (.inr ⟨_, rfl, Nat.le_refl _, d, k, _, rfl, ?_, ?_, ?_⟩)
    · intro j h1 h2
      rw [Nat.le_antisymm h2 h1, hp]
    · intro name hn
      exact List.mem_cons_of_mem _ (hn n (Nat.le_refl _) (Nat.le_refl _))
    · rw [h]
      unfold goOn
      rw [hp]
  · rename_i o k _ hp
    exact .inr (.inl ⟨o, k, hp, rfl, rfl⟩)

/-- Process 0 lists all locks, others do nothing. -/
def longListing : Ramble where
  root := Tests.cfg.root
  st := goOns
  lab n := (goOn (goOns n)).1
  step n := by
    rcases goOn_cases goOns n rfl with h | ⟨o, k, h1, h2, h3⟩ | ⟨e, h1, h2⟩
    · exact .inr (.inl h)
    · rw [h2, h3]
      exact .inl (.call 0 o k Choice.none h1)
    · exact .inr (.inr ⟨0, n, e, h1, h2⟩)

theorem longListing_unhurt (a b : Nat) : longListing.Unhurt 0 a b := by
  intro n e ha hb he
  rcases goOn_cases goOns n rfl with ⟨_, h⟩ | ⟨o, k, h1, h2, h3⟩ | ⟨e', h1, h2⟩
  · exact absurd (h.symm.trans he) (by simp)
  · have := h2.symm.trans he
    simp only [Option.some.injEq, Prod.mk.injEq, true_and] at this
    subst this
    refine .inl ⟨Choice.none, rfl, ?_⟩
    show _ = ((goOns (n + 1)).fs, _)
    rw [h3]
    rfl
  · have := h1.symm.trans he
    simp only [Option.some.injEq, Prod.mk.injEq, true_and] at this
    subst this
    exact .inr ⟨n, ha, h2⟩

/-- What it does. -/
def listingEvents : List Event := (List.range 20).filterMap fun n => (longListing.lab n).map (·.2)

end Tests

open Tests in
/-- A case of `C84_held`. -/
example : Steady Tests.cfg listingEvents shownF ∧ output listingEvents ≠ [] := by
  refine ⟨C84_held (ρ := longListing) (i := 0) (a := 0) (b := 20) (l := ⟨b!"f", 1000684800, 1000⟩) sha_len ⟨?_, 1, ?_⟩
    (longListing_unhurt 0 20) ?_, by decide +kernel⟩
  · exact ⟨by decide, by decide, by decide +kernel⟩
  · intro n _ hn
    have key : ∀ n ≤ 20, (goOns n).fs.isDir (Tests.cfg.root ++ [b!"locks"]) = true ∧
        (goOns n).fs.get (lockFile Tests.cfg.root (lockName Tests.cfg.sha b!"f")) = some 1 ∧
        ((goOns n).fs.inodes 1).data = lockText ⟨b!"f", 1000684800, 1000⟩ ∧ ((goOns n).fs.inodes 1).uid = 1000 := by
      decide +kernel
    exact key n hn
  · intro e he
    obtain ⟨n, h1, h2⟩ := List.mem_filterMap.mp he
    refine ⟨n, Nat.zero_le _, List.mem_range.mp h1, ?_⟩
    rcases goOn_cases goOns n rfl with ⟨_, h⟩ | ⟨o, k, _, h, _⟩ | ⟨e', h, _⟩
    · rw [show longListing.lab n = none from h] at h2; cases h2
    · rw [show longListing.lab n = some _ from h] at h2 ⊢
      simpa using h2
    · rw [show longListing.lab n = some _ from h] at h2 ⊢
      simpa using h2

end Verif
