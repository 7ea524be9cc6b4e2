import Verif.Props.SharedLocks
/-!
C59: listings of all locks while other servers work on the same repository. The server reads the names in the locks
directory and then each file, so a listing need not show the locks of any one moment.
-/
namespace Verif
open Spec

variable {cfg : Cfg} {mode : Mode} {ρ : Execution} {i : Nat}

/-! ### What was read -/

theorem recorded_unique {n : Nat} {id : Bytes} {o : Option Lock} {l : Lock} (h : Recorded ρ cfg n id (some l))
    (h' : Recorded ρ cfg n id o) : o = some l := by
  cases o with
  | none => exact absurd (h.1.symm.trans h') (by simp)
  | some l' =>
    have e := h.1.symm.trans h'.1
    simp only [Option.some.injEq, Prod.mk.injEq] at e
    have e1 := parse_lockText h.2.2
    rw [e.1, parse_lockText h'.2.2] at e1
    simp only [Option.some.injEq, Prod.mk.injEq] at e1
    cases l; cases l'
    simp_all

theorem Spec.Execution.Untouched.at {root : Path} {a b n : Nat} {name : Bytes} (h : ρ.Untouched root a b name)
    (h1 : a ≤ n) (h2 : n ≤ b) : ρ.lockAt root n name = ρ.lockAt root a name := by
  obtain ⟨k, rfl⟩ : ∃ k, n = a + k := ⟨n - a, by omega⟩
  induction k with
  | zero => rfl
  | succ k ih => exact (h (a + k) (by omega) (by omega)).2.trans (ih (by omega) (by omega))

theorem Spec.Execution.Untouched.cut {root : Path} {a b c d : Nat} {name : Bytes} (h : ρ.Untouched root a b name)
    (h1 : a ≤ c) (h2 : d ≤ b) : ρ.Untouched root c d name := fun n k1 k2 => h n (by omega) (by omega)

theorem Spec.Holds.cut {a b c d : Nat} {l : Lock} (h : Holds ρ cfg a b l) (h1 : a ≤ c) (h2 : c ≤ b) (h3 : d ≤ b) :
    Holds ρ cfg c d l :=
  ⟨⟨(h.2.at h1 h2).trans h.1.1, h.1.2⟩, h.2.cut h1 h3⟩

/-- A lock that is held is read as it is. -/
theorem Spec.Holds.read {a b n m : Nat} {l : Lock} {o : Option Seen} (hsha : ∀ b, (cfg.sha b).length = 32)
    (h : Holds ρ cfg a b l) (h1 : a ≤ n) (h2 : n ≤ m) (h3 : m < b)
    (hr : (∃ l' : Option Lock, Recorded ρ cfg n (lockName cfg.sha l.path) l' ∧ o = l'.map (Seen.of cfg)) ∨
      Blurred ρ i cfg n m (lockName cfg.sha l.path)) : o = some (Seen.of cfg l) := by
  have hn := (h.cut h1 (by omega : n ≤ b) (Nat.le_refl b)).1
  rcases hr with ⟨l', k1, k2⟩ | (hb | hb | ⟨k, k1, k2, k3, k4⟩)
  · rw [k2, recorded_unique hn k1]; rfl
  · exact absurd (isOid_lockName hsha _) hb
  · exact absurd hn (hb _)
  · exact absurd (h.2 k (by omega) (by omega)) k4

theorem looked_mem {a e : Nat} {names : List Bytes} {es : List Seen} {l : Lock} (hsha : ∀ b, (cfg.sha b).length = 32)
    (h : Looked ρ i cfg a names es e) (hl : Holds ρ cfg a e l) (hm : lockName cfg.sha l.path ∈ names) :
    Seen.of cfg l ∈ es := by
  induction h with
  | nil => cases hm
  | @cons a n m e name names o es h1 h2 h3 h4 h5 h6 ih =>
    have := Execution.looked_le h6
    rcases List.mem_cons.mp hm with rfl | hm
    · rw [hl.read hsha h1 h2 (by omega) h5]; simp
    · exact List.mem_append_right _ (ih (hl.cut (by omega) (by omega) (Nat.le_refl _)) hm)

/-- Where the lock at place `k` was read, and what was read before. -/
theorem looked_split {a e : Nat} {names : List Bytes} {es : List Seen} (h : Looked ρ i cfg a names es e) {k : Nat}
    {x : Seen} (hk : es[k]? = some x) : ∃ ns1 name ns2 n m, names = ns1 ++ name :: ns2 ∧
      Looked ρ i cfg a ns1 (es.take k) n ∧ a ≤ n ∧ n ≤ m ∧ m < e ∧ ρ.By i n ∧ ρ.By i m ∧
      ((∃ l : Option Lock, Recorded ρ cfg n name l ∧ some x = l.map (Seen.of cfg)) ∨ Blurred ρ i cfg n m name) := by
  induction h generalizing k with
  | nil => simp at hk
  | @cons a n m e name names o es h1 h2 h3 h4 h5 h6 ih =>
    have hle := Execution.looked_le h6
    cases o with
    | none =>
      obtain ⟨ns1, nm, ns2, n', m', k1, k2, k3, k4, k5, k6⟩ := ih (by simpa using hk)
      exact ⟨name :: ns1, nm, ns2, n', m', by rw [k1]; rfl, .cons h1 h2 h3 h4 h5 k2, by omega, k4, k5, k6⟩
    | some y =>
      cases k with
      | zero =>
        simp only [Option.toList, List.cons_append, List.getElem?_cons_zero, Option.some.injEq] at hk
        subst hk
        exact ⟨[], name, names, n, m, rfl, .nil h1, h1, h2, by omega, h3, h4, h5⟩
      | succ k =>
        obtain ⟨ns1, nm, ns2, n', m', k1, k2, k3, k4, k5, k6⟩ := ih (by simpa using hk)
        exact ⟨name :: ns1, nm, ns2, n', m', by rw [k1]; rfl, .cons h1 h2 h3 h4 h5 k2, by omega, k4, k5, k6⟩

/-- **C59, what is listed.** Every lock in a listing was read by this process while the request was served, and was
held at that moment with this path, time and owner; except that the file may have been a temporary file, or
incomplete, or changed by another process while it was read. -/
theorem C59_sound {a e : Nat} {cursor : Option Bytes} {limit : Option Nat} {es : List Seen}
    (h : Listed ρ i cfg a e cursor limit es) : ∀ x ∈ seenPage cfg cursor limit es, ∃ name n m, a ≤ n ∧ n ≤ m ∧ m < e ∧
      ρ.By i n ∧ ρ.By i m ∧ ((∃ l, Recorded ρ cfg n name (some l) ∧ x = Seen.of cfg l) ∨ Blurred ρ i cfg n m name) := by
  intro x hx
  obtain ⟨d, names, later, h1, h2, h3, h4, h5⟩ := h
  have hx : x ∈ es := by
    have hx := List.mem_of_mem_take hx
    unfold seenFrom at hx
    split at hx
    · exact (List.dropWhile_sublist _).subset hx
    · exact hx
  obtain ⟨k, hk⟩ := List.getElem?_of_mem hx
  obtain ⟨_, name, _, n, m, _, _, k3, k4, k5, k6, k7, k8⟩ := looked_split h4 hk
  refine ⟨name, n, m, by omega, k4, k5, k6, k7, ?_⟩
  rcases k8 with ⟨l, l1, l2⟩ | k8
  · cases l with
    | none => cases l2
    | some l => exact .inl ⟨l, l1, by simpa using l2⟩
  · exact .inr k8

theorem seenFrom_split (cursor : Option Bytes) (es : List Seen) : ∃ pre, es = pre ++ seenFrom cfg cursor es ∧
    ∀ x ∈ pre, ∃ c, cursor = some c ∧ x.id cfg < c := by
  cases cursor with
  | none => exact ⟨[], rfl, by simp⟩
  | some c =>
    refine ⟨es.takeWhile fun e => e.id cfg < c, (List.takeWhile_append_dropWhile ..).symm, fun x hx => ⟨c, rfl, ?_⟩⟩
    simpa using List.all_eq_true.mp (List.all_takeWhile (p := fun e : Seen => decide (e.id cfg < c)) (l := es)) x hx

/-- **C59, what is missing.** A lock that is held all the time while a listing is made, and whose ID is not before the
cursor, is listed; or the page is full, and its last entry (the next cursor) is not after the lock. The next cursor can
be after the lock only if it was read from a temporary, incomplete or changing file. -/
theorem C59_complete {a e : Nat} {cursor : Option Bytes} {limit : Option Nat} {es : List Seen} {l : Lock}
    (hsha : ∀ b, (cfg.sha b).length = 32) (h : Listed ρ i cfg a e cursor limit es) (hl : Holds ρ cfg a e l)
    (hc : ∀ c, cursor = some c → ¬ lockName cfg.sha l.path < c) :
    Seen.of cfg l ∈ seenPage cfg cursor limit es ∨
    ∃ x, (seenPage cfg cursor limit es)[pageSize limit]? = some x ∧ (¬ lockName cfg.sha l.path < x.id cfg ∨
      ∃ name n m, a ≤ n ∧ n ≤ m ∧ m < e ∧ ρ.By i n ∧ ρ.By i m ∧ name < lockName cfg.sha l.path ∧
        Blurred ρ i cfg n m name) := by
  obtain ⟨d, names, later, h1, h2, ⟨h3, h3'⟩, h4, h5⟩ := h
  have hde := Execution.looked_le h4
  have hmem : lockName cfg.sha l.path ∈ names ++ later := by
    rw [h3', ((hl.cut h1 (by omega) (Nat.le_refl e)).1).1]; simp
  obtain ⟨pre, hpre, hbefore⟩ := seenFrom_split (cfg := cfg) cursor es
  have inFrom : Seen.of cfg l ∈ pre ++ (seenFrom cfg cursor es).take (pageSize limit + 1) →
      Seen.of cfg l ∈ seenPage cfg cursor limit es := by
    intro hm
    rcases List.mem_append.mp hm with hm | hm
    · obtain ⟨c, k1, k2⟩ := hbefore _ hm
      exact absurd k2 (hc c k1)
    · exact hm
  have hl' := hl.cut (by omega : a ≤ d + 1) hde (Nat.le_refl e)
  cases hx : (seenPage cfg cursor limit es)[pageSize limit]? with
  | none =>
    have hlen : (seenFrom cfg cursor es).length ≤ pageSize limit := by
      rw [List.getElem?_eq_none_iff] at hx
      unfold seenPage at hx
      rw [List.length_take] at hx
      omega
    rcases h5 with rfl | h5
    · rw [List.append_nil] at hmem
      refine .inl (inFrom ?_)
      rw [List.take_of_length_le (by omega), ← hpre]
      exact looked_mem hsha h4 hl' hmem
    · omega
  | some x =>
    have hx' : (seenFrom cfg cursor es)[pageSize limit]? = some x := by
      rwa [seenPage, List.getElem?_take_of_lt (Nat.lt_succ_self _)] at hx
    have hk : es[pre.length + pageSize limit]? = some x := by
      rw [hpre, List.getElem?_append_right (by omega)]
      simpa using hx'
    obtain ⟨ns1, name, ns2, n, m, k1, k2, k3, k4, k5, k6, k7, k8⟩ := looked_split h4 hk
    have htake : es.take (pre.length + pageSize limit) = pre ++ (seenFrom cfg cursor es).take (pageSize limit) := by
      have ht : ∀ {p q r : List Seen} {k : Nat}, p = q ++ r → p.take (q.length + k) = q ++ r.take k := by
        rintro p q r k rfl
        exact List.take_length_add_append _
      exact ht hpre
    rw [k1, List.append_assoc, List.cons_append] at hmem h3
    rcases List.mem_append.mp hmem with hm | hm
    · left
      have := looked_mem hsha k2 (hl'.cut (Nat.le_refl _) hde (by omega)) hm
      rw [htake] at this
      refine inFrom ?_
      rcases List.mem_append.mp this with hm | hm
      · exact List.mem_append_left _ hm
      · exact List.mem_append_right _ (List.take_subset_take_left _ (Nat.le_succ _) hm)
    · rcases List.mem_cons.mp hm with hm | hm
      · left
        rw [← hm] at k8
        have := hl'.read hsha k3 k4 k5 k8
        simp only [Option.some.injEq] at this
        rw [← this]
        exact List.mem_of_getElem? hx
      · right
        refine ⟨x, rfl, ?_⟩
        have hlt : name < lockName cfg.sha l.path :=
          (List.pairwise_cons.mp (List.pairwise_append.mp h3).2.1).1 _ hm
        rcases k8 with ⟨l', l1, l2⟩ | k8
        · cases l' with
          | none => cases l2
          | some l' =>
            simp only [Option.map_some, Option.some.injEq] at l2
            left
            have : x.id cfg = name := by rw [l2]; exact l1.2.1
            rw [this]
            exact List.lt_asymm hlt
        · exact .inr ⟨name, n, m, by omega, k4, k5, k6, k7, hlt, k8⟩

theorem paged_le {a f : Nat} {cursor : Option Bytes} {xs : List Seen} (h : Paged ρ cfg a cursor xs f) : a ≤ f := by
  have one : ∀ {i a e cursor limit es}, Listed ρ i cfg a e cursor limit es → a ≤ e := by
    rintro i a e cursor limit es ⟨d, names, later, h1, _, _, h4, _⟩
    have := Execution.looked_le h4
    omega
  induction h with
  | last h => exact one h
  | more h _ _ _ ih => have := one h; omega

/-- **C59, page by page.** Locks are listed in pages, each page asked for with the cursor the one before ended with,
by any processes, until a page ends without a cursor. A lock that is held all the time is on one of the pages, unless
on the way some process read a temporary, incomplete or changing file. -/
theorem C59_pages {a f : Nat} {cursor : Option Bytes} {xs : List Seen} {l : Lock}
    (hsha : ∀ b, (cfg.sha b).length = 32) (h : Paged ρ cfg a cursor xs f) (hl : Holds ρ cfg a f l)
    (hc : ∀ c, cursor = some c → ¬ lockName cfg.sha l.path < c) :
    Seen.of cfg l ∈ xs ∨ ∃ i name n m, a ≤ n ∧ n ≤ m ∧ m < f ∧ ρ.By i n ∧ ρ.By i m ∧
      name < lockName cfg.sha l.path ∧ Blurred ρ i cfg n m name := by
  induction h with
  | last h hx =>
    rcases C59_complete hsha h hl hc with h | ⟨x, h1, _⟩
    · exact .inl h
    · rw [hx] at h1; cases h1
  | @more i a e b f cursor limit es xs x h hx heb hp ih =>
    have hbf := paged_le hp
    have hae : a ≤ e := by
      obtain ⟨d, names, later, h1, _, _, h4, _⟩ := h
      have := Execution.looked_le h4
      omega
    rcases C59_complete hsha h (hl.cut (Nat.le_refl _) (by omega) (by omega)) hc with h | ⟨y, h1, h2⟩
    · exact .inl (List.mem_append_left _ h)
    · rw [hx] at h1
      cases h1
      rcases h2 with h2 | ⟨name, n, m, k1, k2, k3, k4, k5, k6, k7⟩
      · rcases ih (hl.cut (by omega) hbf (Nat.le_refl _)) (by rintro c hc; cases hc; exact h2) with
          h | ⟨i', name, n, m, k1, k2, k3, k4⟩
        · exact .inl (List.mem_append_right _ h)
        · exact .inr ⟨i', name, n, m, by omega, k2, k3, k4⟩
      · exact .inr ⟨i, name, n, m, k1, k2, by omega, k4, k5, k6, k7⟩

/-! ### Nobody changes locks -/

theorem looked_alone {a e : Nat} {names : List Bytes} {es : List Seen} {ls : List Lock}
    (hsha : ∀ b, (cfg.sha b).length = 32) (h : Looked ρ i cfg a names es e)
    (hn : names = ls.map fun l => lockName cfg.sha l.path) (hl : ∀ l ∈ ls, Holds ρ cfg a e l) :
    es = ls.map (Seen.of cfg) := by
  induction h generalizing ls with
  | nil =>
    cases ls with
    | nil => rfl
    | cons => cases hn
  | @cons a n m e name names o es h1 h2 h3 h4 h5 h6 ih =>
    have := Execution.looked_le h6
    cases ls with
    | nil => cases hn
    | cons l ls =>
      simp only [List.map_cons, List.cons.injEq] at hn
      obtain ⟨rfl, hn⟩ := hn
      rw [(hl l (by simp)).read hsha h1 h2 (by omega) h5,
        ih hn fun l hm => (hl l (by simp [hm])).cut (by omega) (by omega) (Nat.le_refl _)]
      rfl

theorem sorted_unique {xs ys : List Bytes} (hx : xs.Pairwise (· < ·)) (hy : ys.Pairwise (· < ·))
    (h : ∀ x, x ∈ xs ↔ x ∈ ys) : xs = ys :=
  have nd : ∀ {l : List Bytes}, l.Pairwise (· < ·) → l.Nodup := fun hl =>
    hl.imp fun {a b} (h : a < b) (e : a = b) => List.lt_irrefl b (e ▸ h)
  List.Perm.eq_of_pairwise (fun a b _ _ h1 h2 => absurd h2 (List.lt_asymm h1)) hx hy
    ((List.perm_ext_iff_of_nodup (nd hx) (nd hy)).mpr h)

theorem listed_alone {a e : Nat} {cursor : Option Bytes} {limit : Option Nat} {es : List Seen} {ls : List Lock}
    (hsha : ∀ b, (cfg.sha b).length = 32) (h : Listed ρ i cfg a e cursor limit es)
    (hl : ∀ l ∈ ls, Holds ρ cfg a e l) (hd : ∀ n, a ≤ n → n < e → LocksAre ρ cfg n ls) :
    seenPage cfg cursor limit es = seenPage cfg cursor limit (ls.map (Seen.of cfg)) := by
  obtain ⟨d, names, later, h1, h2, ⟨h3, h3'⟩, h4, h5⟩ := h
  have hde := Execution.looked_le h4
  have hda := hd d h1 (by omega)
  have hall : names ++ later = ls.map fun l => lockName cfg.sha l.path :=
    sorted_unique h3 hda.sorted fun x => by rw [h3', hda.files, List.mem_map]
  obtain ⟨ls1, ls2, rfl, k1, k2⟩ := List.map_eq_append_iff.mp hall.symm
  have hes := looked_alone hsha h4 k1.symm fun l hm =>
    (hl l (List.mem_append_left _ hm)).cut (by omega) hde (Nat.le_refl _)
  rw [List.map_append, ← hes]
  unfold seenPage
  rcases h5 with rfl | h5
  · rw [List.map_eq_nil_iff.mp k2]; simp
  · have hfrom : seenFrom cfg cursor (es ++ ls2.map (Seen.of cfg)) =
        seenFrom cfg cursor es ++ ls2.map (Seen.of cfg) := by
      cases cursor with
      | none => rfl
      | some c =>
        simp only [seenFrom] at h5 ⊢
        rw [List.dropWhile_append, if_neg]
        intro hemp
        rw [List.isEmpty_iff] at hemp
        rw [hemp] at h5
        exact absurd h5 (Nat.not_lt_zero _)
    rw [hfrom, List.take_append_of_le_length h5]

/-- **C59, alone.** If all the locks are held while a listing is made, and nothing else is in the directory, the reply
is that of the simple server. -/
theorem C59_alone {a e : Nat} {cursor : Option Bytes} {limit : Option Nat} {es : List Seen} {ls : List Lock}
    (hsha : ∀ b, (cfg.sha b).length = 32) (h : Listed ρ i cfg a e cursor limit es)
    (hl : ∀ l ∈ ls, Holds ρ cfg a e l) (hd : ∀ n, a ≤ n → n < e → LocksAre ρ cfg n ls)
    (t t' : Int) (f : Bytes → Option Bytes) :
    listing cfg mode cursor limit es = (answer cfg mode ⟨f, ls⟩ t t' (.listLocks none cursor limit)).1 := by
  rw [← listing_of]
  simp only [listing, listed_alone hsha h hl hd]

/-! ### The server -/

/-- Each request that was served was answered, or it is excused. -/
theorem serves_each {a c : Nat} {qs rest : List Request} (h : Serves ρ i cfg mode a qs c rest) {pre post : List Request}
    {q : Request} (hq : qs = pre ++ q :: post) (hr : rest.length ≤ post.length) :
    ∃ a' e b, a ≤ a' ∧ a' ≤ e ∧ e ≤ b ∧ b ≤ c ∧ Serves ρ i cfg mode a qs a' (q :: post) ∧ ρ.out i a' e = [] ∧
      ((∃ ans, Answers ρ i cfg mode a' e q ans ∧ Sends ans (ρ.out i e b) ∧ ρ.LeavesLocks cfg.root i e b none) ∨
       (Excused ρ i cfg a' e q ∧ IsReply (ρ.out i e b) ∧
        (lockOf cfg q = none → ρ.LeavesLocks cfg.root i a' b none))) := by
  induction h generalizing pre with
  | nil =>
    subst hq
    simp only [List.length_append, List.length_cons] at hr
    omega
  | @cons a e b c q' qs rest ans h1 h2 h3 h4 h5 h6 h7 hs ih =>
    have hle := serves_le hs
    cases pre with
    | nil =>
      simp only [List.nil_append, List.cons.injEq] at hq
      obtain ⟨rfl, rfl⟩ := hq
      exact ⟨a, e, b, Nat.le_refl _, h1, h2, hle, .nil, h3, .inl ⟨ans, h4, h5, h7⟩⟩
    | cons p pre =>
      simp only [List.cons_append, List.cons.injEq] at hq
      obtain ⟨a', e', b', k1, k2, k3, k4, k5, k6⟩ := ih hq.2 hr
      exact ⟨a', e', b', by omega, k2, k3, k4, .cons h1 h2 h3 h4 h5 h6 h7 k5, k6⟩
  | @excused a e b c q' qs rest h1 h2 h3 h5 h6 h7 h8 hs ih =>
    have hle := serves_le hs
    cases pre with
    | nil =>
      simp only [List.nil_append, List.cons.injEq] at hq
      obtain ⟨rfl, rfl⟩ := hq
      exact ⟨a, e, b, Nat.le_refl _, h1, h2, hle, .nil, h3, .inr ⟨h5, h6, h8⟩⟩
    | cons p pre =>
      simp only [List.cons_append, List.cons.injEq] at hq
      obtain ⟨a', e', b', k1, k2, k3, k4, k5, k6⟩ := ih hq.2 hr
      exact ⟨a', e', b', by omega, k2, k3, k4, .excused h1 h2 h3 h5 h6 h7 h8 k5, k6⟩

/-- **C59, the server.** Several servers on one repository, as in C57. When the server has ended with exit code 0, it
has made each listing that was asked for by reading the directory and the files, after the replies to the requests
before it, and the reply shows what it read (or the recorded time of a lock it read cannot be reported); meanwhile it
has not changed any lock. -/
theorem C59_listing {N : Nat} {r : Rdr} {qs : List Request} {wire : Bytes}
    (hstart : ρ.Begins cfg.root cfg.sha) (htidy : Tidy cfg.root (ρ.st 0).fs)
    (hl : NoLockDirs cfg.root (ρ.st 0).fs) (hone : OneEach (ρ.st 0).fs)
    (hp : (ρ.st 0).procs i = mainProg cfg (Mode.operation mode) r)
    (hsha : ∀ b, (cfg.sha b).length = 32)
    (hclk : ∀ t, ρ.ClockIn i cfg 0 N t → TimeOk cfg t) (hsome : ∃ t, TimeOk cfg t)
    (hs : Session mode qs wire)
    (hi : r.input = wire) (hpend : r.pending = []) (hfin : r.fin.kind = .unexpectedEof)
    (hc : ρ.NoFault i N) (hk : ρ.NotKilled i N) (hx : (ρ.st N).procs i = .ret ⟨0, []⟩)
    {pre post : List Request} {cursor : Option Bytes} {limit : Option Nat}
    (hq : qs = pre ++ .listLocks none cursor limit :: post) :
    ∃ a e b es, a ≤ e ∧ e ≤ b ∧ b ≤ N ∧
      (∃ a0, ρ.out i 0 a0 = b!"000eversion=1\n0000" ∧
        Serves ρ i cfg mode a0 qs a (.listLocks none cursor limit :: post)) ∧
      ρ.out i a e = [] ∧ Listed ρ i cfg a e cursor limit es ∧ ρ.LeavesLocks cfg.root i a b none ∧
      (Sends (listing cfg mode cursor limit es) (ρ.out i e b) ∨
       (IsReply (ρ.out i e b) ∧ ∃ x ∈ seenPage cfg cursor limit es, ¬ TimeOk cfg x.time)) := by
  obtain ⟨a0, h1, _, _, h4⟩ := C57_finished hstart htidy hl hone hp hsha hclk hsome hs hi hpend hfin hc hk hx
  rcases h4 with ⟨_, c, hcN, h5, _⟩ | ⟨h, _⟩
  · obtain ⟨a, e, b, k1, k2, k3, k4, k5, k6, k7⟩ := serves_each h5 hq (Nat.zero_le _)
    rcases k7 with ⟨ans, ⟨⟨_, es, l1, rfl⟩, l2⟩, l3, l4⟩ | ⟨⟨es, l1, l2⟩, l3, l4⟩
    · refine ⟨a, e, b, es, k2, k3, by omega, ⟨a0, h1, k5⟩, k6, l1, fun n m1 m2 => ?_, .inl l3⟩
      by_cases hn : n < e
      · exact l2 n m1 hn
      · exact l4 n (by omega) m2
    · exact ⟨a, e, b, es, k2, k3, by omega, ⟨a0, h1, k5⟩, k6, l1, l4 rfl, .inr ⟨l3, l2⟩⟩
  · cases h

/-! ### Cases -/

namespace Tests

/-- Process 1 takes a lock; process 0 lists all locks. -/
def lockList : Sys :=
  ⟨fs0, fun i => server Tests.cfg b!"upload" (if i = 0 then enc listAll ++ [] else enc (Tests.lockOf b!"f") ++ [])⟩

theorem lockList_start : Start Tests.cfg.root Tests.cfg.sha lockList :=
  ⟨fun i => ⟨_, _, _, rfl, rfl, rfl⟩, fun p i h => (by cases h), fun p i _ h => (by cases h)⟩

theorem list_session : Session .upload [.listLocks none none none] (enc listAll ++ []) :=
  .cons listAll_encodes (frames_enc _ (by decide +kernel)) trivial (by simp) .eof

/-- Process 1 makes `k` calls, then process 0 goes on. -/
def after (k n : Nat) : Nat := if n < k then 1 else 0

def lockF : Lock := ⟨b!"f", 1000684800, Tests.cfg.uid⟩

/-- Process 1 has taken the lock, with 13 calls. -/
theorem lockF_names : ∀ n < 41, 13 ≤ n →
    ((lockList.scheduled (after 13)).st n).fs.names = [(lockFile Tests.cfg.root idF, 0)] := by
  have h : ∀ n < 41, 13 ≤ n →
      (((lockList.scheduled (after 13)).st n).fs.names == [(lockFile Tests.cfg.root idF, 0)]) = true := by decide +kernel
  exact fun n h1 h2 => beq_iff_eq.mp (h n h1 h2)

theorem lockF_content : ∀ n < 41, 13 ≤ n →
    (lockList.scheduled (after 13)).lockAt Tests.cfg.root n idF = some (lockText lockF, lockF.uid) := by decide +kernel

theorem lockF_held : Holds (lockList.scheduled (after 13)) Tests.cfg 13 40 lockF := by
  have e : lockName Tests.cfg.sha lockF.path = idF := lockName_f
  refine ⟨⟨?_, rfl, timeOk_cfg⟩, fun n h1 h2 => ?_⟩
  · rw [e]; exact lockF_content 13 (by omega) (by omega)
  · rw [e, lockF_content n (by omega) h1, lockF_content (n + 1) (by omega) (by omega)]
    refine ⟨?_, rfl⟩
    unfold FS.get
    rw [lockF_names n (by omega) h1, lockF_names (n + 1) (by omega) (by omega)]

theorem lockF_all {n : Nat} (h1 : 13 ≤ n) (h2 : n < 40) :
    LocksAre (lockList.scheduled (after 13)) Tests.cfg n [lockF] := by
  refine ⟨by simp, fun name => ?_⟩
  have e : lockName Tests.cfg.sha lockF.path = idF := lockName_f
  simp only [List.mem_singleton, exists_eq_left, e, Execution.lockAt, held, Ne, Option.map_eq_none_iff]
  refine Option.isSome_iff_ne_none.symm.trans ?_
  rw [get_isSome_iff, lockF_names n (by omega) h1]
  simp [lockFile, eq_comm]

/-- The listing that process 0 makes then. -/
theorem lockF_listed : ∃ a e es, 13 ≤ a ∧ a ≤ e ∧ e ≤ 40 ∧
    Listed (lockList.scheduled (after 13)) 0 Tests.cfg a e none none es := by
  obtain ⟨a, e, b, es, h1, h2, h3, ⟨a0, h4, h5⟩, _, h6, _⟩ :=
    C59_listing (ρ := lockList.scheduled (after 13)) (i := 0) (N := 40) (pre := []) (post := []) ⟨rfl, lockList_start⟩ fs0_tidy
      fs0_noLockDirs fs0_oneEach rfl sha256_length clockIn_cfg ⟨_, timeOk_cfg⟩ list_session rfl rfl rfl
      (lockList.scheduled_noFault _ _ _) (Sys.scheduled_notKilled (honest_main _ _ _) _)
      (Tests.Prog.result?_eq (by decide +kernel)) rfl
  refine ⟨a, e, es, ?_, h1, by omega, h6⟩
  have := serves_le h5
  have h : ∀ n < 13, (lockList.scheduled (after 13)).out 0 0 n ≠ b!"000eversion=1\n0000" := by decide +kernel
  exact Nat.le_of_not_lt fun hlt => h a0 (by omega) h4

/-- The theorems apply to it: it shows the lock, is the whole traversal, and is the reply of the simple server. -/
example : ∃ a e es, Listed (lockList.scheduled (after 13)) 0 Tests.cfg a e none none es ∧
    Seen.of Tests.cfg lockF ∈ seenPage Tests.cfg none none es ∧
    Paged (lockList.scheduled (after 13)) Tests.cfg a none (seenPage Tests.cfg none none es) e ∧
    listing Tests.cfg .upload none none es =
      (answer Tests.cfg .upload ⟨fun _ => none, [lockF]⟩ 0 0 (.listLocks none none none)).1 := by
  obtain ⟨a, e, es, h1, h0, h2, h3⟩ := lockF_listed
  have hh := lockF_held.cut h1 (by omega) h2
  have hall : ∀ l ∈ [lockF], Holds (lockList.scheduled (after 13)) Tests.cfg a e l := by simpa using hh
  have hare : ∀ n, a ≤ n → n < e → LocksAre (lockList.scheduled (after 13)) Tests.cfg n [lockF] :=
    fun n k1 k2 => lockF_all (by omega) (by omega)
  have hp : (seenPage Tests.cfg none none es)[pageSize none]? = none := by
    rw [listed_alone sha256_length h3 hall hare]; rfl
  refine ⟨a, e, es, h3, ?_, .last h3 hp, C59_alone sha256_length h3 hall hare 0 0 _⟩
  rcases C59_complete sha256_length h3 hh (by simp) with h | ⟨x, hx, _⟩
  · exact h
  · rw [hp] at hx; cases hx

end Tests

/-- The setting of the next two theorems: process 0 is asked for a listing of all locks; no I/O error, nobody killed. -/
structure ListSetting (cfg : Cfg) (ρ : Execution) (r : Rdr) (N : Nat) : Prop where
  start : ρ.Begins cfg.root cfg.sha
  tidy : Tidy cfg.root (ρ.st 0).fs
  noDirs : NoLockDirs cfg.root (ρ.st 0).fs
  oneEach : OneEach (ρ.st 0).fs
  empty : (ρ.st 0).fs.names = []
  prog : (ρ.st 0).procs 0 = mainProg cfg (Mode.operation .upload) r
  session : Session .upload [.listLocks none none none] r.input
  pending : r.pending = []
  fin : r.fin.kind = .unexpectedEof
  noFault : ∀ i, ρ.NoFault i N
  notKilled : ∀ i, ρ.NotKilled i N
  ended : (ρ.st N).procs 0 = .ret ⟨0, []⟩

theorem Tests.lockList_setting (k : Nat) (h : Tests.Prog.result? (((Tests.lockList.scheduled (Tests.after k)).st 60).procs 0)
    = some ⟨0, []⟩) : ListSetting Tests.cfg (Tests.lockList.scheduled (Tests.after k))
      (Rdr.new (Tests.enc Tests.listAll ++ []) eofErr false) 60 :=
  ⟨⟨rfl, Tests.lockList_start⟩, Tests.fs0_tidy, Tests.fs0_noLockDirs, Tests.fs0_oneEach, rfl, rfl, Tests.list_session, rfl, rfl,
    fun _ => Sys.scheduled_noFault _ _ _ _, fun _ => Sys.scheduled_notKilled (honest_main _ _ _) _,
    Tests.Prog.result?_eq h⟩

/-- **C59, a lock nobody holds.** While another process is taking a lock, a listing can show it from the temporary file,
though the lock is not held at any moment. -/
theorem C59_phantom : ∃ (cfg : Cfg) (ρ : Execution) (r : Rdr) (path : Bytes), ListSetting cfg ρ r 60 ∧
    (∀ n < 61, ρ.lockAt cfg.root n (lockName cfg.sha path) = none) ∧
    (b!"000eversion=1\n0000" ++ b!"000fstatus 200\n0001" ++
      encData (b!"lock " ++ lockName cfg.sha path ++ b!"\n")) <+: ρ.out 0 0 60 := by
  refine ⟨Tests.cfg, Tests.lockList.scheduled (Tests.after 10), _, b!"f", Tests.lockList_setting 10 (by decide +kernel),
    ?_, ?_⟩
  · rw [Tests.lockName_f]; decide +kernel
  · rw [Tests.lockName_f, ← List.isPrefixOf_iff_prefix]; decide +kernel

/-- **C59, a lock listed twice.** It can also be shown twice, from its own file and from the temporary file. -/
theorem C59_twice : ∃ (cfg : Cfg) (ρ : Execution) (r : Rdr) (x : Seen), ListSetting cfg ρ r 60 ∧
    Sends (listing cfg .upload none none [x, x]) ((ρ.out 0 0 60).drop 18) := by
  refine ⟨Tests.cfg, Tests.lockList.scheduled (Tests.after 11), _, Seen.of Tests.cfg Tests.lockF,
    Tests.lockList_setting 11 (by decide +kernel), ?_⟩
  have h : (Tests.lockList.scheduled (Tests.after 11)).out 0 0 60 |>.drop 18 |> (· = replyWith
      (Status.successWithData 200 [] ([Seen.of Tests.cfg Tests.lockF, Seen.of Tests.cfg Tests.lockF].flatMap
        (Seen.lines Tests.cfg .upload)))
      (some ([Seen.of Tests.cfg Tests.lockF, Seen.of Tests.cfg Tests.lockF].flatMap (Seen.lines Tests.cfg .upload)))) := by
    decide +kernel
  rw [h]
  refine sends_replyWith ⟨rfl, by decide, rfl, by intro l h; cases h⟩ ⟨_, rfl, linesPackets_msgChunks _ ?_⟩
  intro l hl
  obtain ⟨x, _, hx⟩ := List.mem_flatMap.mp hl
  exact seenLines_ne _ _ _ l hx

end Verif
