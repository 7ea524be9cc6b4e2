import Verif.Lemmas.ServeLock
/-! `list-lock`, run alone without I/O errors. -/
namespace Verif
open Spec

variable {ch : Nat → Choice} {cfg : Cfg} {s : Store} {mode : Mode}

/-! ### Sorting -/

theorem mem_insertName {n m : Bytes} {ns : List Bytes} : m ∈ insertName n ns ↔ m = n ∨ m ∈ ns := by
  induction ns with
  | nil => simp [insertName]
  | cons k ns ih =>
    rw [insertName]
    split
    · rw [List.mem_cons, ih, List.mem_cons]
      constructor
      · rintro (h | h | h)
        · exact .inr (.inl h)
        · exact .inl h
        · exact .inr (.inr h)
      · rintro (h | h | h)
        · exact .inr (.inl h)
        · exact .inl h
        · exact .inr (.inr h)
    · simp only [List.mem_cons]

theorem mem_sortNames {m : Bytes} {ns : List Bytes} : m ∈ sortNames ns ↔ m ∈ ns := by
  induction ns with
  | nil => simp [sortNames]
  | cons k ns ih => rw [sortNames, mem_insertName, ih, List.mem_cons]

theorem insertName_sorted {n : Bytes} {ns : List Bytes} (hp : ns.Pairwise (· < ·)) (hn : n ∉ ns) :
    (insertName n ns).Pairwise (· < ·) := by
  induction ns with
  | nil => simp [insertName]
  | cons k ns ih =>
    rw [List.mem_cons, not_or] at hn
    rw [List.pairwise_cons] at hp
    rw [insertName]
    split
    · rename_i h
      rw [bytesLt_iff] at h
      rw [List.pairwise_cons]
      refine ⟨fun x hx => ?_, ih hp.2 hn.2⟩
      rcases mem_insertName.mp hx with rfl | hx
      · exact h
      · exact hp.1 x hx
    · rename_i h
      rw [bytesLt_iff] at h
      have hlt : n < k := by
        rcases List.le_iff_lt_or_eq.mp (List.not_lt.mp h) with h | h
        · exact h
        · exact absurd h hn.1
      rw [List.pairwise_cons]
      refine ⟨fun x hx => ?_, List.pairwise_cons.mpr hp⟩
      rcases List.mem_cons.mp hx with rfl | hx
      · exact hlt
      · exact List.lt_trans hlt (hp.1 x hx)

theorem sortNames_sorted {ns : List Bytes} (h : ns.Nodup) : (sortNames ns).Pairwise (· < ·) := by
  induction ns with
  | nil => simp [sortNames]
  | cons k ns ih =>
    rw [List.nodup_cons] at h
    rw [sortNames]
    exact insertName_sorted (ih h.2) (fun hm => h.1 (mem_sortNames.mp hm))

/-- Strictly increasing lists with the same members are equal. -/
theorem sorted_ext : ∀ {a b : List Bytes}, a.Pairwise (· < ·) → b.Pairwise (· < ·) →
    (∀ x, x ∈ a ↔ x ∈ b) → a = b
  | [], [], _, _, _ => rfl
  | [], y :: _, _, _, h => by simpa using h y
  | x :: _, [], _, _, h => by simpa using h x
  | x :: a, y :: b, ha, hb, h => by
    rw [List.pairwise_cons] at ha hb
    have hxy : x = y := by
      rcases List.mem_cons.mp ((h x).mp (by simp)) with e | hx
      · exact e
      rcases List.mem_cons.mp ((h y).mpr (by simp)) with e | hy
      · exact e.symm
      exact absurd (List.lt_trans (ha.1 y hy) (hb.1 x hx)) (List.lt_irrefl _)
    subst hxy
    congr 1
    refine sorted_ext ha.2 hb.2 fun z => ?_
    have hz := h z
    simp only [List.mem_cons] at hz
    constructor
    · intro hm
      rcases hz.mp (.inr hm) with rfl | hm'
      · exact absurd (ha.1 _ hm) (List.lt_irrefl _)
      · exact hm'
    · intro hm
      rcases hz.mpr (.inr hm) with rfl | hm'
      · exact absurd (hb.1 _ hm) (List.lt_irrefl _)
      · exact hm'

/-! ### The directory -/

theorem get_isSome_iff (fs : FS) (p : Path) : (fs.get p).isSome ↔ p ∈ fs.names.map (·.1) := by
  have key : ∀ l : List (Path × Ino), (alGet l p).isSome ↔ p ∈ l.map (·.1) := by
    intro l
    induction l with
    | nil => simp [alGet]
    | cons e l ih =>
      obtain ⟨q, i⟩ := e
      simp only [alGet, List.map_cons, List.mem_cons]
      by_cases h : q = p
      · simp [h]
      · have h' : ¬ p = q := fun e => h e.symm
        simp [h, h', ih]
  exact key _

/-- The function used by `FS.entries`. -/
def entryOf (d p : Path) : Option Bytes :=
  match p.getLast? with
  | some n => if p.dropLast = d then some n else none
  | none => none

theorem entryOf_iff {d p : Path} {n : Bytes} : entryOf d p = some n ↔ p = d ++ [n] := by
  unfold entryOf
  constructor
  · intro h
    split at h
    · rename_i m hm
      split at h
      · rename_i hd
        cases h
        obtain ⟨hne, hl⟩ := List.getLast?_eq_some_iff.mp hm
        rw [hl, List.dropLast_concat] at hd
        rw [hl, hd]
      · cases h
    · cases h
  · rintro rfl
    simp

theorem entries_locks {fs : FS} (h : Rep cfg s fs) :
    fs.entries (locksDir cfg.root) = (fs.names.map (·.1)).filterMap (entryOf (locksDir cfg.root)) := by
  have e : fs.entries (locksDir cfg.root) =
      ((fs.names.map (·.1)) ++ fs.dirs).filterMap (entryOf (locksDir cfg.root)) := rfl
  rw [e, List.filterMap_append]
  have hd : fs.dirs.filterMap (entryOf (locksDir cfg.root)) = [] := by
    rw [List.filterMap_eq_nil_iff]
    intro p hp
    cases h' : entryOf (locksDir cfg.root) p with
    | none => rfl
    | some n =>
      rw [entryOf_iff, locksDir_join] at h'
      exact absurd (h' ▸ hp) (h.lockFiles n)
  rw [hd, List.append_nil]

theorem sorted_entries {fs : FS} (h : Rep cfg s fs) :
    sortNames (fs.entries (locksDir cfg.root)) = s.locks.map fun l => lockName cfg.sha l.path := by
  rw [entries_locks h]
  refine sorted_ext (sortNames_sorted ?_) ?_ ?_
  · have := h.nodup
    unfold List.Nodup at this ⊢
    refine List.Pairwise.filterMap _ ?_ this
    intro p q hpq n hn m hm
    rw [entryOf_iff] at hn hm
    intro e
    subst e
    exact hpq (hn.trans hm.symm)
  · rw [List.pairwise_map]; exact h.sorted
  · intro n
    rw [mem_sortNames, List.mem_filterMap, List.mem_map]
    constructor
    · rintro ⟨p, hp, hn⟩
      rw [entryOf_iff, locksDir_join] at hn
      rw [← get_isSome_iff, hn] at hp
      obtain ⟨l, hl, e⟩ := h.only n hp
      exact ⟨l, hl, e.symm⟩
    · rintro ⟨l, hl, rfl⟩
      obtain ⟨i, hi, _⟩ := h.locks l hl
      refine ⟨lockFile cfg.root (lockName cfg.sha l.path), ?_, ?_⟩
      · rw [← get_isSome_iff, hi]; rfl
      · rw [entryOf_iff, locksDir_join]

/-! ### A page of locks -/

theorem runs_collectLocks (hc : Calm ch) (hsha : ∀ b, (cfg.sha b).length = 32) (cursor : Option Bytes) (fs : FS)
    (hr : Rep cfg s fs) (hd : Ready cfg fs) :
    ∀ (ls : List Lock) (skipping : Bool) (k : Nat) (r : Rdr) (w : World), (∀ l ∈ ls, l ∈ s.locks) → w.fs = fs →
    (collectLocks cfg cursor skipping k (ls.map fun l => lockName cfg.sha l.path)).runs ch r w
      (fun x r' w' => r' = r ∧ w'.fs = w.fs ∧ w'.out = w.out ∧
        x = .ok (((if skipping then fromCursor cfg cursor ls else ls).take k).map (lockInfo cfg)))
  | ls, skipping, 0, r, w, _, _ => by
    rw [collectLocks.eq_1]
    exact ⟨rfl, rfl, rfl, by simp⟩
  | [], skipping, k + 1, r, w, _, _ => by
    rw [List.map_nil, collectLocks.eq_2]
    refine ⟨rfl, rfl, rfl, ?_⟩
    cases skipping <;> cases cursor <;> simp [fromCursor]
  | l :: ls, skipping, k + 1, r, w, hls, hw => by
    have hfind : s.find cfg (lockName cfg.sha l.path) = some l :=
      pairwise_find hr.sorted (hls l (by simp))
    have hoid := isOid_lockName (cfg := cfg) hsha l.path
    rw [List.map_cons, collectLocks.eq_3, oid_lossy hoid]
    refine runs_bind (P := fun x r' w' => r' = r ∧ w'.fs = w.fs ∧ w'.out = w.out ∧
      x = .ok (.ok (some (lockInfo cfg l)))) ?_ ?_
    · unfold M.runs
      rw [M.wp_attempt]
      refine M.wp_mono (runs_lockFromId hc (hw ▸ hr) (hw ▸ hd) hoid) ?_
      rintro x r' w' ⟨rfl, e1, e2, rfl⟩
      rw [hfind]
      exact show _ ∧ _ ∧ _ ∧ _ from ⟨rfl, e1, e2, rfl⟩
    · rintro x r' w' ⟨rfl, e1, e2, rfl⟩
      simp only [Res.elim_ok]
      have hls' : ∀ m ∈ ls, m ∈ s.locks := fun m hm => hls m (by simp [hm])
      have keep : ∀ {X : List Lock}, X = l :: ls →
          (collectLocks cfg cursor false k (ls.map fun l => lockName cfg.sha l.path) >>= fun ls =>
            pure (lockInfo cfg l :: ls)).runs ch r' w' (fun x r2 w2 => r2 = r' ∧ w2.fs = w.fs ∧ w2.out = w.out ∧
              x = .ok ((X.take (k + 1)).map (lockInfo cfg))) := by
        rintro X rfl
        refine runs_bind (runs_collectLocks hc hsha cursor fs hr hd ls false k r' w' hls' (e1.trans hw)) ?_
        rintro x r2 w2 ⟨rfl, f1, f2, rfl⟩
        exact ⟨rfl, f1.trans e1, f2.trans e2, by simp⟩
      have hid : lockId cfg (lockInfo cfg l).path = lockName cfg.sha l.path := lockId_eq cfg l.path
      cases skipping with
      | false =>
        simp only [Bool.false_and, Bool.false_eq_true, if_false]
        exact keep rfl
      | true =>
        cases cursor with
        | none =>
          simp only [Bool.and_false, Bool.false_eq_true, if_false, if_true]
          exact keep rfl
        | some c =>
          simp only [hid, Bool.true_and, if_true]
          by_cases hlt : lockName cfg.sha l.path < c
          · rw [if_pos ((bytesLt_iff _ _).mpr hlt)]
            refine runs_mono (runs_collectLocks hc hsha (some c) fs hr hd ls true (k + 1) r' w' hls' (e1.trans hw)) ?_
            rintro x r2 w2 ⟨f0, f1, f2, f3⟩
            refine ⟨f0, f1.trans e1, f2.trans e2, ?_⟩
            rw [f3]
            simp only [if_true, fromCursor, List.dropWhile_cons, hlt, decide_true]
          · rw [if_neg (fun h => hlt ((bytesLt_iff _ _).mp h))]
            refine keep ?_
            simp only [fromCursor, List.dropWhile_cons, hlt, decide_false, Bool.false_eq_true, if_false]

theorem lockSpecs_eq : ∀ (ls : List Lock), (∀ l ∈ ls, TimeOk cfg l.time) →
    lockSpecs cfg (mode = .upload) (ls.map (lockInfo cfg)) = pure (ls.flatMap (lockLines cfg mode))
  | [], _ => rfl
  | l :: ls, h => by
    rw [List.map_cons, lockSpecs, lockSpec_eq (h l (by simp)), lockSpecs_eq ls fun m hm => h m (by simp [hm])]
    rfl

theorem limit_parse {kv : List (Bytes × Bytes)} {m : Args} {limit : Option Nat} (h : LimitArg kv limit)
    (hget : ∀ k, m.get k = lookup kv k) : parseLimit m = .ok (pageSize limit) := by
  unfold parseLimit
  rw [hget]
  cases limit with
  | none =>
    have h : lookup kv b!"limit" = none := h
    rw [h]
    rfl
  | some n =>
    obtain ⟨h0, t, h1, h2⟩ := h
    rw [h1]
    simp only [num_parse h2, pageSize, Option.getD_some]
    rw [if_neg (by omega)]
    split
    · rw [Nat.min_eq_right (by omega)]
    · rw [Nat.min_eq_left (by omega)]

theorem runs_listLocks {kv : List (Bytes × Bytes)} {u rest : Bytes} {path cursor : Option Bytes}
    {limit : Option Nat} {r : Rdr} {w : World}
    (hc : Calm ch) (hsha : ∀ b, (cfg.sha b).length = 32) (ha : ArgsOk kv) (hlim : LimitArg kv limit)
    (hpa : lookup kv b!"path" = path) (hcur : lookup kv b!"cursor" = cursor)
    (hF : Frames (argPackets kv ++ [.flush]) u) (hi : r.input = u ++ rest)
    (hr : Rep cfg s w.fs) (hd : Ready cfg w.fs) :
    (listLocks cfg (mode = .upload)).runs ch r w
      (Handled cfg mode ch s (.listLocks path cursor limit) { r with input := rest } w.out) := by
  obtain ⟨t, ht⟩ := clock_exists cfg ch
  obtain ⟨m, hm, hget⟩ := C09_args_exact kv ha
  unfold listLocks
  refine runs_readToFlushParse (readToFlush_args hF hi) ?_
  refine runs_ofRes_bind hm ?_
  refine runs_ofRes_bind (limit_parse hlim hget) ?_
  simp only [hget, hpa, hcur]
  cases path with
  | some path =>
    simp only
    unfold listLocksForPath
    refine runs_bind (runs_lockFromPath hc hsha hr hd) ?_
    rintro x r' w' ⟨rfl, e1, e2, rfl⟩
    cases hf : s.find cfg (lockName cfg.sha path) with
    | none =>
      refine ⟨rfl, e2, t, t, errStatus 404 b!"not found", ht, ht, rfl, ?_⟩
      simp only [answer, hf, e1]
      exact ⟨hr, hd, statusFor_notFound _⟩
    | some l =>
      simp only
      by_cases hpp : l.path = path
      · rw [if_pos hpp]
        simp only [Res.elim_ok]
        have hid : lockId cfg (lockInfo cfg l).path = lockName cfg.sha path := by
          rw [lockId_eq]; exact congrArg _ hpp
        rw [hid]
        by_cases hcc : ∃ c ∈ cursor, lockName cfg.sha path < c
        · obtain ⟨c, hc', hlt⟩ := hcc
          have : cursor = some c := hc'
          subst this
          simp only [(bytesLt_iff _ _).mpr hlt, if_true]
          refine ⟨rfl, e2, t, t, errStatus 404 b!"not found", ht, ht, rfl, ?_⟩
          have hcc : ∃ c' ∈ some c, lockName cfg.sha path < c' := ⟨c, rfl, hlt⟩
          simp only [answer, hf, e1, hpp, ne_eq, not_true_eq_false, if_false]
          rw [if_pos hcc]
          exact ⟨hr, hd, statusFor_notFound _⟩
        · rw [if_neg (by
            split
            · rw [bytesLt_iff]
              exact fun hlt => hcc ⟨_, rfl, hlt⟩
            · simp)]
          rw [lockSpec_eq (hr.times l (find_some hf).1)]
          refine ⟨rfl, e2, t, t, Status.newSuccess (lockLines cfg mode l), ht, ht, rfl, ?_⟩
          simp only [answer, hf, e1, hpp, ne_eq, not_true_eq_false, if_false]
          rw [if_neg hcc]
          exact ⟨hr, hd, ⟨rfl, c200, rfl, by simp⟩, rfl, lockLines_ne _ _ _⟩
      · rw [if_neg hpp]
        simp only [Res.elim_err]
        refine ⟨rfl, e2, t, t, _, ht, ht, rfl, ?_⟩
        simp only [answer, hf, e1, hpp, ne_eq, not_false_eq_true, if_true]
        exact ⟨hr, hd, statusFor_clash _⟩
  | none =>
    simp only
    refine runs_bind (P := fun x r' w' => r' = { r with input := rest } ∧ w'.fs = w.fs ∧ w'.out = w.out ∧
      x = .ok (((fromCursor cfg cursor s.locks).take (pageSize limit + 1)).map (lockInfo cfg))) ?_ ?_
    · unfold iterLocks
      refine runs_op_bind (fs' := w.fs) (x := .ok (w.fs.entries (locksDir cfg.root)))
        (by simp only [sem, hc w.tick, hd.locksDir, if_true]) (fun _ => rfl) ?_
      intro w' e1 e2
      refine runs_ofIo_bind ?_
      rw [sorted_entries hr]
      refine runs_mono (runs_collectLocks hc hsha cursor w.fs hr hd s.locks true _ _ w' (fun _ h => h) e1) ?_
      rintro x r' w2 ⟨f0, f1, f2, f3⟩
      exact ⟨f0, f1.trans e1, f2.trans e2, by rw [f3]; rfl⟩
    · rintro x r' w' ⟨rfl, e1, e2, rfl⟩
      simp only [Res.elim_ok]
      have htimes : ∀ l ∈ (fromCursor cfg cursor s.locks).take (pageSize limit + 1), TimeOk cfg l.time := by
        intro l hl
        have h1 := List.mem_of_mem_take hl
        have h2 : l ∈ s.locks := by
          cases cursor with
          | none => exact h1
          | some c => exact (List.dropWhile_sublist _).mem h1
        exact hr.times l h2
      generalize hpg : (fromCursor cfg cursor s.locks).take (pageSize limit + 1) = page at htimes
      rw [lockSpecs_eq page htimes]
      refine runs_pure_bind ?_
      refine ⟨rfl, e2, t, t, _, ht, ht, rfl, ?_⟩
      simp only [answer, e1]
      rw [hpg]
      refine ⟨hr, hd, ⟨rfl, c200, ?_, ?_⟩, ?_, ?_⟩
      · rw [List.getElem?_map]
        cases page[pageSize limit]? with
        | none => rfl
        | some l =>
          have hid : lockId cfg (lockInfo cfg l).path = lockName cfg.sha l.path := lockId_eq cfg l.path
          simp only [Option.map_some, Option.toList, Status.successWithData, Option.getD_some, hid]
      · cases page[pageSize limit]? <;> simp
      · rfl
      · intro x hx
        obtain ⟨l, _, hl⟩ := List.mem_flatMap.mp hx
        exact lockLines_ne _ _ _ x hl

end Verif
