import Verif.Props.Retry
import Verif.Lemmas.Report
import Verif.Spec.Ghost
/-! C88: what a listing shows, whatever files are in the directory of the locks; in particular after a kill. -/
namespace Verif
open Spec

variable {cfg : Cfg} {ch : Nat → Choice} {mode : Mode} {fs : FS} {ns : List Bytes} {ls : List Lock}

/-! ### Names -/

theorem lockish_mem {n : Bytes} (h : LockishName n) : ∀ x ∈ n, x ∈ b!"0123456789abcdef.lock" := by
  have key : ∀ x ∈ b!"0123456789abcdef", x ∈ b!"0123456789abcdef.lock" := by decide
  have key2 : ∀ x ∈ b!".lock", x ∈ b!"0123456789abcdef.lock" := by decide
  rcases h with h | ⟨m, h, rfl⟩
  · exact fun x hx => key x (h.2 x hx)
  · intro x hx
    rcases List.mem_append.mp hx with hx | hx
    · exact key x (h.2 x hx)
    · exact key2 x hx

theorem lockish_length {n : Bytes} (h : LockishName n) : 64 ≤ n.length := by
  rcases h with h | ⟨m, h, rfl⟩
  · exact Nat.le_of_eq h.1.symm
  · rw [List.length_append, h.1]; omega

theorem lockish_lossy {n : Bytes} (h : LockishName n) : utf8Lossy n = n := by
  have key : ∀ x ∈ b!"0123456789abcdef.lock", x < 128 := by decide
  exact utf8LossyF_ascii _ _ (fun x hx => key x (lockish_mem h x hx)) (Nat.le_refl _)

theorem resolve_lockish {root : Path} {id : Bytes} (hd : fs.isDir (locksDir root) = true) (h : LockishName id) :
    fs.resolve (.join (locksDir root) id) = .ok (lockFile root id) := by
  have notin : ∀ x, x ∉ b!"0123456789abcdef.lock" → x ∉ id := fun x hx hm => hx (lockish_mem h x hm)
  have h0 : id.contains 0 = false := by
    rw [Bool.eq_false_iff]
    simpa using notin 0 (by decide)
  have h1 : (47 : UInt8) ∉ id := notin 47 (by decide)
  have hl := lockish_length h
  have hh : id.head? ≠ some SLASH := by
    intro e
    exact h1 (List.mem_of_mem_head? (by rw [e]; rfl))
  have hne : ¬ (id = [] ∨ id = b!".") := by
    rintro (e | e) <;> (rw [e] at hl; simp at hl)
  have hne2 : ¬ id = b!".." := by intro e; rw [e] at hl; simp at hl
  have hlen : ¬ 255 < id.length := by
    rcases h with h | ⟨m, h, rfl⟩
    · rw [h.1]; omega
    · rw [List.length_append, h.1]; simp
  simp only [FS.resolve, h0, Bool.false_eq_true, if_false]
  rw [if_neg hh, splitOn_none SLASH _ h1]
  simp only [FS.walk, hd, if_true, if_neg hne, if_neg hne2]
  rw [locksDir_join]
  simp [hlen]

/-! ### A listing -/

theorem runs_lockFromId_file (hc : Calm ch) {n : Bytes} {i : Ino} {r : Rdr} {w : World} (hd : Ready cfg w.fs)
    (hn : LockishName n) (hg : w.fs.get (lockFile cfg.root n) = some i) :
    (lockFromId cfg n).runs ch r w (fun x r' w' => r' = r ∧ w'.fs = w.fs ∧ w'.out = w.out ∧
      x = match parseLock (w.fs.inodes i).data with
        | some (t, p) => .ok (some ⟨p, t, ownerName cfg (w.fs.inodes i).uid⟩)
        | none => .err (Err.withMsg .corruptData b!"invalid parsed lock")) := by
  have hres := resolve_lockish hd.locksDir hn
  unfold lockFromId
  refine runs_op_bind (fs' := w.fs) (x := .ok (some i))
    (by simp only [sem, hc w.tick, hres, hg]) (fun _ => rfl) ?_
  intro w' e1 e2
  refine runs_op_bind (fs' := w.fs) (x := (cutChunks (ch w'.tick).chunks (w.fs.inodes i).data, none))
    (by simp only [sem, hc w'.tick, e1]) (fun _ => rfl) ?_
  intro w2 e3 e4
  simp only
  refine runs_bind (P := fun x r' w' => r' = r ∧ w'.fs = w.fs ∧ w'.out = w.out ∧
    x = .ok (ownerName cfg (w.fs.inodes i).uid)) ?_ ?_
  · unfold userForFile
    refine runs_op_bind (fs' := w.fs) (x := .ok ⟨(w.fs.inodes i).data.length, (w.fs.inodes i).uid⟩)
      (by simp only [sem, hc w2.tick, e3, hres, hg]) (fun _ => rfl) ?_
    intro w3 e5 e6
    refine ⟨rfl, e5, by rw [e6, e4, e2], by rw [userName_eq]⟩
  · rintro x r' w3 ⟨rfl, e5, e6, rfl⟩
    simp only [Res.elim_ok, cutChunks_flatten]
    cases parseLock (w.fs.inodes i).data with
    | none => exact ⟨rfl, e5, e6, rfl⟩
    | some tp => exact ⟨rfl, e5, e6, rfl⟩

theorem runs_collect_bears (hc : Calm ch) (cursor : Option Bytes) (hd : Ready cfg fs) (hb : Bears cfg fs ns ls) :
    ∀ (skipping : Bool) (k : Nat) (r : Rdr) (w : World), (∀ n ∈ ns, LockishName n) → w.fs = fs →
    (collectLocks cfg cursor skipping k ns).runs ch r w
      (fun x r' w' => r' = r ∧ w'.fs = w.fs ∧ w'.out = w.out ∧
        x = .ok (((if skipping then fromCursor cfg cursor ls else ls).take k).map (lockInfo cfg))) := by
  induction hb with
  | nil =>
    intro skipping k r w _ _
    cases k with
    | zero => rw [collectLocks.eq_1]; exact ⟨rfl, rfl, rfl, by simp⟩
    | succ k =>
      rw [collectLocks.eq_2]
      refine ⟨rfl, rfl, rfl, ?_⟩
      cases skipping <;> cases cursor <;> simp [fromCursor]
  | @other n i ns ls hg hno _ ih =>
    intro skipping k r w hn hw
    cases k with
    | zero => rw [collectLocks.eq_1]; exact ⟨rfl, rfl, rfl, by simp⟩
    | succ k =>
      have hn1 := hn n (by simp)
      rw [collectLocks.eq_3, lockish_lossy hn1]
      have hp : parseLock (fs.inodes i).data = none := by
        cases h : parseLock (fs.inodes i).data with
        | none => rfl
        | some tp => exact absurd (parseLock_iff.mp h) (hno _ _)
      refine runs_bind (P := fun x r' w' => r' = r ∧ w'.fs = w.fs ∧ w'.out = w.out ∧ ∃ e, x = .ok (.error e)) ?_ ?_
      · unfold M.runs
        rw [M.wp_attempt]
        refine M.wp_mono (runs_lockFromId_file hc (hw ▸ hd) hn1 (hw ▸ hg)) ?_
        rintro x r' w' ⟨rfl, e1, e2, rfl⟩
        rw [hw, hp]
        exact show _ ∧ _ ∧ _ ∧ _ from ⟨rfl, e1.trans hw, e2, _, rfl⟩
      · rintro x r' w' ⟨rfl, e1, e2, e, rfl⟩
        simp only [Res.elim_ok]
        refine runs_mono (ih skipping (k + 1) r' w' (fun m hm => hn m (by simp [hm])) (e1.trans hw)) ?_
        rintro x r2 w2 ⟨f0, f1, f2, f3⟩
        exact ⟨f0, f1.trans e1, f2.trans e2, f3⟩
  | @lock n l i ns ls hg hrec hu ht _ ih =>
    intro skipping k r w hn hw
    cases k with
    | zero => rw [collectLocks.eq_1]; exact ⟨rfl, rfl, rfl, by simp⟩
    | succ k =>
      have hn1 := hn n (by simp)
      have hns : ∀ m ∈ ns, LockishName m := fun m hm => hn m (by simp [hm])
      rw [collectLocks.eq_3, lockish_lossy hn1]
      refine runs_bind (P := fun x r' w' => r' = r ∧ w'.fs = w.fs ∧ w'.out = w.out ∧
        x = .ok (.ok (some (lockInfo cfg l)))) ?_ ?_
      · unfold M.runs
        rw [M.wp_attempt]
        refine M.wp_mono (runs_lockFromId_file hc (hw ▸ hd) hn1 (hw ▸ hg)) ?_
        rintro x r' w' ⟨rfl, e1, e2, rfl⟩
        rw [hw, parseLock_iff.mpr hrec, hu]
        exact show _ ∧ _ ∧ _ ∧ _ from ⟨rfl, e1.trans hw, e2, rfl⟩
      · rintro x r' w' ⟨rfl, e1, e2, rfl⟩
        simp only [Res.elim_ok]
        have keep : ∀ {X : List Lock}, X = l :: ls →
            (collectLocks cfg cursor false k ns >>= fun ls =>
              pure (lockInfo cfg l :: ls)).runs ch r' w' (fun x r2 w2 => r2 = r' ∧ w2.fs = w.fs ∧ w2.out = w.out ∧
                x = .ok ((X.take (k + 1)).map (lockInfo cfg))) := by
          rintro X rfl
          refine runs_bind (ih false k r' w' hns (e1.trans hw)) ?_
          rintro x r2 w2 ⟨rfl, f1, f2, rfl⟩
          exact ⟨rfl, f1.trans e1, f2.trans e2, by simp⟩
        have hid : lockId cfg (lockInfo cfg l).path = lockName cfg.sha l.path := lockId_eq cfg l.path
        cases skipping with
        | false =>
          simp only [Bool.false_and, Bool.false_eq_true, if_false]
          exact keep rfl
        | true =>
          cases cursor with
          | none =>
            simp only [Bool.and_false, Bool.false_eq_true, if_false, if_true]
            exact keep rfl
          | some c =>
            simp only [hid, Bool.true_and, if_true]
            by_cases hlt : lockName cfg.sha l.path < c
            · rw [if_pos ((bytesLt_iff _ _).mpr hlt)]
              refine runs_mono (ih true (k + 1) r' w' hns (e1.trans hw)) ?_
              rintro x r2 w2 ⟨f0, f1, f2, f3⟩
              refine ⟨f0, f1.trans e1, f2.trans e2, ?_⟩
              rw [f3]
              simp only [if_true, fromCursor, List.dropWhile_cons, hlt, decide_true]
            · rw [if_neg (fun h => hlt ((bytesLt_iff _ _).mp h))]
              refine keep ?_
              simp only [fromCursor, List.dropWhile_cons, hlt, decide_false, Bool.false_eq_true, if_false]

theorem bears_times (h : Bears cfg fs ns ls) : ∀ l ∈ ls, TimeOk cfg l.time := by
  induction h with
  | nil => simp
  | lock _ _ _ h _ ih =>
    intro m hm
    rcases List.mem_cons.mp hm with rfl | hm
    · exact h
    · exact ih m hm
  | other _ _ _ ih => exact ih

theorem Spec.Dossier.entries (h : Dossier cfg fs ns ls) : sortNames (fs.entries (locksDir cfg.root)) = ns := by
  have e : fs.entries (locksDir cfg.root) =
      ((fs.names.map (·.1)) ++ fs.dirs).filterMap (entryOf (locksDir cfg.root)) := rfl
  have hd : fs.dirs.filterMap (entryOf (locksDir cfg.root)) = [] := by
    rw [List.filterMap_eq_nil_iff]
    intro p hp
    cases h' : entryOf (locksDir cfg.root) p with
    | none => rfl
    | some n =>
      rw [entryOf_iff, locksDir_join] at h'
      exact absurd (h' ▸ hp) (h.files n)
  rw [e, List.filterMap_append, hd, List.append_nil]
  refine sorted_ext (sortNames_sorted ?_) h.sorted ?_
  · have := h.nodup
    unfold List.Nodup at this ⊢
    refine List.Pairwise.filterMap _ ?_ this
    intro p q hpq n hn m hm
    rw [entryOf_iff] at hn hm
    intro e
    subst e
    exact hpq (hn.trans hm.symm)
  · intro n
    rw [mem_sortNames, List.mem_filterMap, h.names n]
    constructor
    · rintro ⟨p, hp, hn⟩
      rw [entryOf_iff, locksDir_join] at hn
      rw [← get_isSome_iff, hn] at hp
      exact hp
    · intro hn
      refine ⟨lockFile cfg.root n, ?_, ?_⟩
      · rw [← get_isSome_iff]; exact hn
      · rw [entryOf_iff, locksDir_join]

/-- The directories made at start-up change nothing. -/
theorem Spec.Dossier.addDirs (h : Dossier cfg fs ns ls) {d : Path} (hd : d ∈ topDirs cfg.root) {ds : List Path}
    (hds : ∀ q ∈ ds, q <+: d) : Dossier cfg (fs.addDirs ds) ns ls := by
  refine ⟨h.names, h.sorted, h.usual, ?_, fun n hn => ?_, h.nodup, h.noFile⟩
  · have := h.bears
    clear h
    induction this with
    | nil => exact .nil
    | lock h1 h2 h3 h4 _ ih => exact .lock h1 h2 h3 h4 ih
    | other h1 h2 _ ih => exact .other h1 h2 ih
  · rcases List.mem_append.mp hn with hn | hn
    · have h1 := hds _ hn
      have h2 := h1.length_le
      simp only [topDirs, List.mem_cons, List.not_mem_nil, or_false] at hd
      rcases hd with rfl | rfl | rfl | rfl <;> simp [lockFile] at h2
    · exact h.files n hn

theorem runs_mkdirs_dossier (hc : Calm ch) : ∀ (ds : List Path) (r : Rdr) (w : World), (∀ d ∈ ds, d ∈ topDirs cfg.root) →
    Dossier cfg w.fs ns ls → (mkdirs ds).runs ch r w (fun x r' w' => x = .ok () ∧ r' = r ∧ w'.out = w.out ∧
      Dossier cfg w'.fs ns ls ∧ w'.fs.names = w.fs.names ∧ w'.fs.inodes = w.fs.inodes ∧
      (∀ q, q ∈ w.fs.dirs → q ∈ w'.fs.dirs) ∧ ∀ d ∈ ds, d ∈ w'.fs.dirs)
  | [], _, _, _, hr => ⟨rfl, rfl, rfl, hr, rfl, rfl, fun _ h => h, by simp⟩
  | d :: ds, r, w, hds, hr => by
    have htop := hds d (by simp)
    rw [mkdirs]
    refine runs_op_bind (sem_mkdirAll (hc _) (hr.noFile d htop)) (fun _ => rfl) ?_
    intro w' e1 e2
    refine runs_ofIo_bind ?_
    have hr' : Dossier cfg w'.fs ns ls := by
      rw [e1]
      exact hr.addDirs htop fun q hq => mem_pathPrefixes (List.mem_filter.mp hq).1
    have hne : d ≠ [] := by
      simp only [topDirs, List.mem_cons, List.not_mem_nil, or_false] at htop
      rcases htop with rfl | rfl | rfl | rfl <;> simp
    have hdir : d ∈ w'.fs.dirs := by
      have := isDir_mkdirAll (fs := w.fs) hne
      rw [← e1, isDir_iff] at this
      exact this.resolve_left hne
    refine runs_mono (runs_mkdirs_dossier hc ds r w' (fun x hx => hds x (by simp [hx])) hr') ?_
    rintro x r2 w2 ⟨h1, h2, h3, h4, h5, h6, h7, h8⟩
    refine ⟨h1, h2, h3.trans e2, h4, by rw [h5, e1]; rfl, by rw [h6, e1]; rfl, fun q hq => h7 q ?_, ?_⟩
    · rw [e1]; exact List.mem_append_right _ hq
    intro x hx
    rcases List.mem_cons.mp hx with rfl | hx
    · exact h7 _ hdir
    · exact h8 x hx

theorem runs_listLocks_dossier {kv : List (Bytes × Bytes)} {u rest : Bytes} {cursor : Option Bytes}
    {limit : Option Nat} {r : Rdr} {w : World} (o : Bytes → Option Bytes) (t t' : Int)
    (hc : Calm ch) (ha : ArgsOk kv) (hlim : LimitArg kv limit)
    (hpa : lookup kv b!"path" = none) (hcur : lookup kv b!"cursor" = cursor)
    (hF : Frames (argPackets kv ++ [.flush]) u) (hi : r.input = u ++ rest)
    (hr : Dossier cfg w.fs ns ls) (hd : Ready cfg w.fs) :
    (listLocks cfg (mode = .upload)).runs ch r w (fun x r' w' => r' = { r with input := rest } ∧ w'.fs = w.fs ∧
      w'.out = w.out ∧ ∃ st, x = .ok st ∧ StatusFor st (answer cfg mode ⟨o, ls⟩ t t' (.listLocks none cursor limit)).1 w'.fs) := by
  obtain ⟨m, hm, hget⟩ := C09_args_exact kv ha
  unfold listLocks
  refine runs_readToFlushParse (readToFlush_args hF hi) ?_
  refine runs_ofRes_bind hm ?_
  refine runs_ofRes_bind (limit_parse hlim hget) ?_
  simp only [hget, hpa, hcur]
  refine runs_bind (P := fun x r' w' => r' = { r with input := rest } ∧ w'.fs = w.fs ∧ w'.out = w.out ∧
    x = .ok (((fromCursor cfg cursor ls).take (pageSize limit + 1)).map (lockInfo cfg))) ?_ ?_
  · unfold iterLocks
    refine runs_op_bind (fs' := w.fs) (x := .ok (w.fs.entries (locksDir cfg.root)))
      (by simp only [sem, hc w.tick, hd.locksDir, if_true]) (fun _ => rfl) ?_
    intro w' e1 e2
    refine runs_ofIo_bind ?_
    rw [hr.entries]
    refine runs_mono (runs_collect_bears hc cursor hd hr.bears true _ _ w' hr.usual e1) ?_
    rintro x r' w2 ⟨f0, f1, f2, f3⟩
    exact ⟨f0, f1.trans e1, f2.trans e2, by rw [f3]; rfl⟩
  · rintro x r' w' ⟨rfl, e1, e2, rfl⟩
    simp only [Res.elim_ok]
    have htimes : ∀ l ∈ (fromCursor cfg cursor ls).take (pageSize limit + 1), TimeOk cfg l.time := by
      intro l hl
      have h1 := List.mem_of_mem_take hl
      have h2 : l ∈ ls := by
        cases cursor with
        | none => exact h1
        | some c => exact (List.dropWhile_sublist _).mem h1
      exact bears_times hr.bears l h2
    generalize hpg : (fromCursor cfg cursor ls).take (pageSize limit + 1) = page at htimes
    rw [lockSpecs_eq page htimes]
    refine runs_pure_bind ?_
    refine ⟨rfl, e1, e2, _, rfl, ?_⟩
    simp only [answer]
    rw [hpg]
    refine ⟨⟨rfl, c200, ?_, ?_⟩, ?_, ?_⟩
    · rw [List.getElem?_map]
      cases page[pageSize limit]? with
      | none => rfl
      | some l =>
        have hid : lockId cfg (lockInfo cfg l).path = lockName cfg.sha l.path := lockId_eq cfg l.path
        simp only [Option.map_some, Option.toList, Status.successWithData, Option.getD_some, hid]
    · cases page[pageSize limit]? <;> simp
    · rfl
    · intro x hx
      obtain ⟨l, _, hl⟩ := List.mem_flatMap.mp hx
      exact lockLines_ne _ _ _ x hl

theorem runs_turn_dossier {ps : List Packet} {u rest : Bytes} {cursor : Option Bytes} {limit : Option Nat} {r : Rdr} {w : World}
    (o : Bytes → Option Bytes) (t t' : Int) (hc : Calm ch) (hm : Spec.Means mode ps (.listLocks none cursor limit))
    (hF : Frames ps u) (hi : r.input = u ++ rest) (hr : Dossier cfg w.fs ns ls) (hd : Ready cfg w.fs) :
    (turn cfg mode).runs ch r w (fun x r' w' => x = .ok .again ∧ r' = { r with input := rest } ∧ w'.fs = w.fs ∧
      ∃ b, w'.out = w.out ++ b ∧ Sends (answer cfg mode ⟨o, ls⟩ t t' (.listLocks none cursor limit)).1 b) := by
  generalize hq : Request.listLocks none cursor limit = q at hm
  cases hm with
  | @listLocks _ l kv limit hl ha hlim =>
    injection hq with hq1 hq2 hq3
    subst hq2 hq3
    obtain ⟨v, u, rfl, hv, hu⟩ := frames_split (ps := [Packet.data l]) hF
    rw [List.append_assoc] at hi
    obtain ⟨h1, h2⟩ := commandLine_words hl
    have hf := frames_singleton hv
    unfold turn
    refine runs_bind (P := fun x r2 w2 => x = .ok (.ok (.data l)) ∧ r2 = { r with input := u ++ rest } ∧ w2 = w) ?_ ?_
    · unfold M.runs
      rw [M.wp_attempt, M.wp_rdr, readPacket_frame hf r _ hi]
      exact show _ ∧ _ ∧ _ from ⟨rfl, rfl, rfl⟩
    rintro x r2 w ⟨rfl, rfl, rfl⟩
    simp only [Res.elim_ok, Packet.data?, h2, if_false, h1, List.head?_cons, Option.getD_some, List.tail_cons]
    refine runs_bind (P := fun x r' w' => r' = { r with input := rest } ∧ w'.fs = w.fs ∧
      w'.out = w.out ∧ ∃ st, x = .ok (.ok st) ∧
        StatusFor st (answer cfg mode ⟨o, ls⟩ t t' (.listLocks none (lookup kv b!"cursor") limit)).1 w'.fs) ?_ ?_
    · unfold M.runs
      rw [M.wp_attempt]
      refine M.wp_mono (runs_listLocks_dossier (mode := mode) (r := { r with input := u ++ rest }) o t t' hc ha hlim hq1.symm
        rfl hu rfl hr hd) ?_
      rintro x r' w' ⟨rfl, g1, g2, st, rfl, g3⟩
      exact show _ ∧ _ ∧ _ ∧ _ from ⟨rfl, g1, g2, st, rfl, g3⟩
    rintro x r' w' ⟨rfl, g1, g2, st, rfl, g3⟩
    simp only [Res.elim_ok]
    refine runs_bind (runs_status g3 hc) ?_
    rintro x r3 w3 ⟨rfl, rfl, f1, b, f2, f3⟩
    exact ⟨rfl, rfl, f1.trans g1, b, by rw [f2, g2], by rw [← hq1]; exact f3⟩
  | _ => cases hq

theorem runs_listings (hc : Calm ch) (o : Bytes → Option Bytes) {qs : List Said} {wire : Bytes} (hs : Talk mode qs wire)
    (hq : ∀ q ∈ qs, ∃ c k, q = .ask (.listLocks none c k)) :
    ∀ (f : Nat) (r : Rdr) (w : World), r.input = wire → r.fin.kind = .unexpectedEof → wire.length < f →
    Dossier cfg w.fs ns ls → Ready cfg w.fs →
    (processF cfg mode f).runs ch r w (fun x _ w' => x = .ok () ∧ w'.fs = w.fs ∧ ∃ ws, w'.out = w.out ++ ws.flatten ∧
      Conversation cfg mode ch ⟨o, ls⟩ qs ws ⟨o, ls⟩) := by
  obtain ⟨t, ht⟩ := clock_exists cfg ch
  induction hs with
  | eof =>
    intro f r w hi hfin hf hr hd
    obtain ⟨f, rfl⟩ : ∃ g, f = g + 1 := ⟨f - 1, by omega⟩
    rw [processF]
    refine runs_bind (runs_turn_eof hi hfin) ?_
    rintro x r' w' ⟨rfl, rfl, rfl⟩
    exact ⟨rfl, rfl, [], by simp, .nil⟩
  | quit => obtain ⟨c, k, h⟩ := hq _ (List.mem_cons_self ..); cases h
  | nonsense => obtain ⟨c, k, h⟩ := hq _ (List.mem_cons_self ..); cases h
  | @ask q qs ps w1 ws he hF _ ih =>
    intro f r w hi hfin hf hr hd
    obtain ⟨c, k, h⟩ := hq _ (List.mem_cons_self ..)
    cases h
    obtain ⟨f, rfl⟩ : ∃ g, f = g + 1 := ⟨f - 1, by omega⟩
    have := frames_length hF
    have := List.length_pos_iff.mpr (means_ne he)
    rw [processF]
    refine runs_bind (runs_turn_dossier o t t hc he hF hi hr hd) ?_
    rintro x r' w' ⟨rfl, rfl, e1, b, e2, e3⟩
    simp only [Res.elim_ok]
    refine runs_mono (ih (fun q h => hq q (by simp [h])) f _ w' rfl hfin (by simp only [List.length_append] at hf; omega)
      (by rw [e1]; exact hr) (by rw [e1]; exact hd)) ?_
    rintro x r2 w2 ⟨rfl, f1, bs, f2, f3⟩
    refine ⟨rfl, f1.trans e1, b :: bs, by rw [f2, e2, List.append_assoc, List.flatten_cons], ?_⟩
    exact .cons (s' := ⟨o, ls⟩) ht ht rfl e3 f3

theorem runs_program_listings (hc : Calm ch) (o : Bytes → Option Bytes) {qs : List Said} {w : World} {r : Rdr}
    (hs : Talk mode qs r.input) (hq : ∀ q ∈ qs, ∃ c k, q = .ask (.listLocks none c k))
    (hfin : r.fin.kind = .unexpectedEof) (hr : Dossier cfg w.fs ns ls) :
    (runProgram cfg (Mode.operation mode)).runs ch r w (fun x _ w' => x = .ok () ∧ Dossier cfg w'.fs ns ls ∧ w'.fs.names = w.fs.names ∧ w'.fs.inodes = w.fs.inodes ∧
    ∃ ws, w'.out = w.out ++ b!"000eversion=1\n0000" ++ ws.flatten ∧ Conversation cfg mode ch ⟨o, ls⟩ qs ws ⟨o, ls⟩) := by
  unfold runProgram
  refine runs_bind (runs_mkdirs_dossier (cfg := cfg) hc (topDirs cfg.root) r w (fun _ h => h) hr) ?_
  rintro x r' w1 ⟨rfl, rfl, e1, hr1, n1, i1, _, hd1⟩
  simp only [Res.elim_ok]
  refine runs_bind (prints_sendCapabilities ch r' w1 hc) ?_
  rintro x r2 w2 ⟨rfl, rfl, e2, e3⟩
  have hcap : encMsg b!"version=1\n" ++ b!"0000" = b!"000eversion=1\n0000" := by decide
  rw [hcap] at e3
  simp only [Res.elim_ok]
  have main : (processF cfg mode (r2.input.length + 1)).runs ch r2 w2 (fun x _ w' => x = .ok () ∧ Dossier cfg w'.fs ns ls ∧
      w'.fs.names = w.fs.names ∧ w'.fs.inodes = w.fs.inodes ∧ ∃ ws, w'.out = w.out ++ b!"000eversion=1\n0000" ++ ws.flatten ∧
      Conversation cfg mode ch ⟨o, ls⟩ qs ws ⟨o, ls⟩) := by
    refine runs_mono (runs_listings hc o hs hq (r2.input.length + 1) r2 w2 rfl hfin (by omega)
      (by rw [e2]; exact hr1) (by rw [e2]; exact hd1)) ?_
    rintro x r3 w3 ⟨h1, h2, ws, h3, h4⟩
    exact ⟨h1, by rw [h2, e2]; exact hr1, by rw [h2, e2, n1], by rw [h2, e2, i1], ws, by rw [h3, e3, e1], h4⟩
  cases mode with
  | upload => exact main
  | download => exact main

/-! ### C88 -/

/-- **C88.** Whatever files are in the directory of the locks: any number of listings, with any cursors and limits, are
answered as by the simple server whose locks are the records in these files, in the order of the names of the files. No
file changes. -/
theorem C88_exact_partial (hc : ∀ n, (ch n).fault = none) (o : Bytes → Option Bytes) {qs : List Said} {w : World} {r : Rdr}
    (hs : Talk mode qs r.input) (hq : ∀ q ∈ qs, ∃ c k, q = .ask (.listLocks none c k))
    (hfin : r.fin.kind = .unexpectedEof) (hr : Dossier cfg w.fs ns ls) :
    ((mainProg cfg (Mode.operation mode) r).run ch w).1 = ⟨0, []⟩ ∧
    Dossier cfg ((mainProg cfg (Mode.operation mode) r).run ch w).2.fs ns ls ∧
    ((mainProg cfg (Mode.operation mode) r).run ch w).2.fs.names = w.fs.names ∧
    ((mainProg cfg (Mode.operation mode) r).run ch w).2.fs.inodes = w.fs.inodes ∧
    ∃ ws, ((mainProg cfg (Mode.operation mode) r).run ch w).2.out = w.out ++ b!"000eversion=1\n0000" ++ ws.flatten ∧
      Conversation cfg mode ch ⟨o, ls⟩ qs ws ⟨o, ls⟩ := by
  exact main_run (Q := fun w' => Dossier cfg w'.fs ns ls ∧ w'.fs.names = w.fs.names ∧ w'.fs.inodes = w.fs.inodes ∧
    ∃ ws, w'.out = w.out ++ b!"000eversion=1\n0000" ++ ws.flatten ∧ Conversation cfg mode ch ⟨o, ls⟩ qs ws ⟨o, ls⟩)
    (runs_mono (runs_program_listings hc o hs hq hfin hr) (by rintro _ _ _ ⟨rfl, h⟩; exact ⟨rfl, h⟩))

/-! ### The file that a killed `lock` has left -/

theorem lt_append_right {x : Bytes} (hx : x ≠ []) : ∀ n : Bytes, n < n ++ x
  | [] => by
    obtain ⟨a, x, rfl⟩ := List.exists_cons_of_ne_nil hx
    exact List.nil_lt_cons ..
  | a :: n => List.cons_lt_cons_iff.mpr (.inr ⟨rfl, lt_append_right hx n⟩)

theorem append_lt_of_lt {x : Bytes} : ∀ {n m : Bytes}, n.length = m.length → n < m → n ++ x < m
  | [], [], _, h => absurd h (List.lt_irrefl _)
  | a :: n, b :: m, hl, h => by
    rcases List.cons_lt_cons_iff.mp h with h | ⟨rfl, h'⟩
    · exact List.cons_lt_cons_iff.mpr (.inl h)
    · exact List.cons_lt_cons_iff.mpr (.inr ⟨rfl, append_lt_of_lt (by simpa using hl) h'⟩)

theorem bears_locks {ms : List Lock} (h : ∀ l ∈ ms, TimeOk cfg l.time ∧ ∃ i, fs.get (lockFile cfg.root (lockName cfg.sha l.path)) = some i ∧
    (fs.inodes i).data = lockText l ∧ (fs.inodes i).uid = l.uid) (hb : Bears cfg fs ns ls) :
    Bears cfg fs (ms.map (fun l => lockName cfg.sha l.path) ++ ns) (ms ++ ls) := by
  induction ms with
  | nil => exact hb
  | cons l ms ih =>
    obtain ⟨h1, i, h2, h3, h4⟩ := h l (by simp)
    exact .lock h2 (by rw [h3]; exact parseLock_iff.mp (parse_lockText h1)) h4 h1 (ih fun m hm => h m (by simp [hm]))

theorem filter_split {N : Bytes} {ms : List Lock}
    (h : ms.Pairwise fun l m => lockName cfg.sha l.path < lockName cfg.sha m.path) :
    ms.filter (fun m => lockName cfg.sha m.path ≤ N) ++ ms.filter (fun m => N < lockName cfg.sha m.path) = ms := by
  induction ms with
  | nil => rfl
  | cons l ms ih =>
    rw [List.pairwise_cons] at h
    by_cases hl : lockName cfg.sha l.path ≤ N
    · rw [List.filter_cons_of_pos (by simpa using hl), List.filter_cons_of_neg (by simpa using List.not_lt.mpr hl),
        List.cons_append, ih h.2]
    · have hl' : N < lockName cfg.sha l.path := List.not_le.mp hl
      have none : ms.filter (fun m => lockName cfg.sha m.path ≤ N) = [] := by
        rw [List.filter_eq_nil_iff]
        intro m hm
        simpa using List.lt_trans hl' (h.1 m hm)
      have all : ms.filter (fun m => N < lockName cfg.sha m.path) = ms := by
        rw [List.filter_eq_self]
        intro m hm
        simpa using List.lt_trans hl' (h.1 m hm)
      rw [List.filter_cons_of_neg (by simpa using hl'), List.filter_cons_of_pos (by simpa using hl'), none, all]
      rfl

/-- `C88_exact_partial` for files that represent a store: the locks of the store are shown. -/
theorem C88_store {s : Store} (hsha : ∀ b, (cfg.sha b).length = 32) (h : Rep cfg s fs) :
    Dossier cfg fs (s.locks.map fun l => lockName cfg.sha l.path) s.locks where
  names n := by
    rw [List.mem_map]
    constructor
    · rintro ⟨l, hl, rfl⟩
      obtain ⟨i, hi, _⟩ := h.locks l hl
      rw [hi]; rfl
    · intro hn
      obtain ⟨l, hl, e⟩ := h.only n hn
      exact ⟨l, hl, e.symm⟩
  sorted := by rw [List.pairwise_map]; exact h.sorted
  usual n hn := by
    obtain ⟨l, _, rfl⟩ := List.mem_map.mp hn
    exact .inl (isOid_lockName hsha _)
  bears := by
    have := bears_locks (fs := fs) (ms := s.locks) (fun l hl => ⟨h.times l hl, h.locks l hl⟩) .nil
    simpa using this
  files := h.lockFiles
  nodup := h.nodup
  noFile d hd := h.noFile d (.inl hd)

/-- **C88.** What a killed `lock` leaves is shown like a lock, if its record has been written, though nobody may hold it. If
the lock is held, it is shown twice. -/
theorem C88_left {s : Store} {path : Bytes} {i : Ino} (hsha : ∀ b, (cfg.sha b).length = 32) (h : RepBut cfg s path fs)
    (hi : fs.get (halfLock cfg path) = some i) :
    (∀ l : Lock, l.path = path → TimeOk cfg l.time → (fs.inodes i).data = lockText l → (fs.inodes i).uid = l.uid →
      ∃ ns, Dossier cfg fs ns (withGhost cfg s l).locks) ∧
    ((∀ t p, ¬ RecordIs (fs.inodes i).data t p) → ∃ ns, Dossier cfg fs ns s.locks) := by
  have hn := h.2.2.1
  have hget : ∀ q, q ≠ halfLock cfg path → fs.get q = (fs.delName (halfLock cfg path)).get q := by
    intro q hq
    rw [FS.get_delName]
    simp [hq]
  have hlen : ∀ p, (lockName cfg.sha p).length = 64 := fun p => (isOid_lockName hsha p).1
  have hlf : ∀ n m, lockFile cfg.root n = lockFile cfg.root m ↔ n = m := by
    intro n m
    simp [lockFile]
  have hne : ∀ p, lockFile cfg.root (lockName cfg.sha p) ≠ halfLock cfg path := by
    intro p e
    have := congrArg List.length ((hlf _ _).mp e)
    rw [List.length_append, hlen, hlen] at this
    simp at this
  have hlocks : ∀ m ∈ s.locks, TimeOk cfg m.time ∧ ∃ i, fs.get (lockFile cfg.root (lockName cfg.sha m.path)) = some i ∧
      (fs.inodes i).data = lockText m ∧ (fs.inodes i).uid = m.uid := by
    intro m hm
    obtain ⟨j, h1, h2⟩ := h.2.1.locks m hm
    exact ⟨h.2.1.times m hm, j, by rw [hget _ (hne _)]; exact h1, h2⟩
  generalize hN : lockName cfg.sha path = N at *
  let A := s.locks.filter (fun m => lockName cfg.sha m.path ≤ N)
  let B := s.locks.filter (fun m => N < lockName cfg.sha m.path)
  have hA : ∀ m ∈ A, m ∈ s.locks := fun m hm => (List.mem_filter.mp hm).1
  have hB : ∀ m ∈ B, m ∈ s.locks := fun m hm => (List.mem_filter.mp hm).1
  have all : A ++ B = s.locks := filter_split h.2.1.sorted
  have hleA : ∀ m ∈ A, lockName cfg.sha m.path < N ++ b!".lock" := by
    intro m hm
    have h1 : lockName cfg.sha m.path ≤ N := by simpa using (List.mem_filter.mp hm).2
    have h2 : N < N ++ b!".lock" := lt_append_right (by simp) N
    rcases List.le_iff_lt_or_eq.mp h1 with h1 | h1
    · exact List.lt_trans h1 h2
    · rw [h1]; exact h2
  have hltB : ∀ m ∈ B, N ++ b!".lock" < lockName cfg.sha m.path := by
    intro m hm
    have h1 : N < lockName cfg.sha m.path := by simpa using (List.mem_filter.mp hm).2
    exact append_lt_of_lt (by rw [← hN, hlen, hlen]) h1
  have hsort : (A ++ B).Pairwise fun l m => lockName cfg.sha l.path < lockName cfg.sha m.path := by
    rw [all]; exact h.2.1.sorted
  rw [List.pairwise_append] at hsort
  have build : ∀ ls, Bears cfg fs (A.map (fun l => lockName cfg.sha l.path) ++
      (N ++ b!".lock") :: B.map (fun l => lockName cfg.sha l.path)) ls → Dossier cfg fs (A.map (fun l => lockName cfg.sha l.path) ++
      (N ++ b!".lock") :: B.map (fun l => lockName cfg.sha l.path)) ls := by
    intro ls hb
    refine ⟨fun n => ?_, ?_, ?_, hb, ?_, hn, ?_⟩
    · have h1 : n ∈ A.map (fun l => lockName cfg.sha l.path) ++ (N ++ b!".lock") :: B.map (fun l => lockName cfg.sha l.path) ↔
          n = N ++ b!".lock" ∨ n ∈ s.locks.map fun l => lockName cfg.sha l.path := by
        rw [← all]
        simp only [List.mem_append, List.mem_cons, List.map_append]
        tauto
      rw [h1]
      constructor
      · rintro (rfl | hm)
        · rw [← hN]; exact h.1
        · obtain ⟨m, hm', rfl⟩ := List.mem_map.mp hm
          obtain ⟨_, j, h2, _⟩ := hlocks m hm'
          rw [h2]; rfl
      · intro h2
        by_cases he : n = N ++ b!".lock"
        · exact .inl he
        · have : lockFile cfg.root n ≠ halfLock cfg path := by
            intro e
            rw [halfLock, hN] at e
            exact he ((hlf _ _).mp e)
          rw [hget _ this] at h2
          obtain ⟨m, hm, e⟩ := h.2.1.only n h2
          exact .inr (List.mem_map.mpr ⟨m, hm, e.symm⟩)
    · rw [List.pairwise_append, List.pairwise_cons, List.pairwise_map, List.pairwise_map]
      refine ⟨hsort.1, ⟨fun x hx => ?_, hsort.2.1⟩, fun x hx y hy => ?_⟩
      · obtain ⟨m, hm, rfl⟩ := List.mem_map.mp hx
        exact hltB m hm
      · obtain ⟨m, hm, rfl⟩ := List.mem_map.mp hx
        rcases List.mem_cons.mp hy with rfl | hy
        · exact hleA m hm
        · obtain ⟨m', hm', rfl⟩ := List.mem_map.mp hy
          exact hsort.2.2 m hm m' hm'
    · intro n hm
      rcases List.mem_append.mp hm with hm | hm
      · obtain ⟨m, _, rfl⟩ := List.mem_map.mp hm
        exact .inl (isOid_lockName hsha _)
      · rcases List.mem_cons.mp hm with rfl | hm
        · exact .inr ⟨N, hN ▸ isOid_lockName hsha _, rfl⟩
        · obtain ⟨m, _, rfl⟩ := List.mem_map.mp hm
          exact .inl (isOid_lockName hsha _)
    · exact h.2.1.lockFiles
    · intro d hd q hq
      rw [hget q, h.2.1.noFile d (.inl hd) q hq]
      rintro rfl
      have hl := hq.length_le
      simp only [topDirs, List.mem_cons, List.not_mem_nil, or_false] at hd
      rcases hd with rfl | rfl | rfl | rfl <;>
        simp [halfLock, lockFile] at hl
  have hhalf : fs.get (lockFile cfg.root (N ++ b!".lock")) = some i := by
    rw [← hN]; exact hi
  have hbB : Bears cfg fs (B.map fun l => lockName cfg.sha l.path) B := by
    have := bears_locks (fs := fs) (ms := B) (fun m hm => hlocks m (hB m hm)) .nil
    simpa using this
  refine ⟨fun l hl ht hdat hu => ⟨_, build _ ?_⟩, fun hno => ⟨_, build _ ?_⟩⟩
  · simp only [withGhost, hl, hN]
    exact bears_locks (fun m hm => hlocks m (hA m hm))
      (.lock hhalf (by rw [hdat]; exact parseLock_iff.mp (parse_lockText ht)) hu ht hbB)
  · have := bears_locks (fun m hm => hlocks m (hA m hm)) (.other hhalf hno hbB)
    rw [all] at this
    exact this

/-- **C88.** A server is killed at any moment of any session. A listing then shows the locks of the store as it is after
some of the requests (C73), and at most one lock that is none: that of a `lock` that was under way. -/
theorem C88_killed {ch2 : Nat → Choice} {mode2 : Mode} {s : Store} (hc : ∀ n, (ch n).fault = none)
    (hc2 : ∀ n, (ch2 n).fault = none) (hsha : ∀ b, (cfg.sha b).length = 32) (hclk : ∀ t, Clock cfg ch t → TimeOk cfg t)
    {qs : List Said} {w w2 : World} {r : Rdr} (hs : Talk mode qs r.input) (hr : Rep cfg s w.fs) (hp : r.pending = [])
    (hfin : r.fin.kind = .unexpectedEof) (n : Nat) {qs2 : List Said} {r2 : Rdr} (hs2 : Talk mode2 qs2 r2.input)
    (hq2 : ∀ q ∈ qs2, ∃ c k, q = .ask (.listLocks none c k)) (hfin2 : r2.fin.kind = .unexpectedEof)
    (hw2 : w2.fs = (stopped ch n (mainProg cfg (Mode.operation mode) r) w).fs) :
    ∃ k ws s', Conversation cfg mode ch s (qs.take k) ws s' ∧ ∃ ws2 s2,
      ((mainProg cfg (Mode.operation mode2) r2).run ch2 w2).1 = ⟨0, []⟩ ∧
      ((mainProg cfg (Mode.operation mode2) r2).run ch2 w2).2.out = w2.out ++ b!"000eversion=1\n0000" ++ ws2.flatten ∧
      Conversation cfg mode2 ch2 s2 qs2 ws2 s2 ∧
      (s2 = s' ∨ ∃ l : Lock, (qs[k]? = some (.ask (.lock l.path)) ∨ (qs.take k).getLast? = some (.ask (.lock l.path))) ∧
        s2 = withGhost cfg s' l) := by
  obtain ⟨k, ws, s', h1, _, h3⟩ := C73_stopped hc hsha hclk hs hr hp hfin n
  rw [← hw2] at h3
  have list : ∀ s2 : Store, (∃ ns, Dossier cfg w2.fs ns s2.locks) → ∃ ws2,
      ((mainProg cfg (Mode.operation mode2) r2).run ch2 w2).1 = ⟨0, []⟩ ∧
      ((mainProg cfg (Mode.operation mode2) r2).run ch2 w2).2.out = w2.out ++ b!"000eversion=1\n0000" ++ ws2.flatten ∧
      Conversation cfg mode2 ch2 s2 qs2 ws2 s2 := by
    rintro s2 ⟨ns, h⟩
    obtain ⟨g1, _, _, _, ws2, g2, g3⟩ := C88_exact_partial hc2 s2.objs hs2 hq2 hfin2 h
    exact ⟨ws2, g1, g2, g3⟩
  refine ⟨k, ws, s', h1, ?_⟩
  rcases h3 with h3 | ⟨path, h4, h5⟩
  · obtain ⟨ws2, g1, g2, g3⟩ := list s' ⟨_, C88_store hsha h3⟩
    exact ⟨ws2, s', g1, g2, g3, .inl rfl⟩
  · obtain ⟨i, hi⟩ := Option.isSome_iff_exists.mp h5.1
    obtain ⟨k1, k2⟩ := C88_left hsha h5 hi
    rcases (h5.2.2.2 i hi).2 with h6 | ⟨l, rfl, h7, h8, h9⟩
    · obtain ⟨ws2, g1, g2, g3⟩ := list s' (k2 fun t p ⟨ts, e, _⟩ => by rw [h6] at e; simp at e)
      exact ⟨ws2, s', g1, g2, g3, .inl rfl⟩
    · obtain ⟨ws2, g1, g2, g3⟩ := list (withGhost cfg s' l) (k1 l rfl h7 h8 h9)
      exact ⟨ws2, _, g1, g2, g3, .inr ⟨l, h4, rfl⟩⟩

/-- **C88.** When the same lock is shown twice, a client that asks for one lock per page never gets to the end: the page
that begins with this lock points to itself. -/
theorem C88_endless {o : Bytes → Option Bytes} {as bs : List Lock} {l l' : Lock} {t t' : Int}
    (ha : ∀ m ∈ as, lockName cfg.sha m.path < lockName cfg.sha l.path) (hl : l'.path = l.path) :
    (answer cfg mode ⟨o, as ++ l :: l' :: bs⟩ t t' (.listLocks none (some (lockName cfg.sha l.path)) (some 1))).1 =
      ⟨200, [b!"next-cursor=" ++ lockName cfg.sha l.path ++ b!"\n"], .lines (lockLines cfg mode l ++ lockLines cfg mode l')⟩ := by
  have h : fromCursor cfg (some (lockName cfg.sha l.path)) (as ++ l :: l' :: bs) = l :: l' :: bs := by
    simp only [fromCursor]
    rw [List.dropWhile_append_of_pos (by simpa using ha)]
    simp [List.lt_irrefl]
  simp only [answer, h]
  simp [pageSize, hl]

namespace Tests

/-- Killed after 10 calls, the server has written the record but has not taken the lock; after 11 calls it has. -/
def cut10 : FS := (stopped calm 10 (server Tests.cfg b!"upload" lockReq) ⟨fs0, [], 0⟩).fs
def cut11 : FS := (stopped calm 11 (server Tests.cfg b!"upload" lockReq) ⟨fs0, [], 0⟩).fs
/-- A listing with one lock per page, from this lock on. -/
def listF : Bytes := enc (listOne (some idF))

/-- The file of a killed `lock` of `f` in addition to the files of `fsL`, in which `f` is locked. -/
def fsG : FS := { fsL with names := (halfLock Tests.cfg b!"f", 1) :: fsL.names }

theorem repG : RepBut Tests.cfg sL b!"f" fsG := by
  refine ⟨by decide +kernel, ?_, by decide +kernel, fun i hi => ?_⟩
  case refine_2 =>
    have : fsG.get (halfLock Tests.cfg b!"f") = some 1 := by decide +kernel
    rw [this] at hi
    cases hi
    exact ⟨by decide +kernel, .inr ⟨⟨b!"f", 1000684800, 1000⟩, rfl, ⟨by decide, by decide, by decide +kernel⟩,
      by decide +kernel, by decide +kernel⟩⟩
  have : fsG.delName (halfLock Tests.cfg b!"f") = fsL := by
    have h : alDel fsG.names (halfLock Tests.cfg b!"f") = fsL.names := by decide +kernel
    show FS.mk _ _ _ _ = _
    rw [h]
    rfl
  rw [this]
  exact repL

/-- The hypotheses of `C88_left` and `C88_exact_partial`. The lock of `f` is shown twice. -/
theorem dossierG : ∃ ns, Dossier Tests.cfg fsG ns
    [⟨b!"f", 1000684800, 1000⟩, ⟨b!"f", 1000684800, 1000⟩, ⟨b!"g:h", 5, 0⟩] := by
  obtain ⟨ns, h⟩ := (C88_left (i := 1) sha_len repG (by decide +kernel)).1
    ⟨b!"f", 1000684800, 1000⟩ rfl ⟨by decide, by decide, by decide +kernel⟩ (by decide +kernel) (by decide +kernel)
  have e : (withGhost Tests.cfg sL ⟨b!"f", 1000684800, 1000⟩).locks =
      [⟨b!"f", 1000684800, 1000⟩, ⟨b!"f", 1000684800, 1000⟩, ⟨b!"g:h", 5, 0⟩] := by decide +kernel
  exact ⟨ns, e ▸ h⟩
example : Talk .upload [.ask (.listLocks none (some idF) (some 1))] listF := by
  have : Session .upload [.listLocks none (some idF) (some 1)] (listF ++ []) :=
    .cons (listOne_encodes (some idF)) (frames_enc _ (by decide)) trivial (by simp) .eof
  simpa using C72_sessions this

end Tests

open Tests in
/-- **C88** is false for the code: a killed server has not taken the lock, `unlock` finds no lock, but a listing shows it. -/
theorem C88_refuted :
    cut10.get (lockFile Tests.cfg.root idF) = none ∧
    ((server Tests.cfg b!"upload" (enc [.data (b!"unlock " ++ idF), .flush])).run calm ⟨cut10, [], 0⟩).2.out =
      b!"000eversion=1\n0000" ++ b!"000fstatus 404\n0001000enot found\n0000" ∧
    ((server Tests.cfg b!"upload" (enc listAll)).run calm ⟨cut10, [], 0⟩).2.out.take 111 =
      b!"000eversion=1\n0000" ++ b!"000fstatus 200\n0001" ++ b!"004alock " ++ idF ++ b!"\n" := by
  refine ⟨by decide +kernel, by decide +kernel, by decide +kernel⟩

open Tests in
/-- **C88.** Nor does paging end: after another kill, the page from this lock on points to itself. -/
theorem C88_endless_refuted :
    ((server Tests.cfg b!"upload" listF).run calm ⟨cut11, [], 0⟩).2.out.take 114 =
      b!"000eversion=1\n0000" ++ b!"000fstatus 200\n" ++ b!"0051next-cursor=" ++ idF ++ b!"\n" := by
  decide +kernel

end Verif
