import Verif.Lemmas.Among
import Verif.Lemmas.ServePut
/-! Each request on objects, served among other processes, is answered as by the simple server. -/
namespace Verif
open Spec

variable {cfg : Cfg} {mode : Mode} {V : View cfg.root cfg.sha}

/-- What a handler started at moment `a` has to do for request `q`. -/
def View.Handled (V : View cfg.root cfg.sha) (mode : Mode) (q : Request) (r' : Rdr) (a : Nat)
    (x : Res Status) (r : Rdr) (g : Gh) : Prop :=
  r = r' ∧ ∃ st ans, outcome x = some st ∧ a ≤ g.now ∧ V.ρ.out V.i a g.now = [] ∧
    Answers V.ρ V.i cfg mode a g.now q ans ∧ V.StatusFor st ans g.now

theorem View.notDir (V : View cfg.root cfg.sha) {oid : Bytes} (ho : IsOid oid) (n : Nat) :
    (V.fs n).isDir (objPath cfg.root oid) = false := by
  rw [Bool.eq_false_iff, Ne, isDir_iff, ← objectFile_eq]
  rintro (e | e)
  · simp [objectFile] at e
  · exact (V.env.tidy n).objFiles oid ho e

/-- `fs::metadata` of an object path. -/
theorem call_stat {g : Gh} {oid : Bytes} {n : Nat} {x : Resp (.stat (.exact (objPath cfg.root oid)))}
    (ho : IsOid oid) (h : V.Call g _ x n) :
    match V.ρ.objectsAt cfg.root n oid with
    | some d => ∃ st, x = .ok st ∧ st.len = d.length
    | none => x = .error enoent := by
  obtain ⟨c, hc, hs⟩ := h.sem rfl
  rw [sem_stat_exact hc] at hs
  have hx := congrArg Prod.snd hs
  subst hx
  unfold Execution.objectsAt
  rw [objectFile_eq, FS.content]
  cases (V.fs n).get (objPath cfg.root oid) with
  | some i => exact ⟨_, rfl, rfl⟩
  | none => simp [V.notDir ho]

theorem amid_version {kv : List (Bytes × Bytes)} {u rest : Bytes} {r : Rdr} {g : Gh}
    (hF : Frames (argPackets kv ++ [.flush]) u) (hi : r.input = u ++ rest) :
    versionCmd.amid V r g (V.Handled mode .version { r with input := rest } g.now) := by
  unfold versionCmd
  refine amid_rdr_bind (readToFlush_args hF hi) ?_
  exact ⟨rfl, _, ⟨200, [], .lines []⟩, rfl, Nat.le_refl _, out_self _ _ _, ⟨⟨rfl, (View.Span.refl (V := V) _).leaves⟩, (View.Span.refl (V := V) _).locks⟩,
    ⟨rfl, c200, rfl, by simp⟩, rfl, by simp⟩

theorem amid_verify {kv : List (Bytes × Bytes)} {u rest oid sz : Bytes} {m : Nat} {r : Rdr} {g : Gh}
    (ho : IsOid oid) (ha : ArgsOk kv) (hs : lookup kv b!"size" = some sz) (hn : Num sz m)
    (hF : Frames (argPackets kv ++ [.flush]) u) (hi : r.input = u ++ rest) :
    (verifyObject cfg oid).amid V r g (V.Handled mode (.verify oid m) { r with input := rest } g.now) := by
  obtain ⟨as, has, hget⟩ := C09_args_exact kv ha
  unfold verifyObject
  refine amid_rdr_bind (readToFlush_args hF hi) ?_
  refine amid_ofRes_bind has ?_
  have hoid : oidNew oid = pure oid := by simp [oidNew, (oidValid_iff oid).mpr ho]
  rw [hoid]
  refine amid_pure_bind ?_
  unfold backendVerify
  refine amid_ofRes_bind (a := m) (by rw [hget, hs]; exact num_parse hn) ?_
  refine amid_op_bind fun x n h => ?_
  have hobj := call_stat ho h
  have hsp := h.span rfl
  cases hob : V.ρ.objectsAt cfg.root n oid with
  | none =>
    rw [hob] at hobj
    subst hobj
    refine ⟨rfl, Status.failure 404 b!"not found", _, rfl, hsp.le, hsp.out,
      ⟨⟨n, h.unt.le, Nat.lt_succ_self n, rfl, hsp.leaves⟩, hsp.locks⟩, ?_⟩
    simp only [answer, storeAt, hob]
    exact ⟨⟨rfl, c404, rfl, by simp⟩, rfl, by simp⟩
  | some d =>
    rw [hob] at hobj
    obtain ⟨st, rfl, hl⟩ := hobj
    simp only [hl]
    by_cases hlen : d.length = m
    · rw [if_pos hlen]
      refine ⟨rfl, Status.success, _, rfl, hsp.le, hsp.out, ⟨⟨n, h.unt.le, Nat.lt_succ_self n, rfl, hsp.leaves⟩, hsp.locks⟩, ?_⟩
      simp only [answer, storeAt, hob, if_pos hlen]
      exact ⟨⟨rfl, c200, rfl, by simp⟩, rfl, rfl⟩
    · rw [if_neg hlen]
      refine ⟨rfl, Status.failure 409 b!"mismatched size or cryptographic collision", _, rfl, hsp.le, hsp.out,
        ⟨⟨n, h.unt.le, Nat.lt_succ_self n, rfl, hsp.leaves⟩, hsp.locks⟩, ?_⟩
      simp only [answer, storeAt, hob, if_neg hlen]
      exact ⟨⟨rfl, c409, rfl, by simp⟩, rfl, by simp⟩

theorem amid_get {kv : List (Bytes × Bytes)} {u rest oid : Bytes} {r : Rdr} {g : Gh}
    (ho : IsOid oid) (ha : ArgsOk kv)
    (hF : Frames (argPackets kv ++ [.flush]) u) (hi : r.input = u ++ rest) :
    (getObject cfg oid).amid V r g (V.Handled mode (.get oid) { r with input := rest } g.now) := by
  obtain ⟨as, has, _⟩ := C09_args_exact kv ha
  unfold getObject
  refine amid_rdr_bind (readToFlush_args hF hi) ?_
  refine amid_ofRes_bind has ?_
  have hoid : oidNew oid = pure oid := by simp [oidNew, (oidValid_iff oid).mpr ho]
  rw [hoid]
  refine amid_pure_bind ?_
  refine amid_bind (P := fun x r' g' => r' = { r with input := rest } ∧ V.Span g.now g'.now [] ∧
    ∃ n, g.now ≤ n ∧ n < g'.now ∧ match V.ρ.objectsAt cfg.root n oid with
    | none => ∃ e : Err, x = .ok (.error e) ∧ e.ioKind = .notFound
    | some d => ∃ i, x = .ok (.ok (some i, d.length)) ∧ V.Fixed g'.now i d) ?_ ?_
  · unfold M.amid
    rw [M.wp_attempt]
    unfold backendDownload
    refine amid_op_bind fun x n h => ?_
    obtain ⟨c, hc, hs⟩ := h.sem rfl
    have hsp := h.span rfl
    have hx := congrArg Prod.snd hs
    cases hg : (V.fs n).get (objPath cfg.root oid) with
    | none =>
      have e : V.ρ.objectsAt cfg.root n oid = none := by
        rw [Execution.objectsAt, objectFile_eq, FS.content, hg]; rfl
      have e2 : x = .error enoent := by
        refine hx.symm.trans ?_; simp [Verif.sem, hc, FS.resolve, hg, V.notDir ho]
      subst e2
      refine ⟨rfl, hsp, n, h.unt.le, Nat.lt_succ_self n, ?_⟩
      rw [e]
      exact ⟨_, rfl, rfl⟩
    | some j =>
      have e : V.ρ.objectsAt cfg.root n oid = some ((V.fs n).inodes j).data := by
        rw [Execution.objectsAt, objectFile_eq, FS.content, hg]; rfl
      have e2 : x = .ok (some j) := by
        refine hx.symm.trans ?_; simp [Verif.sem, hc, FS.resolve, hg]
      subst e2
      have hfix : V.Fixed n j ((V.fs n).inodes j).data := ⟨V.env.sealed_obj hg, rfl⟩
      refine amid_ofIo_bind ?_
      refine amid_op_bind fun x m h' => ?_
      obtain ⟨c', hc', hs'⟩ := h'.sem rfl
      have hsp' := h'.span rfl
      have hx' := congrArg Prod.snd hs'
      have hm : n ≤ m := Nat.le_trans (Nat.le_succ n) h'.unt.le
      have e3 : x = .ok ⟨((V.fs n).inodes j).data.length, ((V.fs m).inodes j).uid⟩ := by
        refine hx'.symm.trans ?_
        rw [← (hfix.later hm).2]
        simp only [Verif.sem, hc']
      subst e3
      refine ⟨rfl, hsp.trans0 hsp', n, h.unt.le, Nat.lt_succ_of_le hm, ?_⟩
      rw [e]
      exact ⟨j, rfl, hfix.later (Nat.le_succ_of_le hm)⟩
  · rintro x r' g' ⟨rfl, hsp, n, h1, h2, hx⟩
    cases hs : V.ρ.objectsAt cfg.root n oid with
    | none =>
      rw [hs] at hx
      obtain ⟨e, rfl, hk⟩ := hx
      simp only [Res.elim_ok, hk, if_true]
      refine ⟨rfl, Status.failure 404 b!"not found\n", _, rfl, hsp.le, hsp.out, ⟨⟨n, h1, h2, rfl, hsp.leaves⟩, hsp.locks⟩, ?_⟩
      simp only [answer, storeAt, hs]
      exact ⟨⟨rfl, c404, rfl, by simp [notFound]⟩, rfl, by simp⟩
    | some d =>
      rw [hs] at hx
      obtain ⟨j, rfl, hk⟩ := hx
      refine ⟨rfl, _, _, rfl, hsp.le, hsp.out, ⟨⟨n, h1, h2, rfl, hsp.leaves⟩, hsp.locks⟩, ?_⟩
      simp only [answer, storeAt, hs]
      exact ⟨⟨rfl, c200, by simp [Status.newReader, natDec_eq], by simp⟩, rfl, j, rfl, hk⟩

/-! ### batch -/

theorem amid_backendBatch : ∀ (items : List (Bytes × Nat)) (r : Rdr) (g : Gh), (∀ it ∈ items, IsOid it.1) →
    (backendBatch cfg items).amid V r g (fun x r' g' => r' = r ∧ V.Span g.now g'.now [] ∧
      ∃ ms : List Nat, ms.length = items.length ∧ ms.Pairwise (· < ·) ∧ (∀ n ∈ ms, g.now ≤ n ∧ n < g'.now) ∧
        x = .ok (List.zipWith (fun n it => match V.ρ.objectsAt cfg.root n it.1 with
          | some d => ⟨it.1, d.length, true⟩
          | none => ⟨it.1, it.2, false⟩) ms items))
  | [], _, _, _ => ⟨rfl, .refl _, [], rfl, .nil, by simp, rfl⟩
  | (oid, m) :: rest, r, g, ho => by
    unfold backendBatch
    refine amid_op_bind fun x n h => ?_
    have hobj := call_stat (ho (oid, m) (by simp)) h
    refine amid_bind (amid_backendBatch rest r _ (fun it hit => ho it (by simp [hit]))) ?_
    rintro y r2 g2 ⟨rfl, e3, ms, k1, k2, k3, rfl⟩
    have hsp := (h.span rfl).trans0 e3
    refine ⟨rfl, hsp, n :: ms, by simp [k1], ?_, ?_, ?_⟩
    · refine List.pairwise_cons.mpr ⟨fun a ha => ?_, k2⟩
      have h1 := (k3 a ha).1
      simp only at h1
      omega
    · intro a ha
      have h1 := h.unt.le
      have h2 := e3.le
      simp only at h2
      rcases List.mem_cons.mp ha with rfl | ha
      · omega
      · have := k3 a ha
        simp only at this
        omega
    · simp only [List.zipWith_cons_cons]
      cases hob : V.ρ.objectsAt cfg.root n oid with
      | none => rw [hob] at hobj; subst hobj; rfl
      | some d =>
        rw [hob] at hobj
        obtain ⟨st, rfl, hl⟩ := hobj
        simp only [hl]

theorem amid_readToFlushParse {α : Type} {f : List Bytes → M α} {r r' : Rdr} {g : Gh} {Q} {v : List Bytes}
    (h : readToType .flush r = (.ok v, r')) (k : (f v).amid V r' g Q) :
    (readToFlushParse >>= f).amid V r g Q := by
  unfold readToFlushParse M.amid
  rw [M.wp_bind, M.wp_bind, M.wp_attempt]
  unfold readToFlush
  rw [M.wp_rdr, h]
  exact k

theorem amid_batch {kv : List (Bytes × Bytes)} {items : List (Bytes × Nat)} {ls : List Bytes} {u v rest : Bytes}
    {r : Rdr} {g : Gh} (ha : ArgsOk kv)
    (hh : ∀ a, lookup kv b!"hash-algo" = some a → a = b!"sha256") (hl : BatchLines items ls)
    (hF : Frames (argPackets kv ++ [.delim]) u) (hF' : Frames (ls.map .data ++ [.flush]) v)
    (hi : r.input = u ++ (v ++ rest)) {present missing : Bytes}
    (hm : (present, missing) = match mode with
      | .upload => (b!"noop", b!"upload")
      | .download => (b!"download", b!"noop")) :
    (batchCmd cfg present missing).amid V r g (V.Handled mode (.batch items) { r with input := rest } g.now) := by
  obtain ⟨m, hm', hget⟩ := C09_args_exact kv ha
  obtain ⟨hp, ho⟩ := parseBatchLines_ok hl
  unfold batchCmd
  refine amid_bind (P := fun x r' g' => r' = { r with input := rest } ∧ V.Span g.now g'.now [] ∧
      ∃ ms : List Nat, ms.length = items.length ∧ ms.Pairwise (· < ·) ∧ (∀ n ∈ ms, g.now ≤ n ∧ n < g'.now) ∧
        x = .ok (List.zipWith (fun n it => match V.ρ.objectsAt cfg.root n it.1 with
          | some d => ⟨it.1, d.length, true⟩
          | none => ⟨it.1, it.2, false⟩) ms items)) ?_ ?_
  · unfold readBatch
    refine amid_rdr_bind (readToDelim_args hF hi) ?_
    refine amid_ofRes_bind hm' ?_
    refine amid_readToFlushParse (readToType_frames (.inl rfl) hF' rfl) ?_
    rw [hget]
    cases hx : lookup kv b!"hash-algo" with
    | none =>
      refine amid_ofRes_bind hp ?_
      exact amid_backendBatch items _ g ho
    | some x =>
      have := hh x hx
      subst this
      simp only [if_true]
      refine amid_ofRes_bind hp ?_
      exact amid_backendBatch items _ g ho
  · rintro x r' g' ⟨rfl, hsp, ms, h1, h2, h3, rfl⟩
    refine ⟨rfl, _, _, rfl, hsp.le, hsp.out, ⟨⟨ms, h1, h2, h3, rfl, hsp.leaves⟩, hsp.locks⟩, ⟨rfl, c200, rfl, by simp⟩, ?_, ?_⟩
    · simp only [Status.newSuccess, Option.some.injEq]
      rw [List.map_zipWith]
      congr 1
      funext n it
      simp only [batchLine, storeAt]
      rcases Option.eq_none_or_eq_some (V.ρ.objectsAt cfg.root n it.1) with hx | ⟨d, hx⟩ <;>
        cases mode <;> cases hm <;> simp [natDec_eq, hx]
    · intro l hl
      obtain ⟨k, hk, rfl⟩ := List.mem_iff_getElem.mp hl
      rw [List.getElem_zipWith]
      unfold batchLine
      split <;> simp

/-! ### put-object -/

theorem View.Call.wrote {g : Gh} {ino : Ino} {b : Bytes} {x : Resp (.write ino b)} {n : Nat}
    (h : V.Call g (.write ino b) x n) : ∃ b', V.fs (n + 1) = (V.fs n).append ino b' := by
  obtain ⟨b', hl⟩ := h.made
  obtain ⟨c, hc, hs⟩ := V.env.calm (n + 1) n _ (Nat.lt_succ_self n) hl
  simp only [Verif.sem, hc] at hs
  exact ⟨b', (congrArg Prod.fst hs).symm⟩

/-- Writing to the temporary file of an upload. -/
theorem call_write_tmp {g : Gh} {p : Path} {ino : Ino} {b c : Bytes} {n : Nat} (ht : g.own.tmp = some (p, ino, some c))
    (h : V.Call g (.write ino b) (.ok ()) n) : V.Span g.now (n + 1) [] := by
  refine h.span_of rfl fun id _ => ?_
  obtain ⟨b', hb⟩ := h.wrote
  have hn : (V.fs (n + 1)).get (lockFile cfg.root id) = (V.fs n).get (lockFile cfg.root id) := by rw [hb]; rfl
  refine View.lockAt_eq hn fun j hj => ?_
  rw [hb, FS.data_append, if_neg, List.append_nil]
  rintro rfl
  rw [← hn] at hj
  refine (V.env.lk (n + 1)).sep id _ hj V.i p (some (c ++ b)) ?_
  rw [h.own]
  simp [Own.base, Own.wrote, ht]

/-- Copying from the reader to the temporary file. -/
theorem amid_copyInF (bufs : Nat → Nat) (p : Path) (ino : Ino) (r2 : Rdr) :
    ∀ (k i f : Nat) (acc : Bytes) (outs : List Bytes) (r r' : Rdr) (g : Gh) (c : Bytes),
    reads (fun j => bufs (i + j) + 1) k r = some (outs, r') → (∀ o ∈ outs, o ≠ []) →
    r'.read (bufs (i + k) + 1) = (.ok [], r2) → k < f → g.own.tmp = some (p, ino, some c) →
    (copyInF bufs ino f i acc).amid V r g (fun x r3 g' => x = .ok (acc ++ outs.flatten) ∧ r3 = r2 ∧
      V.Span g.now g'.now [] ∧ g'.own.tmp = some (p, ino, some (c ++ outs.flatten)))
  | _, _, 0, _, _, _, _, _, _, _, _, _, h, _ => by omega
  | 0, i, f + 1, acc, outs, r, r', g, c, h, _, he, _, ht => by
    simp only [reads, Option.some.injEq, Prod.mk.injEq] at h
    obtain ⟨rfl, rfl⟩ := h
    rw [copyInF]
    refine amid_rdr_bind he ?_
    simp only [if_true]
    exact ⟨by simp, rfl, .refl _, by simpa using ht⟩
  | k + 1, i, f + 1, acc, outs, r, r', g, c, h, hne, he, hk, ht => by
    rw [reads] at h
    split at h
    · rename_i d r1 hd
      simp only [Option.map_eq_some_iff, Prod.mk.injEq] at h
      obtain ⟨⟨outs', r1'⟩, h1, rfl, rfl⟩ := h
      rw [copyInF]
      refine amid_rdr_bind hd ?_
      rw [if_neg (hne d (by simp))]
      refine amid_op_bind fun x n hcall => ?_
      have hx := hcall.write_ok
      subst hx
      refine amid_ofIo_bind ?_
      have h1' : reads (fun j => bufs (i + 1 + j) + 1) k r1 = some (outs', r1') := by
        have : (fun j => bufs (i + 1 + j) + 1) = fun j => bufs (i + (j + 1)) + 1 := by
          funext j; rw [Nat.add_assoc, Nat.add_comm 1 j]
        rw [this]; exact h1
      refine amid_mono (amid_copyInF bufs p ino r2 k (i + 1) f (acc ++ d) outs' r1 r1' _ (c ++ d) h1'
        (fun o ho => hne o (by simp [ho])) (by rw [Nat.add_assoc, Nat.add_comm 1 k]; exact he) (by omega) ?_) ?_
      · simp [Own.base, Own.wrote, ht]
      rintro x r3 g3 ⟨h3, h4, h5, h6⟩
      exact ⟨by rw [h3]; simp, h4, (call_write_tmp ht hcall).trans0 h5, by rw [h6]; simp⟩
    · cases h

theorem amid_copyIn (bufs : Nat → Nat) {p : Path} {ino : Ino} {data rest : Bytes} {r : Rdr}
    {g : Gh} (h : Delivers r data (.ok []) rest) (ht : g.own.tmp = some (p, ino, some [])) :
    (copyIn bufs ino).amid V r g (fun x r' g' => x = .ok data ∧ r' = { r with input := rest, pending := [] } ∧
      V.Span g.now g'.now [] ∧ g'.own.tmp = some (p, ino, some data)) := by
  obtain ⟨k, outs, r', h1, h2, h3, hk, h5⟩ := h (fun j => bufs j + 1) (fun _ => Nat.succ_pos _)
  have := amid_copyInF (V := V) bufs p ino { r with input := rest, pending := [] } k 0 _ [] outs r r' g []
    (by simpa using h1) h2 (by simpa using h5) hk ht
  have this' : (copyInF bufs ino (r.input.length + r.pending.length + 1) 0 []).amid V r g
      (fun x r' g' => x = .ok data ∧ r' = { r with input := rest, pending := [] } ∧
      V.Span g.now g'.now [] ∧ g'.own.tmp = some (p, ino, some data)) := ?_
  · exact this'
  refine amid_mono this ?_
  rintro x r3 g3 ⟨e1, e2, e3, e4⟩
  exact ⟨by simp [e1, h3], e2, e3, by simpa [h3] using e4⟩

theorem amid_dropFile {p : Path} {ino : Ino} {v : Option Bytes} {r : Rdr} {g : Gh}
    (ht : g.own.tmp = some (p, ino, v)) :
    (dropFile p).amid V r g (fun x r' g' => x = .ok () ∧ r' = r ∧ V.Span g.now g'.now []) := by
  unfold dropFile
  refine amid_op_bind fun x n h => ?_
  refine ⟨rfl, rfl, h.span_of rfl fun id _ => ?_⟩
  obtain ⟨_, ⟨m, hm⟩, _⟩ := (V.env.inv n).tmp V.i p ino v ((h.made.lab rfl).2 ▸ ht)
  obtain ⟨c, hc, hs⟩ := h.sem rfl
  have hf := congrArg Prod.fst hs
  simp only [Verif.sem, hc] at hf
  have hget : (V.fs (n + 1)).get (lockFile cfg.root id) = (V.fs n).get (lockFile cfg.root id) := by
    rw [← hf]
    split
    · rw [FS.get_delName, if_neg (by rw [hm]; exact lock_ne_incomplete _ _ _)]
    · split <;> rfl
  refine View.lockAt_eq hget fun j _ => ?_
  rw [← hf]
  split
  · rfl
  · split <;> rfl

theorem amid_fixPermissions {oid : Bytes} {r : Rdr} {g : Gh}
    (h : ((V.fs g.now).get (objPath cfg.root oid)).isSome) :
    (fixPermissions cfg (objPath cfg.root oid)).amid V r g (fun x r' g' => x = .ok () ∧ r' = r ∧
      V.Span g.now g'.now []) := by
  unfold fixPermissions
  refine amid_op_bind fun x n hcall => ?_
  have h1 := V.env.kept hcall.unt.le h
  obtain ⟨c, hc, hs⟩ := hcall.sem rfl
  rw [sem_stat_exact hc] at hs
  have hx := congrArg Prod.snd hs
  obtain ⟨j, hj⟩ := Option.isSome_iff_exists.mp h1
  simp only [hj] at hx
  subst hx
  refine amid_ofIo_bind ?_
  refine amid_op_bind fun x m hcall' => ?_
  have h2 := V.env.kept (Nat.le_trans (Nat.le_succ n) hcall'.unt.le) h1
  obtain ⟨c', hc', hs'⟩ := hcall'.sem rfl
  obtain ⟨j', hj'⟩ := Option.isSome_iff_exists.mp h2
  simp only [Verif.sem, hc', hj'] at hs'
  have hx' := congrArg Prod.snd hs'
  subst hx'
  exact ⟨rfl, rfl, (hcall.span rfl).trans0 (hcall'.span rfl)⟩

theorem View.StatusFor.of {V : View cfg.root cfg.sha} {st : Status} {a : Answer} {fs : FS} {n : Nat}
    (h : Verif.StatusFor st a fs) (hb : ∀ d, a.body ≠ .raw d) : V.StatusFor st a n := by
  refine ⟨h.1, ?_⟩
  have h2 := h.2
  split at h2
  · rename_i e; rw [e]; exact h2
  · rename_i e; rw [e]; exact h2
  · rename_i d e; exact absurd e (hb d)

/-- The rename that stores an object. -/
theorem call_rename {g : Gh} {p : Path} {ino : Ino} {c oid : Bytes} {n : Nat}
    {x : Resp (.rename p (objPath cfg.root oid))} (ho : IsOid oid) (ht : g.own.tmp = some (p, ino, some c))
    (hd : objectDir cfg.root oid ∈ (V.fs g.now).dirs) (h : V.Call g _ x n) :
    x = .ok () ∧ ∀ o, IsOid o → V.ρ.objectsAt cfg.root (n + 1) o =
      if o = oid then some c else V.ρ.objectsAt cfg.root n o := by
  have hown : V.ow n V.i = g.own := (h.made.lab rfl).2
  obtain ⟨k1, ⟨nm, k2⟩, k3⟩ := (V.env.inv n).tmp V.i p ino (some c) (hown ▸ ht)
  have howns : (V.ow n V.i).owns ino := by
    rw [hown]
    exact .inl ⟨p, some c, ht⟩
  have hne : (V.fs n).get (objPath cfg.root oid) ≠ some ino := fun e => (V.env.inv n).objs _ _ e V.i howns
  have hdir : (V.fs n).isDir (objPath cfg.root oid).dropLast = true := by
    rw [objDir_eq, isDir_iff]
    exact .inr (V.env.dirs_le h.unt.le (near_of_prefix (List.prefix_append _ _)) hd)
  obtain ⟨ch, hc, hs⟩ := h.sem rfl
  simp only [Verif.sem, hc, k1, V.notDir ho, hdir, hne, if_false, Bool.not_true, Bool.false_eq_true] at hs
  have hx := congrArg Prod.snd hs
  have hf : (V.fs n |>.delName p).setName (objPath cfg.root oid) ino = V.fs (n + 1) := congrArg Prod.fst hs
  refine ⟨hx.symm, fun o hoo => ?_⟩
  unfold Execution.objectsAt FS.content
  rw [show (V.ρ.st (n + 1)).fs = V.fs (n + 1) from rfl, ← hf, FS.get_setName, FS.get_delName]
  by_cases he : o = oid
  · subst he
    rw [if_pos rfl, if_pos (objectFile_eq _ _)]
    simp only [Option.map_some, Option.some.injEq]
    exact k3 c rfl
  · rw [if_neg he, if_neg, if_neg]
    · rfl
    · rw [objectFile_eq, k2]; exact (incomplete_ne_obj _ _ _).symm
    · rw [← objectFile_eq]; exact fun e => he (object_inj e)

/-- An upload whose data arrive, in whatever packets. -/
theorem amid_put_from {kv : List (Bytes × Bytes)} {oid sz data rest : Bytes} {m : Nat} {r r1 : Rdr}
    {g : Gh} (hsha : ∀ b, (cfg.sha b).length = 32) (ho : IsOid oid) (ha : ArgsOk kv)
    (hs : lookup kv b!"size" = some sz) (hn : Num sz m)
    (hargs : readToType .delim r = (.ok (kv.map fun p => argLine p.1 p.2), r1))
    (hdel : Delivers r1 data (.ok []) rest) (hd : Ready cfg (V.fs g.now)) :
    (putObject cfg oid).amid V r g (V.Handled mode (.put oid m data) { r1 with input := rest, pending := [] } g.now) := by
  obtain ⟨as, has, hget⟩ := C09_args_exact kv ha
  have hoid : oidNew oid = pure oid := by simp [oidNew, (oidValid_iff oid).mpr ho]
  unfold putObject
  rw [hoid]
  refine amid_pure_bind ?_
  refine amid_rdr_bind hargs ?_
  refine amid_ofRes_bind has ?_
  refine amid_ofRes_bind (a := m) (by unfold sizeFromArgs; rw [hget, hs]; exact num_parse hn) ?_
  -- the temporary file
  refine amid_bind (P := fun x r' g' => r' = { r1 with input := rest, pending := [] } ∧ ∃ p ino, x = .ok (p, data) ∧
    g'.own.tmp = some (p, ino, some data) ∧ V.Span g.now g'.now [] ∧
    ∃ n, g.now ≤ n ∧ n < g'.now ∧ V.ρ.By V.i n) ?_ ?_
  · unfold startUpload
    refine amid_op_bind fun x n h => ?_
    obtain ⟨c, hc, hsem⟩ := h.sem rfl
    have hdir : (V.fs n).isDir (incompleteDir cfg.root) = true :=
      Spec.Ready.incompleteDir (cfg := cfg) fun d hd' => V.env.dirs_le h.unt.le (near_of_prefix (topDirs_below hd')) (hd d hd')
    simp only [Verif.sem, hc, hdir, if_true] at hsem
    have hx := congrArg Prod.snd hsem
    subst hx
    have hsp0 : V.Span g.now (n + 1) [] := h.span rfl
    have hby := h.made.by
    have hle := h.unt.le
    simp only
    clear h hsem
    generalize (V.fs n).freshName (incompleteDir cfg.root) (oid ++ c.rand) = p
    generalize (V.fs n).next = ino
    refine amid_ofIo_bind ?_
    unfold M.amid
    rw [M.wp_onFail]
    simp only
    refine M.wp_mono (m := copyIn cfg.copyBuf ino >>= fun data => pure (p, data))
      (Q := fun x r' g' => r' = { r1 with input := rest, pending := [] } ∧ x = .ok (p, data) ∧
        g'.own.tmp = some (p, ino, some data) ∧ V.Span g.now g'.now [] ∧
        ∃ n, g.now ≤ n ∧ n < g'.now ∧ V.ρ.By V.i n) ?_ ?_
    · refine amid_bind (amid_copyIn cfg.copyBuf hdel rfl) ?_
      rintro x r' g2 ⟨rfl, rfl, h3, h4⟩
      have h5 := h3.le
      simp only at h5
      exact ⟨rfl, rfl, h4, hsp0.trans0 h3, n, hle, by omega, hby⟩
    · rintro x r' g2 ⟨h1, rfl, h2, h3⟩
      exact ⟨h1, _, _, rfl, h2, h3⟩
  rintro x r' g1 ⟨rfl, p, ino, rfl, htmp, hsp1, n1, hn1, hn1', hby⟩
  simp only [Res.elim_ok]
  have hchk := checkUpload_eq (cfg := cfg) hsha oid m data
  generalize hpe : putError cfg oid m data = pe at hchk
  cases pe with
  | some msg =>
    obtain ⟨e, he, hst⟩ := hchk
    rw [he]
    refine amid_bind (P := fun x r' g' => x = .err e ∧ r' = { r1 with input := rest, pending := [] } ∧ V.Span g1.now g'.now []) ?_ ?_
    · unfold M.amid
      rw [M.wp_onFail, M.wp_throw]
      simp only [Res.elim_err]
      refine M.wp_mono (amid_dropFile htmp) ?_
      rintro x r' g2 ⟨_, e1, e2⟩
      exact ⟨trivial, e1, e2⟩
    · rintro x r' g2 ⟨rfl, rfl, e2⟩
      simp only [Res.elim_err]
      have hsp := hsp1.trans0 e2
      refine ⟨rfl, _, badRequest msg, rfl, hsp.le, hsp.out,
        ⟨⟨n1, hn1, Nat.lt_of_lt_of_le hn1' e2.le, hby, ?_, ?_, hsp.leaves.weaken⟩, hsp.locks⟩, .of hst (by simp [badRequest])⟩
      · simp only [answer, hpe]
      · intro o hoo
        simp only [answer, hpe, storeAt]
        exact hsp1.leaves n1 hn1 hn1' (by simp) hby o hoo
  | none =>
    obtain ⟨he, hhash⟩ := hchk
    rw [he]
    refine amid_bind (P := fun x r' g' => x = .ok () ∧ r' = { r1 with input := rest, pending := [] } ∧ g' = g1) ?_ ?_
    · unfold M.amid
      rw [M.wp_onFail]
      simp only [M.wp_pure, Res.elim_ok, true_and]
    rintro x r' g' ⟨rfl, rfl, rfl⟩
    simp only [Res.elim_ok]
    unfold finishUpload
    refine amid_bind (P := fun x r' g2 => x = .ok () ∧ r' = { r1 with input := rest, pending := [] } ∧
      g'.now ≤ g2.now ∧ V.ρ.out V.i g'.now g2.now = [] ∧ ∃ n, g'.now ≤ n ∧ n < g2.now ∧ V.ρ.By V.i n ∧
        V.ρ.Leaves cfg.root V.i g'.now g2.now (some n) ∧ V.ρ.LeavesLocks cfg.root V.i g'.now g2.now none ∧
        (∀ o, IsOid o → V.ρ.objectsAt cfg.root (n + 1) o =
          if o = oid then some data else V.ρ.objectsAt cfg.root n o)) ?_ ?_
    · refine amid_bind (P := fun x r' g2 => x = .ok () ∧ r' = { r1 with input := rest, pending := [] } ∧
        g'.now ≤ g2.now ∧ V.ρ.out V.i g'.now g2.now = [] ∧ ∃ n, g'.now ≤ n ∧ n < g2.now ∧ V.ρ.By V.i n ∧
          V.ρ.Leaves cfg.root V.i g'.now g2.now (some n) ∧ V.ρ.LeavesLocks cfg.root V.i g'.now g2.now none ∧
          (∀ o, IsOid o → V.ρ.objectsAt cfg.root (n + 1) o =
            if o = oid then some data else V.ρ.objectsAt cfg.root n o)) ?_ ?_
      · unfold M.amid
        rw [M.wp_onFail, objDir_eq]
        refine M.wp_mono (Q := fun x r' g2 => x = .ok () ∧ r' = { r1 with input := rest, pending := [] } ∧
          g'.now ≤ g2.now ∧ V.ρ.out V.i g'.now g2.now = [] ∧ ∃ n, g'.now ≤ n ∧ n < g2.now ∧ V.ρ.By V.i n ∧
            V.ρ.Leaves cfg.root V.i g'.now g2.now (some n) ∧ V.ρ.LeavesLocks cfg.root V.i g'.now g2.now none ∧
            (∀ o, IsOid o → V.ρ.objectsAt cfg.root (n + 1) o =
              if o = oid then some data else V.ρ.objectsAt cfg.root n o)) ?_ ?_
        · refine amid_op_bind fun x n2 h2 => ?_
          obtain ⟨c, hc, hsem⟩ := h2.sem rfl
          rw [sem_mkdirAll hc ((V.env.tidy n2).noFile _ (.inr ⟨oid, ho, rfl⟩))] at hsem
          have hx := congrArg Prod.snd hsem
          subst hx
          have hdir : objectDir cfg.root oid ∈ (V.fs (n2 + 1)).dirs := by
            have := isDir_mkdirAll (fs := V.fs n2) (p := objectDir cfg.root oid) (by simp [objectDir])
            have hf : (V.fs n2).addDirs ((pathPrefixes (objectDir cfg.root oid)).filter (fun q => !(V.fs n2).isDir q)) =
                V.fs (n2 + 1) := congrArg Prod.fst hsem
            rw [hf, isDir_iff] at this
            exact this.resolve_left (by simp [objectDir])
          refine amid_ofIo_bind ?_
          refine amid_op_bind fun x n3 h3 => ?_
          obtain ⟨rfl, hob⟩ := call_rename (g := ⟨n2 + 1, _⟩) ho htmp hdir h3
          have hs2 := h2.span rfl
          have hle := h3.unt.le
          have hle2 := hs2.le
          simp only at hle hle2
          refine ⟨rfl, rfl, ?_, ?_, n3, ?_, Nat.lt_succ_self _, h3.made.by, ?_, ?_, hob⟩
          · show g'.now ≤ n3 + 1; omega
          · show V.ρ.out V.i g'.now (n3 + 1) = []
            rw [out_append _ _ hle2 (Nat.le_succ_of_le hle), hs2.out]
            exact h3.printed
          · omega
          · exact hs2.leaves.weaken.trans h3.leaves
          · exact hs2.locks.trans (h3.leavesLocks fun id _ _ => (h3.mild rfl id).2)
        · rintro x r' g2 ⟨rfl, h⟩
          exact ⟨rfl, h⟩
      · rintro x r' g2 ⟨rfl, rfl, e1, e2, n, e3, e4, e5, e6, e8, e7⟩
        simp only [Res.elim_ok]
        have hk : ((V.fs g2.now).get (objPath cfg.root oid)).isSome := by
          refine V.env.kept (a := n + 1) e4 ?_
          have := e7 oid ho
          rw [if_pos rfl, Execution.objectsAt, objectFile_eq, FS.content] at this
          revert this
          cases (V.ρ.st (n + 1)).fs.get (objPath cfg.root oid) <;> simp
        refine amid_mono (amid_fixPermissions hk) ?_
        rintro x r' g3 ⟨f1, f2, f3⟩
        refine ⟨f1, f2, Nat.le_trans e1 f3.le, ?_, n, e3, Nat.lt_of_lt_of_le e4 f3.le, e5,
          e6.trans f3.leaves.weaken, e8.trans f3.locks, e7⟩
        rw [out_append _ _ e1 f3.le, e2, f3.out]; rfl
    · rintro x r' g3 ⟨rfl, rfl, e1, e2, n, e3, e4, e5, e6, e8, e7⟩
      simp only [Res.elim_ok]
      refine ⟨rfl, Status.success, ⟨200, [], .none⟩, rfl, Nat.le_trans hsp1.le e1, ?_,
        ⟨⟨n, Nat.le_trans hsp1.le e3, e4, e5, ?_, ?_, hsp1.leaves.weaken.trans e6⟩, hsp1.locks.trans e8⟩, ⟨rfl, c200, rfl, by simp⟩, rfl, rfl⟩
      · rw [out_append _ _ hsp1.le e1, hsp1.out, e2]; rfl
      · simp only [answer, hpe]
      · intro o hoo
        simp only [answer, hpe, storeAt]
        exact e7 o hoo

theorem amid_put {kv : List (Bytes × Bytes)} {u v rest oid sz : Bytes} {m : Nat} {ds : List Bytes} {r : Rdr}
    {g : Gh} (hsha : ∀ b, (cfg.sha b).length = 32) (ho : IsOid oid) (ha : ArgsOk kv)
    (hs : lookup kv b!"size" = some sz) (hn : Num sz m) (hds : ∀ d ∈ ds, d.length ≤ 65516)
    (hF : Frames (argPackets kv ++ [.delim]) u) (hF' : Frames (ds.map .data ++ [.flush]) v)
    (hi : r.input = u ++ (v ++ rest)) (hpend : r.pending = []) (hd : Ready cfg (V.fs g.now)) :
    (putObject cfg oid).amid V r g (V.Handled mode (.put oid m ds.flatten) { r with input := rest } g.now) := by
  have hdel := delivers_frames (r := { r with input := v ++ rest }) (.inl rfl) hds hF' rfl
  have hnone : ({ r with input := v ++ rest } : Rdr).pending ++ ds.flatten = ds.flatten := by
    show r.pending ++ _ = _
    rw [hpend]; rfl
  rw [hnone] at hdel
  have := amid_put_from (V := V) (mode := mode) (g := g) hsha ho ha hs hn (readToDelim_args hF hi) hdel hd
  rw [← hpend] at this
  exact this

end Verif
