import Verif.Lemmas.ReportTurn
import Verif.Lemmas.Any
import Verif.Spec.Faulty
/-! What an upload does and where it stops reading, whatever bytes arrive and whatever the OS answers. -/
namespace Verif
open Spec

variable {cfg : Cfg} {mode : Mode} {r r1 r2 : Rdr}

/-! ### Reading goes forward -/

/-- Something has been read, and perhaps not handed on. -/
structure Rdr.Later (r r' : Rdr) : Prop where
  fin : r'.fin = r.fin
  checked : r'.checked = r.checked
  input : r'.input <:+ r.input
  pending : r'.pending <:+ r.pending ∨ r'.pending <:+: r.input

theorem Rdr.Later.refl (r : Rdr) : r.Later r := ⟨rfl, rfl, List.suffix_refl _, .inl (List.suffix_refl _)⟩

theorem Rdr.Later.trans {r r1 r2 : Rdr} (h : r.Later r1) (h' : r1.Later r2) : r.Later r2 := by
  refine ⟨h'.fin.trans h.fin, h'.checked.trans h.checked, h'.input.trans h.input, ?_⟩
  rcases h'.pending with k | k
  · rcases h.pending with k' | k'
    · exact .inl (k.trans k')
    · exact .inr (k.isInfix.trans k')
  · exact .inr (k.trans h.input.isInfix)

theorem readExact_later {n : Nat} {x} {r' : Rdr} (h : r.readExact n = (x, r')) :
    ∃ u, r' = { r with input := u } ∧ u <:+ r.input ∧ ∀ d, x = .ok d → d <:+: r.input := by
  unfold Rdr.readExact at h
  split at h
  · cases h
    refine ⟨_, rfl, List.drop_suffix _ _, ?_⟩
    rintro d ⟨⟩
    exact (List.take_prefix _ _).isInfix
  · cases h
    exact ⟨_, rfl, List.nil_suffix, by rintro d ⟨⟩⟩

theorem readOne_later {x} {r' : Rdr} (h : r.readOne = (x, r')) :
    ∃ u, r' = { r with input := u } ∧ u <:+ r.input ∧ ∀ d, x = .ok (.data d) → d <:+: r.input := by
  unfold Rdr.readOne at h
  cases he : r.readExact 4 with
  | mk y r1 =>
    obtain ⟨u, rfl, h1, -⟩ := readExact_later he
    rw [he] at h
    cases y with
    | error e => cases h; exact ⟨u, rfl, h1, by rintro d ⟨⟩⟩
    | ok hdr =>
      simp only at h
      split at h
      · cases h; exact ⟨u, rfl, h1, by rintro d ⟨⟩⟩
      · cases h; exact ⟨u, rfl, h1, by rintro d ⟨⟩⟩
      · rename_i size hsz
        by_cases c0 : size = 0
        · rw [if_pos c0] at h; cases h; exact ⟨u, rfl, h1, by rintro d ⟨⟩⟩
        rw [if_neg c0] at h
        by_cases c1 : size = 1
        · rw [if_pos c1] at h; cases h; exact ⟨u, rfl, h1, by rintro d ⟨⟩⟩
        rw [if_neg c1] at h
        by_cases c2 : size = 2 ∨ size = 3
        · rw [if_pos c2] at h; cases h; exact ⟨u, rfl, h1, by rintro d ⟨⟩⟩
        rw [if_neg c2] at h
        by_cases c3 : size > maxPacketLen + 4
        · rw [if_pos c3] at h; cases h; exact ⟨u, rfl, h1, by rintro d ⟨⟩⟩
        rw [if_neg c3] at h
        cases he2 : ({ r with input := u } : Rdr).readExact (size - 4) with
        | mk z r2 =>
          obtain ⟨u2, rfl, h2, h3⟩ := readExact_later he2
          rw [he2] at h
          cases z with
          | error e => cases h; exact ⟨u2, rfl, h2.trans h1, by rintro d ⟨⟩⟩
          | ok d =>
            cases h
            refine ⟨u2, rfl, h2.trans h1, ?_⟩
            rintro d' ⟨⟩
            exact (h3 d rfl).trans h1.isInfix

theorem readLoopF_later (n : Nat) : ∀ (f : Nat) {r r' : Rdr} {x : Res Bytes}, Rdr.readLoopF f n r = (x, r') → r.Later r'
  | 0, r, r', x, h => by cases h; exact .refl _
  | f + 1, r, r', x, h => by
    rw [Rdr.readLoopF] at h
    cases he : r.readOne with
    | mk y r1 =>
      obtain ⟨u, rfl, h1, h2⟩ := readOne_later he
      have hl : r.Later { r with input := u } := ⟨rfl, rfl, h1, .inl (List.suffix_refl _)⟩
      rw [he] at h
      rcases y with p | e | _
      · cases p with
        | flush => cases h; exact hl
        | delim => cases h; exact hl
        | data d =>
          simp only at h
          by_cases hd : d = []
          · simp only [hd, if_true, ite_self] at h
            exact hl.trans (readLoopF_later n f h)
          · simp only [hd, if_false] at h
            split at h
            · cases h; exact hl
            · cases h
              exact ⟨rfl, rfl, h1, .inr ((List.drop_suffix _ _).isInfix.trans (h2 d rfl))⟩
      · cases h; exact hl
      · cases h; exact hl

theorem read_later {n : Nat} {r' : Rdr} {x : Res Bytes} (h : r.read n = (x, r')) : r.Later r' := by
  unfold Rdr.read at h
  simp only at h
  split at h
  · cases h; exact ⟨rfl, rfl, List.suffix_refl _, .inl (List.drop_suffix _ _)⟩
  · exact readLoopF_later n _ h

/-! ### Receiving the data -/

/-- How reading to the end of the data ends. -/
def endOf (y : Res Bytes) (data : Bytes) : Res Bytes :=
  match y with
  | .ok _ => .ok data
  | y => y

/-- Copying data into the file `ino`: all that is read is written, or a write has failed. -/
def Copied (ino : Ino) (r r2 : Rdr) (y : Res Bytes) (data acc : Bytes) (x : Res Bytes) (r' : Rdr) (t : List Event) : Prop :=
  (∀ e ∈ t, ∃ d z, e = ⟨.write ino d, z⟩) ∧
  ((x = endOf y (acc ++ data) ∧ r' = r2 ∧ written ino t = data) ∨
   ((∃ e, x = .err (Err.ofIo e)) ∧ (∃ e ∈ t, ¬ e.CopyOk) ∧ r.Later r'))

theorem copied_copyInF (bufs : Nat → Nat) (ino : Ino) (r2 : Rdr) {y : Res Bytes} (hy : y = .ok [] ∨ ∃ e, y = .err e) :
    ∀ (k i f : Nat) (acc : Bytes) (outs : List Bytes) (r r' : Rdr) (s : List Event),
    reads (fun j => bufs (i + j) + 1) k r = some (outs, r') → (∀ o ∈ outs, o ≠ []) →
    r'.read (bufs (i + k) + 1) = (y, r2) → k < f →
    (copyInF bufs ino f i acc).told r s (fun x r3 s' => ∃ t, s' = s ++ t ∧ Copied ino r r2 y outs.flatten acc x r3 t)
  | _, _, 0, _, _, _, _, _, _, _, _, h => by omega
  | 0, i, f + 1, acc, outs, r, r', s, h, _, he, _ => by
    simp only [reads, Option.some.injEq, Prod.mk.injEq] at h
    obtain ⟨rfl, rfl⟩ := h
    rw [copyInF]
    rcases hy with rfl | ⟨e, rfl⟩
    · refine told_rdr_bind he ?_
      simp only [if_true]
      exact ⟨[], by simp, by simp, .inl ⟨by simp [endOf], rfl, rfl⟩⟩
    · have he : r.read (bufs i + 1) = (.err e, r2) := he
      unfold M.told
      rw [M.wp_bind, M.wp_rdr, he]
      exact ⟨[], by simp, by simp, .inl ⟨by simp [endOf], rfl, rfl⟩⟩
  | k + 1, i, f + 1, acc, outs, r, r', s, h, hne, he, hk => by
    rw [reads] at h
    split at h
    · rename_i d r1 hd
      simp only [Option.map_eq_some_iff, Prod.mk.injEq] at h
      obtain ⟨⟨outs', r1'⟩, h1, rfl, rfl⟩ := h
      rw [copyInF]
      refine told_rdr_bind hd ?_
      rw [if_neg (hne d (by simp))]
      refine told_op_bind fun x => ?_
      refine told_ofIo_bind ?_ ?_
      · rintro ⟨⟩ rfl
        have h1' : reads (fun j => bufs (i + 1 + j) + 1) k r1 = some (outs', r1') := by
          have : (fun j => bufs (i + 1 + j) + 1) = fun j => bufs (i + (j + 1)) + 1 := by
            funext j; rw [Nat.add_assoc, Nat.add_comm 1 j]
          rw [this]; exact h1
        refine told_mono (copied_copyInF bufs ino r2 hy k (i + 1) f (acc ++ d) outs' r1 r1' _ h1'
          (fun o ho => hne o (by simp [ho])) (by rw [Nat.add_assoc, Nat.add_comm 1 k]; exact he) (by omega)) ?_
        rintro x r3 s3 ⟨t, rfl, h3, h4⟩
        refine ⟨⟨.write ino d, .ok ()⟩ :: t, by simp, ?_, ?_⟩
        · intro e he
          rcases List.mem_cons.mp he with rfl | he
          · exact ⟨_, _, rfl⟩
          · exact h3 e he
        rcases h4 with ⟨rfl, rfl, h5⟩ | ⟨h4, ⟨e, h5, h6⟩, h7⟩
        · refine .inl ⟨by simp, rfl, ?_⟩
          rw [List.flatten_cons, ← h5]
          simp [written, wrote]
        · exact .inr ⟨h4, ⟨e, by simp [h5], h6⟩, (read_later hd).trans h7⟩
      · rintro e rfl
        refine ⟨_, rfl, ?_, .inr ⟨⟨e, rfl⟩, ⟨_, List.mem_singleton.mpr rfl, ?_⟩, read_later hd⟩⟩
        · intro e he
          simp only [List.mem_singleton] at he
          exact ⟨_, _, he⟩
        · simp [Event.CopyOk]
    · cases h

theorem copied_copyIn (bufs : Nat → Nat) (ino : Ino) {y : Res Bytes} (hy : y = .ok [] ∨ ∃ e, y = .err e) {data rest : Bytes}
    {s : List Event} (h : Delivers r data y rest) :
    (copyIn bufs ino).told r s (fun x r' s' => ∃ t, s' = s ++ t ∧
      Copied ino r { r with input := rest, pending := [] } y data [] x r' t) := by
  obtain ⟨k, outs, r', h1, h2, rfl, h4, h5⟩ := h (fun j => bufs j + 1) (fun _ => Nat.succ_pos _)
  exact copied_copyInF bufs ino _ hy k 0 _ [] outs r r' s (by simpa using h1) h2 (by simpa using h5) h4

/-- Where reading stops: at the end of the data, or somewhere in it if it could not be written. -/
def StopsAt (r r2 r' : Rdr) (t : List Event) : Prop := r' = r2 ∨ (∃ e ∈ t, ¬ e.CopyOk) ∧ r.Later r'

theorem StopsAt.grow {r r2 r' : Rdr} {s t : List Event} (h : StopsAt r r2 r' s) (hs : ∀ e ∈ s, e ∈ t) : StopsAt r r2 r' t :=
  h.imp id fun ⟨⟨e, h1, h2⟩, h3⟩ => ⟨⟨e, hs e h1, h2⟩, h3⟩

theorem told_still {α : Type} {m : M α} (h : m.Still) (r : Rdr) (s : List Event) :
    m.told r s (fun _ r' s' => r' = r ∧ s <+: s') := by
  have key : ∀ {β : Type} (p : Prog β) (s : List Event) (Q : β → Prop), p.wp (Logic.only fun _ => True) () (fun b _ => Q b) →
      p.wp Logic.hist s (fun b s' => Q b ∧ s <+: s') := by
    intro β p
    induction p with
    | ret a => intro s Q h; exact ⟨h, List.prefix_refl _⟩
    | call o k ih =>
      intro s Q h
      refine ⟨trivial, fun x _ => Prog.wp_mono (ih x (s ++ [⟨o, x⟩]) Q (h.2 x trivial)) ?_⟩
      rintro b s' ⟨h1, h2⟩
      exact ⟨h1, (List.prefix_append _ _).trans h2⟩
  exact key (m r) s (fun b => b.2 = r) (h (fun _ => True) r)

/-- The temporary file of an upload: `OnlyTemps`, of a part of a trace. -/
theorem onlyTemps_append {s t : List Event} (hs : OnlyTemps s) (ht : OnlyTemps t) : OnlyTemps (s ++ t) := by
  intro e he
  rcases List.mem_append.mp he with h | h
  · have := hs e h
    split at this <;> simp_all
    · obtain ⟨a, b, c, d, k⟩ := this; exact ⟨a, b, c, d, .inl k⟩
    · obtain ⟨a, b, c, d, k⟩ := this; exact ⟨a, b, c, d, .inl k⟩
  · have := ht e h
    split at this <;> simp_all
    · obtain ⟨a, b, c, d, k⟩ := this; exact ⟨a, b, c, d, .inr k⟩
    · obtain ⟨a, b, c, d, k⟩ := this; exact ⟨a, b, c, d, .inr k⟩

theorem told_startUpload {y : Res Bytes} (hy : y = .ok [] ∨ ∃ e, y = .err e) {data rest oid : Bytes} (h : Delivers r data y rest) :
    (startUpload cfg oid).told r [] (fun x r' s =>
      ((∃ d, y = .ok d ∧ ∃ p, x = .ok (p, data)) ∨ (∃ e, y = .err e ∧ x = .err e) ∨
        (∃ e ∈ s, ¬ e.CopyOk) ∧ ∃ e, x = .err (Err.ofIo e)) ∧
      StopsAt r { r with input := rest, pending := [] } r' s ∧ OnlyTemps s) := by
  unfold startUpload
  refine told_op_bind fun x => ?_
  rw [List.nil_append]
  refine told_ofIo_bind ?_ ?_
  · rintro ⟨p, ino⟩ rfl
    unfold M.told
    simp only []
    rw [M.wp_onFail, M.wp_bind]
    refine M.wp_mono (copied_copyIn cfg.copyBuf ino hy h) ?_
    rintro x r' s' ⟨t, rfl, h1, h2⟩
    have ht : OnlyTemps ([⟨.createTemp (incompleteDir cfg.root) oid cfg.uid, .ok (p, ino)⟩] ++ t) := by
      intro e he
      rcases List.mem_append.mp he with k | k
      · simp only [List.mem_singleton] at k
        subst k
        trivial
      · obtain ⟨d, z, rfl⟩ := h1 e k
        exact ⟨_, _, _, _, List.mem_append_left _ (List.mem_singleton.mpr rfl)⟩
    have drop : ∀ {e : Err}, ((∃ d, y = .ok d ∧ ∃ q : Path, (Res.err e : Res (Path × Bytes)) = .ok (q, data)) ∨ (∃ e', y = .err e' ∧ (Res.err e : Res (Path × Bytes)) = .err e') ∨
        (∃ e ∈ [⟨.createTemp (incompleteDir cfg.root) oid cfg.uid, .ok (p, ino)⟩] ++ t, ¬ e.CopyOk) ∧
          ∃ e', (Res.err e : Res (Path × Bytes)) = .err (Err.ofIo e')) →
        StopsAt r { r with input := rest, pending := [] } r' ([⟨.createTemp (incompleteDir cfg.root) oid cfg.uid, .ok (p, ino)⟩] ++ t) →
        (dropFile p).told r' ([⟨.createTemp (incompleteDir cfg.root) oid cfg.uid, .ok (p, ino)⟩] ++ t) (fun _ r' s =>
          ((∃ d, y = .ok d ∧ ∃ q : Path, (Res.err e : Res (Path × Bytes)) = .ok (q, data)) ∨ (∃ e', y = .err e' ∧ (Res.err e : Res (Path × Bytes)) = .err e') ∨
            (∃ e ∈ s, ¬ e.CopyOk) ∧ ∃ e', (Res.err e : Res (Path × Bytes)) = .err (Err.ofIo e')) ∧
          StopsAt r { r with input := rest, pending := [] } r' s ∧ OnlyTemps s) := by
      intro e hx hst
      unfold dropFile
      refine told_op_bind fun z => ?_
      refine ⟨?_, hst.grow fun e he => List.mem_append_left _ he, ?_⟩
      · rcases hx with hx | hx | ⟨⟨e, h5, h6⟩, hx⟩
        · exact .inl hx
        · exact .inr (.inl hx)
        · exact .inr (.inr ⟨⟨e, List.mem_append_left _ h5, h6⟩, hx⟩)
      · refine fun e he => ?_
        rcases List.mem_append.mp he with k | k
        · have := ht e k
          split at this
          · trivial
          · trivial
          · trivial
          · obtain ⟨a, b, c, d, k⟩ := this; exact ⟨a, b, c, d, List.mem_append_left _ k⟩
          · obtain ⟨a, b, c, d, k⟩ := this; exact ⟨a, b, c, d, List.mem_append_left _ k⟩
          · exact this.elim
        · simp only [List.mem_singleton] at k
          subst k
          exact ⟨_, _, _, _, List.mem_append_left _ (List.mem_append_left _ (List.mem_singleton.mpr rfl))⟩
    rcases h2 with ⟨rfl, rfl, h3⟩ | ⟨⟨e, rfl⟩, ⟨e', h4, h5⟩, h6⟩
    · rcases hy with rfl | ⟨e, rfl⟩
      · exact ⟨.inl ⟨_, rfl, p, rfl⟩, .inl rfl, ht⟩
      · exact drop (.inr (.inl ⟨e, rfl, rfl⟩)) (.inl rfl)
    · exact drop (.inr (.inr ⟨⟨e', List.mem_append_right _ h4, h5⟩, e, rfl⟩)) (.inr ⟨⟨e', List.mem_append_right _ h4, h5⟩, h6⟩)
  · rintro e rfl
    have hne : ¬ Event.CopyOk ⟨.createTemp (incompleteDir cfg.root) oid cfg.uid, .error e⟩ := by simp [Event.CopyOk]
    refine ⟨.inr (.inr ⟨⟨_, List.mem_singleton.mpr rfl, hne⟩, e, rfl⟩), .inr ⟨⟨_, List.mem_singleton.mpr rfl, hne⟩, .refl _⟩, ?_⟩
    intro e he
    simp only [List.mem_singleton] at he
    subst he
    trivial

/-- **An upload**: where it stops reading. -/
theorem told_put_stops {as : List Packet} {data rest oid : Bytes} {y : Res Bytes} (hy : y = .ok [] ∨ ∃ e, y = .err e)
    (ho : IsOid oid) (ha : AreSized as) (hargs : readToType .delim r = (.ok (as.map fun p => p.data?.getD []), r1))
    (h : Delivers r1 data y rest) :
    (putObject cfg oid).told r [] (fun x r' s =>
      StopsAt r1 { r1 with input := rest, pending := [] } r' s ∧
      (∀ e, y = .err e → OnlyTemps s ∧ (x = .err e ∨ (∃ e ∈ s, ¬ e.CopyOk) ∧ ∃ e, x = .err (Err.ofIo e)))) := by
  obtain ⟨kv, sz, n, hk, rfl, hs, h0, hn⟩ := ha
  obtain ⟨m, hm, hget⟩ := C09_args_exact kv hk
  rw [argPackets_data] at hargs
  have hoid : oidNew oid = pure oid := by simp [oidNew, (oidValid_iff oid).mpr ho]
  unfold putObject
  rw [hoid]
  refine told_pure_bind ?_
  refine told_rdr_bind hargs ?_
  refine told_ofRes_bind hm ?_
  refine told_ofRes_bind (a := n) (by unfold sizeFromArgs; rw [hget, hs]; exact (C10_integer_exact sz n).1.mpr ⟨by omega, hn⟩) ?_
  refine told_bind (told_startUpload hy h) ?_ ?_ ?_
  · rintro ⟨p, d⟩ r2 s2 ⟨hx, hst, _⟩
    have hy' : ∃ d, y = .ok d := by
      rcases hx with ⟨d, h, _⟩ | ⟨_, _, h⟩ | ⟨_, _, h⟩
      · exact ⟨d, h⟩
      · cases h
      · cases h
    obtain ⟨d', rfl⟩ := hy'
    refine told_mono (told_still (.bind (.onFail (still_checkUpload _ _ _ _) (still_dropFile _)) fun _ =>
      .bind (still_finishUpload _ _ _) fun _ => .pure _) r2 s2) ?_
    rintro x r3 s3 ⟨rfl, h3⟩
    exact ⟨hst.grow fun e he => h3.subset he, by rintro e ⟨⟩⟩
  · rintro e r2 s2 ⟨hx, hst, hot⟩
    refine ⟨hst, ?_⟩
    rintro e' rfl
    refine ⟨hot, ?_⟩
    rcases hx with ⟨_, h, _⟩ | ⟨_, h, h'⟩ | ⟨h, e'', h'⟩
    · cases h
    · cases h; cases h'; exact .inl rfl
    · cases h'; exact .inr ⟨h, _, rfl⟩
  · rintro r2 s2 ⟨hx, hst, hot⟩
    rcases hx with ⟨_, _, _, h⟩ | ⟨_, _, h⟩ | ⟨_, _, h⟩ <;> cases h

end Verif
