import Verif.Lemmas.Report
/-! What an upload answers, whatever the OS says. -/
namespace Verif
open Spec

variable {cfg : Cfg} {mode : Mode} {lax : Bool}

theorem told_mono {α : Type} {m : M α} {r : Rdr} {s : List Event} {P Q : Res α → Rdr → List Event → Prop}
    (h : m.told r s P) (k : ∀ x r s, P x r s → Q x r s) : m.told r s Q := M.wp_mono h k

theorem told_forall {α ι : Type} {m : M α} {r : Rdr} {s : List Event} {Q : ι → Res α → Rdr → List Event → Prop}
    (h : ∀ i, m.told r s (Q i)) : m.told r s (fun x r s => ∀ i, Q i x r s) := by
  unfold M.told M.wp at *
  generalize m r = p at h
  induction p generalizing s with
  | ret a => exact h
  | call o k ih => exact ⟨trivial, fun x _ => ih x fun i => (h i).2 x trivial⟩

theorem told_dropFile {p : Path} {r : Rdr} {s : List Event} :
    (dropFile p).told r s (fun x _ s' => x = .ok () ∧ ∃ y, s' = s ++ [⟨.unlink p, y⟩]) := by
  unfold dropFile
  exact told_op_bind fun y => ⟨rfl, y, rfl⟩

/-- No file was renamed. -/
def Still (t : List Event) : Prop := ∀ a b x, (⟨.rename a b, x⟩ : Event) ∉ t

theorem Still.append {s t : List Event} (h : Still s) (h' : Still t) : Still (s ++ t) := by
  intro a b x hm
  rcases List.mem_append.mp hm with hm | hm
  · exact h _ _ _ hm
  · exact h' _ _ _ hm

theorem still_unlink {p : Path} {y} : Still [⟨.unlink p, y⟩] := by
  intro a b x hm
  simp only [List.mem_singleton] at hm
  cases hm

theorem written_unlink {ino : Ino} {p : Path} {y} : written ino [⟨.unlink p, y⟩] = [] := rfl

theorem told_copyInF (bufs : Nat → Nat) (ino : Ino) (r2 : Rdr) :
    ∀ (k i f : Nat) (acc : Bytes) (outs : List Bytes) (r r' : Rdr) (s : List Event),
    reads (fun j => bufs (i + j) + 1) k r = some (outs, r') → (∀ o ∈ outs, o ≠ []) →
    r'.read (bufs (i + k) + 1) = (.ok [], r2) → k < f →
    (copyInF bufs ino f i acc).told r s (fun x _ s' => ∃ t, s' = s ++ t ∧ Still t ∧
      ((x = .ok (acc ++ outs.flatten) ∧ written ino t = outs.flatten) ∨ ∃ e, x = .err (Err.ofIo e)))
  | _, _, 0, _, _, _, _, _, _, _, _, h => by omega
  | 0, i, f + 1, acc, outs, r, r', s, h, _, he, _ => by
    simp only [reads, Option.some.injEq, Prod.mk.injEq] at h
    obtain ⟨rfl, rfl⟩ := h
    rw [copyInF]
    refine told_rdr_bind he ?_
    simp only [if_true]
    exact ⟨[], by simp, by simp [Still], .inl ⟨by simp, rfl⟩⟩
  | k + 1, i, f + 1, acc, outs, r, r', s, h, hne, he, hk => by
    rw [reads] at h
    split at h
    · rename_i d r1 hd
      simp only [Option.map_eq_some_iff, Prod.mk.injEq] at h
      obtain ⟨⟨outs', r1'⟩, h1, rfl, rfl⟩ := h
      rw [copyInF]
      refine told_rdr_bind hd ?_
      rw [if_neg (hne d (by simp))]
      refine told_op_bind fun x => ?_
      have hstill : Still [⟨.write ino d, x⟩] := by
        intro a b y hm
        simp only [List.mem_singleton] at hm
        cases hm
      refine told_ofIo_bind ?_ ?_
      · rintro ⟨⟩ rfl
        have h1' : reads (fun j => bufs (i + 1 + j) + 1) k r1 = some (outs', r1') := by
          have : (fun j => bufs (i + 1 + j) + 1) = fun j => bufs (i + (j + 1)) + 1 := by
            funext j; rw [Nat.add_assoc, Nat.add_comm 1 j]
          rw [this]; exact h1
        refine told_mono (told_copyInF bufs ino r2 k (i + 1) f (acc ++ d) outs' r1 r1' _ h1'
          (fun o ho => hne o (by simp [ho])) (by rw [Nat.add_assoc, Nat.add_comm 1 k]; exact he) (by omega)) ?_
        rintro x r3 s3 ⟨t, rfl, h3, h4⟩
        refine ⟨⟨.write ino d, .ok ()⟩ :: t, by simp, hstill.append h3, ?_⟩
        rcases h4 with ⟨rfl, h5⟩ | h4
        · refine .inl ⟨by simp, ?_⟩
          rw [List.flatten_cons, ← h5]
          simp [written, wrote]
        · exact .inr h4
      · rintro e rfl
        exact ⟨_, rfl, hstill, .inr ⟨e, rfl⟩⟩
    · cases h

theorem told_copyIn (bufs : Nat → Nat) (ino : Ino) {ds : List Bytes} {v rest : Bytes} {r : Rdr} {s : List Event}
    (hs : ∀ d ∈ ds, d.length ≤ 65516) (hF : Frames (ds.map .data ++ [.flush]) v)
    (hi : r.input = v ++ rest) (hp : r.pending = []) :
    (copyIn bufs ino).told r s (fun x _ s' => ∃ t, s' = s ++ t ∧ Still t ∧
      ((x = .ok ds.flatten ∧ written ino t = ds.flatten) ∨ ∃ e, x = .err (Err.ofIo e))) := by
  obtain ⟨k, outs, r', h1, h2, h3, _, h5⟩ := C03_stream_read ds hs .flush (.inl rfl) v hF rest r hi hp
    (fun j => bufs j + 1) (fun _ => Nat.succ_pos _)
  have hk : k < r.input.length + r.pending.length + 1 := by
    have a1 := reads_length _ _ _ _ _ h1
    have a2 := length_le_flatten outs h2
    have a3 := frames_data_length hF
    rw [hi, hp]
    rw [h3] at a2
    simp only [List.length_append, List.length_nil]
    omega
  have := told_copyInF bufs ino { r with input := rest, pending := [] } k 0 _ [] outs r r' s
    (by simpa using h1) h2 (by simpa using h5) hk
  rw [h3, List.nil_append] at this
  exact this

/-- What the checks of an upload say. -/
theorem checkUpload_says (hsha : ∀ b, (cfg.sha b).length = 32) (oid : Bytes) (n : Nat) (data : Bytes) :
    match putError cfg oid n data with
    | none => checkUpload cfg oid n data = pure ()
    | some m => ∃ e, checkUpload cfg oid n data = M.throw e ∧ Says (errorStatus e) (badRequest m) := by
  have h := checkUpload_eq hsha oid n data
  cases hp : putError cfg oid n data with
  | none => rw [hp] at h; exact h.1
  | some m =>
    rw [hp] at h
    obtain ⟨e, h1, h2⟩ := h
    exact ⟨e, h1, h2⟩

/-- An upload of which `data` arrives. -/
theorem told_put_from {kv : List (Bytes × Bytes)} {oid sz data : Bytes} {n : Nat} {r r1 : Rdr}
    (hsha : ∀ b, (cfg.sha b).length = 32) (ho : IsOid oid) (ha : ArgsOk kv)
    (hs : lookup kv b!"size" = some sz) (hn : Num sz n)
    (hargs : readToType .delim r = (.ok (kv.map fun e => argLine e.1 e.2), r1))
    (hcopy : ∀ ino s, (copyIn cfg.copyBuf ino).told r1 s (fun x _ s' => ∃ t, s' = s ++ t ∧ Still t ∧
      ((x = .ok data ∧ written ino t = data) ∨ ∃ e, x = .err (Err.ofIo e)))) :
    (putObject cfg oid).told r [] (fun x _ s => Honest lax cfg mode (.put oid n data) x s) := by
  obtain ⟨m, hm, hget⟩ := C09_args_exact kv ha
  have hoid : oidNew oid = pure oid := by simp [oidNew, (oidValid_iff oid).mpr ho]
  unfold putObject
  rw [hoid]
  refine told_pure_bind ?_
  refine told_rdr_bind hargs ?_
  refine told_ofRes_bind hm ?_
  refine told_ofRes_bind (a := n) (by unfold sizeFromArgs; rw [hget, hs]; exact num_parse hn) ?_
  refine told_bind (P := fun x _ s => (∃ e, x = .err (Err.ofIo e)) ∨ ∃ p ino, x = .ok (p, data) ∧
    (⟨.createTemp (cfg.root ++ [b!"incomplete"]) oid cfg.uid, .ok (p, ino)⟩ : Event) ∈ s ∧ written ino s = data ∧
    Still s) ?_ ?_ ?_ ?_
  · unfold startUpload
    refine told_op_bind fun x => ?_
    refine told_ofIo_bind ?_ ?_
    · rintro ⟨p, ino⟩ rfl
      unfold M.told
      simp only []
      rw [M.wp_onFail, M.wp_bind]
      refine M.wp_mono (hcopy ino _) ?_
      rintro x r' s' ⟨t, rfl, h1, h2⟩
      rcases h2 with ⟨rfl, h2⟩ | ⟨e, rfl⟩
      · refine .inr ⟨p, ino, rfl, by simp [incompleteDir], ?_, ?_⟩
        · rw [written_append, h2]
          simp [written, wrote]
        · refine Still.append ?_ h1
          intro a b y hm
          simp only [List.nil_append, List.mem_singleton] at hm
          cases hm
      · simp only [Res.elim_err]
        exact told_mono told_dropFile fun _ _ _ _ => .inl ⟨e, rfl⟩
    · rintro e rfl
      exact .inl ⟨e, rfl⟩
  · rintro ⟨p, data⟩ r1 s1 (⟨e, he⟩ | ⟨p', ino, he, h1, h2, h3⟩)
    · cases he
    cases he
    simp only []
    have hchk := checkUpload_says (cfg := cfg) hsha oid n data
    cases hpe : putError cfg oid n data with
    | some msg =>
      rw [hpe] at hchk
      obtain ⟨e, he, hsay⟩ := hchk
      rw [he]
      refine told_bind (P := fun x _ s => x = .err e ∧ Still s) ?_ ?_ ?_ ?_
      · unfold M.told
        rw [M.wp_onFail, M.wp_throw]
        simp only [Res.elim_err]
        refine told_mono told_dropFile ?_
        rintro x r2 s2 ⟨_, y, rfl⟩
        exact ⟨trivial, h3.append still_unlink⟩
      · rintro a r2 s2 ⟨h, _⟩; cases h
      · rintro e' r2 s2 ⟨h, hst⟩
        cases h
        exact .inr ⟨_, _, rfl, hsay, .refused hpe fun src => hst _ _ _⟩
      · rintro r2 s2 ⟨h, _⟩; cases h
    | none =>
      rw [hpe] at hchk
      rw [hchk]
      refine told_bind (P := fun x _ s => x = .ok () ∧ s = s1) ?_ ?_ ?_ ?_
      · unfold M.told
        rw [M.wp_onFail]
        exact ⟨rfl, rfl⟩
      · rintro ⟨⟩ r2 s2 ⟨-, rfl⟩
        refine told_bind (P := fun x _ s => (x = .ok () ∧ Honest lax cfg mode (.put oid n data) (.ok Status.success) s) ∨
          ∃ e, x = .err e ∧ clientError e.kind = false) ?_ ?_ ?_ ?_
        · unfold finishUpload
          refine told_bind (P := fun x _ s => (x = .ok () ∧ ∃ t, s = s2 ++ t ∧
              (⟨.rename p (objPath cfg.root oid), .ok ()⟩ : Event) ∈ t ∧ written ino t = []) ∨
            ∃ e, x = .err e ∧ clientError e.kind = false) ?_ ?_ ?_ ?_
          · unfold M.told
            rw [M.wp_onFail]
            refine told_op_bind fun x => ?_
            refine told_ofIo_bind ?_ ?_
            · rintro ⟨⟩ rfl
              refine told_op_bind fun x => ?_
              cases x with
              | ok a =>
                exact .inl ⟨rfl, [⟨.mkdirAll (objPath cfg.root oid).dropLast, .ok ()⟩,
                  ⟨.rename p (objPath cfg.root oid), .ok ()⟩], by simp, by simp, by simp [written, wrote]⟩
              | error e =>
                simp only []
                rw [M.told, M.wp_throw]
                simp only [Res.elim_err]
                exact told_mono told_dropFile fun _ _ _ _ => .inr ⟨_, rfl, rfl⟩
            · rintro e rfl
              simp only [Res.elim_err]
              exact told_mono told_dropFile fun _ _ _ _ => .inr ⟨_, rfl, rfl⟩
          · rintro ⟨⟩ r3 s3 (⟨-, t, rfl, h4, h5⟩ | ⟨e, he, _⟩)
            · unfold fixPermissions
              refine told_op_bind fun x => ?_
              refine told_ofIo_bind ?_ ?_
              · rintro st rfl
                refine told_op_bind fun y => ?_
                unfold M.told
                rw [M.wp_ofIo]
                cases y with
                | error e => exact .inr ⟨_, rfl, rfl⟩
                | ok a =>
                  refine .inl ⟨rfl, .inr ⟨_, _, rfl, says_success, .stored (src := p) (ino := ino) hpe ?_ ?_ ?_⟩⟩
                  · simp [h1]
                  · rw [written_append, written_append, written_append, h2, h5]
                    simp [written, wrote]
                  · rw [objectFile_eq]; simp [h4]
              · rintro e rfl
                exact .inr ⟨_, rfl, rfl⟩
            · cases he
          · rintro e r3 s3 (⟨h, _⟩ | ⟨e', h, hk⟩)
            · cases h
            · cases h; exact .inr ⟨_, rfl, hk⟩
          · rintro r3 s3 (⟨h, _⟩ | ⟨e', h, hk⟩) <;> cases h
        · rintro ⟨⟩ r3 s3 (⟨_, h⟩ | ⟨e, h, _⟩)
          · exact h
          · cases h
        · rintro e r3 s3 (⟨h, _⟩ | ⟨e', h, hk⟩)
          · cases h
          · cases h
            exact .inr ⟨_, _, rfl, says_internal hk, .internal⟩
        · rintro r3 s3 (⟨h, _⟩ | ⟨e', h, hk⟩) <;> cases h
      · rintro e r2 s2 ⟨h, _⟩; cases h
      · rintro r2 s2 ⟨h, _⟩; cases h
  · rintro e r1 s1 (⟨e', h⟩ | ⟨_, _, h, _⟩)
    · cases h
      exact honest_io e' _
    · cases h
  · rintro r1 s1 (⟨e', h⟩ | ⟨_, _, h, _⟩) <;> cases h

theorem told_put {kv : List (Bytes × Bytes)} {u v rest oid sz : Bytes} {n : Nat} {ds : List Bytes} {r : Rdr}
    (hsha : ∀ b, (cfg.sha b).length = 32) (ho : IsOid oid) (ha : ArgsOk kv)
    (hs : lookup kv b!"size" = some sz) (hn : Num sz n) (hds : ∀ d ∈ ds, d.length ≤ 65516)
    (hF : Frames (argPackets kv ++ [.delim]) u) (hF' : Frames (ds.map .data ++ [.flush]) v)
    (hi : r.input = u ++ (v ++ rest)) (hpend : r.pending = []) :
    (putObject cfg oid).told r [] (fun x _ s => Honest lax cfg mode (.put oid n ds.flatten) x s) :=
  told_put_from hsha ho ha hs hn (readToDelim_args hF hi) fun ino s =>
    told_copyIn cfg.copyBuf ino (r := { r with input := v ++ rest }) hds hF' rfl hpend

end Verif
