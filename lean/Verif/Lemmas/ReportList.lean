import Verif.Lemmas.ReportLock
import Verif.Lemmas.Utf8
/-! What listings answer, whatever the OS says. -/
namespace Verif
open Spec

variable {cfg : Cfg} {mode : Mode} {lax : Bool}

theorem told_listPath {path : Bytes} {cursor : Option Bytes} {limit : Option Nat} {r : Rdr} {s : List Event} :
    (listLocksForPath cfg path cursor (mode = .upload)).told r s (fun x _ s =>
      Honest lax cfg mode (.listLocks (some path) cursor limit) x s) := by
  unfold listLocksForPath
  refine told_bind told_lockFromPath ?_ ?_ ?_
  · intro a r1 s1 h
    cases h with
    | missing h => exact .inr ⟨_, _, rfl, says_failure c404 (by simp), .notListed (.inl h)⟩
    | @lock l h1 h2 =>
      simp only [lockId_eq, h1]
      by_cases hc : ∃ c, cursor = some c ∧ lockName cfg.sha path < c
      · obtain ⟨c, rfl, hlt⟩ := hc
        simp only [(bytesLt_iff _ _).mpr hlt, if_true]
        exact .inr ⟨_, _, rfl, says_failure c404 (by simp), .notListed (.inr ⟨_, c, h1, h2, rfl, hlt⟩)⟩
      · rw [if_neg (by
          split
          · rw [bytesLt_iff]
            exact fun hlt => hc ⟨_, rfl, hlt⟩
          · simp)]
        rcases lockSpec_cases (cfg := cfg) (mode := mode) l with ha | ha
        · rw [ha]; exact honest_panic
        · rw [ha]
          exact .inr ⟨_, _, rfl, says_lines (st := Status.newSuccess _) c200 (by simp [Status.newSuccess]) rfl (shownLines_ne _),
            .listed h1 h2 fun c hcc hlt => hc ⟨c, hcc, hlt⟩⟩
  · intro e r1 s1 h
    cases h with
    | corrupt h1 h2 h3 => exact .inr ⟨_, _, rfl, says_client h3, .corruptPath h1 h2⟩
    | failed => exact honest_io _ _
  · intro r1 s1 h
    cases h

theorem oid_kept {n id : Bytes} (h : IsOid n) (hl : Lossy n id) : id = n := by
  rw [lossy_iff.mp hl, oid_lossy h]

theorem told_collectLocks (cursor : Option Bytes) : ∀ (skipping : Bool) (k : Nat) (names : List Bytes) (r : Rdr) (s : List Event),
    (collectLocks cfg cursor skipping k names).told r s (fun x _ s' => (∃ t, s' = s ++ t) ∧ ∃ ls, x = .ok ls ∧
      ∀ lax, Excuse lax s' → NamesSaid lax cfg s' cursor k names (ls.map LockInfo.shown))
  | _, 0, _, r, s => by
    rw [collectLocks]
    exact ⟨⟨[], by simp⟩, [], rfl, fun _ _ => .full⟩
  | _, _ + 1, [], r, s => by
    rw [collectLocks]
    exact ⟨⟨[], by simp⟩, [], rfl, fun _ _ => .nil⟩
  | skipping, k + 1, n :: ns, r, s => by
    have hid : Lossy n (utf8Lossy n) := lossy_iff.mpr rfl
    rw [collectLocks]
    refine told_bind (P := fun x _ s' => (∃ t, s' = s ++ t) ∧ ∃ y, Seen cfg s' (utf8Lossy n) y ∧
      x = match y with | .ok a => .ok (.ok a) | .err e => .ok (.error e) | .panic => .panic) ?_ ?_ ?_ ?_
    · unfold M.told
      rw [M.wp_attempt]
      refine M.wp_mono told_lockFromId ?_
      rintro (a | e | _) r1 s1 ⟨h1, h2⟩ <;> exact ⟨h1, _, h2, rfl⟩
    · rintro a r1 s1 ⟨⟨t1, rfl⟩, y, hy, hx⟩
      have skip : (∀ lax s', Excuse lax s' → (∃ t, s' = s ++ t1 ++ t) → ∀ ls, NamesSaid lax cfg s' cursor (k + 1) ns ls →
            NamesSaid lax cfg s' cursor (k + 1) (n :: ns) ls) → ∀ b,
          (collectLocks cfg cursor b (k + 1) ns).told r1 (s ++ t1) (fun x _ s' => (∃ t, s' = s ++ t) ∧ ∃ ls, x = .ok ls ∧
            ∀ lax, Excuse lax s' → NamesSaid lax cfg s' cursor (k + 1) (n :: ns) (ls.map LockInfo.shown)) := by
        intro hk b
        refine told_mono (told_collectLocks cursor b (k + 1) ns r1 _) ?_
        rintro x r2 s2 ⟨⟨t2, rfl⟩, ls, rfl, h⟩
        exact ⟨⟨t1 ++ t2, by simp⟩, ls, rfl, fun lax hl => hk lax _ hl ⟨t2, rfl⟩ _ (h lax hl)⟩
      cases hy with
      | missing h =>
        cases hx
        refine skip ?_ _
        rintro lax s' hl ⟨t, rfl⟩ ls hn
        exact .gone h.add hid hn
      | @lock l h =>
        cases hx
        simp only [lockId_eq]
        have keep : (collectLocks cfg cursor false k ns >>= fun ls => pure (l :: ls)).told r1 (s ++ t1)
            (fun x _ s' => (∃ t, s' = s ++ t) ∧ ∃ ls, x = .ok ls ∧
            ∀ lax, Excuse lax s' → NamesSaid lax cfg s' cursor (k + 1) (n :: ns) (ls.map LockInfo.shown)) := by
          refine told_bind (told_collectLocks cursor false k ns r1 _) ?_ ?_ ?_
          · rintro ls r2 s2 ⟨⟨t2, rfl⟩, ls, e, hls⟩
            cases e
            exact ⟨⟨t1 ++ t2, by simp⟩, _, rfl, fun lax hl => .lock h.add hid (hls lax hl)⟩
          · rintro e r2 s2 ⟨_, _, h, _⟩; cases h
          · rintro r2 s2 ⟨_, _, h, _⟩; cases h
        cases cursor with
        | none =>
          simp only [Bool.and_false, Bool.false_eq_true, if_false]
          exact keep
        | some c =>
          simp only
          split
          · rename_i hc
            simp only [Bool.and_eq_true] at hc
            refine skip ?_ _
            rintro lax s' hl ⟨t, rfl⟩ ls hn
            exact .before h.add hid rfl ((bytesLt_iff _ _).mp hc.2) hn
          · exact keep
      | corrupt h1 h2 =>
        cases hx
        refine skip ?_ _
        rintro lax s' hl ⟨t, rfl⟩ ls hn
        exact .noLock h1.add hid h2 hn
      | failed h =>
        cases hx
        refine skip ?_ _
        rintro lax s' hl ⟨t, rfl⟩ ls hn
        rcases hl with rfl | hl
        · refine .failed rfl hid ?_ hn
          rcases h with ⟨e, _, h⟩ | ⟨k, cs, e, h1, h2⟩
          · exact .inl ⟨e, List.mem_append_left _ h⟩
          · exact .inr ⟨k, cs, e, List.mem_append_left _ h1, List.mem_append_left _ h2⟩
        · exfalso
          rcases h with ⟨e, hk, h⟩ | ⟨k, cs, e, h1, h2⟩
          · exact hk (hl _ (List.mem_append_left _ h) e rfl)
          · have := hl _ (List.mem_append_left _ h2)
            cases this
    · rintro e r1 s1 ⟨_, y, hy, hx⟩
      cases hy <;> cases hx
    · rintro r1 s1 ⟨_, y, hy, hx⟩
      cases hy <;> cases hx

theorem insertName_perm (n : Bytes) : ∀ ns : List Bytes, (insertName n ns).Perm (n :: ns)
  | [] => .refl _
  | m :: ms => by
    rw [insertName]
    split
    · exact ((insertName_perm n ms).cons m).trans (.swap ..)
    · exact .refl _

theorem sortNames_perm : ∀ ns : List Bytes, (sortNames ns).Perm ns
  | [] => .refl _
  | n :: ns => (insertName_perm n _).trans ((sortNames_perm ns).cons n)

theorem insertName_ordered {n : Bytes} {ns : List Bytes} (hp : ns.Pairwise (fun a b => ¬ b < a)) :
    (insertName n ns).Pairwise (fun a b => ¬ b < a) := by
  induction ns with
  | nil => simp [insertName]
  | cons k ns ih =>
    rw [List.pairwise_cons] at hp
    rw [insertName]
    split
    · rename_i h
      rw [bytesLt_iff] at h
      rw [List.pairwise_cons]
      refine ⟨fun x hx => ?_, ih hp.2⟩
      rcases mem_insertName.mp hx with rfl | hx
      · exact List.lt_asymm h
      · exact hp.1 x hx
    · rename_i h
      rw [bytesLt_iff] at h
      rw [List.pairwise_cons]
      refine ⟨fun x hx => ?_, List.pairwise_cons.mpr hp⟩
      rcases List.mem_cons.mp hx with rfl | hx
      · exact h
      · exact fun hlt => hp.1 x hx (Std.lt_of_lt_of_le hlt (List.not_lt.mp h))

theorem sortNames_ordered : ∀ ns : List Bytes, (sortNames ns).Pairwise (fun a b => ¬ b < a)
  | [] => by simp [sortNames]
  | n :: ns => by
    rw [sortNames]
    exact insertName_ordered (sortNames_ordered ns)

theorem lockSpecs_cases : ∀ ls : List LockInfo, lockSpecs cfg (mode = .upload) ls = M.panic ∨
    lockSpecs cfg (mode = .upload) ls = pure ((ls.map LockInfo.shown).flatMap (shownLines cfg mode))
  | [] => .inr rfl
  | l :: ls => by
    rw [lockSpecs]
    rcases lockSpec_cases (cfg := cfg) (mode := mode) l with h | h
    · rw [h]; exact .inl rfl
    · rw [h]
      rcases lockSpecs_cases ls with h2 | h2
      · rw [h2]; exact .inl rfl
      · rw [h2]; exact .inr rfl

theorem told_listLocks {kv : List (Bytes × Bytes)} {u rest : Bytes} {path cursor : Option Bytes}
    {limit : Option Nat} {r : Rdr} {s : List Event} (ha : ArgsOk kv) (hlim : LimitArg kv limit)
    (hpa : lookup kv b!"path" = path) (hcur : lookup kv b!"cursor" = cursor)
    (hF : Frames (argPackets kv ++ [.flush]) u) (hi : r.input = u ++ rest) :
    (listLocks cfg (mode = .upload)).told r s (fun x _ s => ∀ lax, Excuse lax s →
      Honest lax cfg mode (.listLocks path cursor limit) x s) := by
  obtain ⟨m, hm, hget⟩ := C09_args_exact kv ha
  unfold listLocks
  refine told_readToFlushParse (readToFlush_args hF hi) ?_
  refine told_ofRes_bind hm ?_
  refine told_ofRes_bind (limit_parse hlim hget) ?_
  simp only [hget, hpa, hcur]
  cases path with
  | some path => exact told_mono (told_forall fun lax => told_listPath (lax := lax)) fun _ _ _ h lax _ => h lax
  | none =>
    simp only
    refine told_bind (P := fun x _ s => (∃ e, x = .err (Err.ofIo e)) ∨ ∃ names ls, x = .ok ls ∧
      (⟨.readDir (cfg.root ++ [b!"locks"]), .ok names⟩ : Event) ∈ s ∧
      ∀ lax, Excuse lax s → NamesSaid lax cfg s cursor (pageSize limit + 1) (sortNames names) (ls.map LockInfo.shown)) ?_ ?_ ?_ ?_
    · unfold iterLocks
      refine told_op_bind fun x => ?_
      refine told_ofIo_bind ?_ ?_
      · rintro names rfl
        refine told_mono (told_collectLocks cursor true _ _ _ _) ?_
        rintro x r1 s1 ⟨⟨t, rfl⟩, ls, rfl, h⟩
        exact .inr ⟨names, ls, rfl, by simp [locksDir], h⟩
      · rintro e rfl
        exact .inl ⟨e, rfl⟩
    · rintro ls r1 s1 (⟨e, h⟩ | ⟨names, ls, h, h1, h2⟩)
      · cases h
      cases h
      rcases lockSpecs_cases (cfg := cfg) (mode := mode) ls with hs | hs
      · rw [hs]
        exact fun _ _ => honest_panic
      · rw [hs]
        refine told_pure_bind ?_
        intro lax hl
        have hb := Backed.listing (mode := mode) (limit := limit) h1 (sortNames_perm names) (sortNames_ordered names) (h2 lax hl)
        rw [List.getElem?_map, Option.map_map] at hb
        refine .inr ⟨_, _, rfl, ?_, hb⟩
        have hargs : (Option.map ((fun l : Shown => b!"next-cursor=" ++ lockName cfg.sha l.path ++ b!"\n") ∘ LockInfo.shown)
            ls[pageSize limit]?).toList = match ls[pageSize limit]? with
              | some l => [b!"next-cursor=" ++ lockId cfg l.path ++ b!"\n"]
              | none => [] := by
          cases ls[pageSize limit]? with
          | none => rfl
          | some l => simp [lockId_eq, LockInfo.shown]
        rw [hargs]
        refine says_lines (st := Status.successWithData 200 _ _) c200 ?_ rfl ?_
        · simp only [Status.successWithData, Option.getD_some]
          split <;> simp
        · intro x hx
          simp only [List.mem_flatMap] at hx
          obtain ⟨l, _, hx⟩ := hx
          exact shownLines_ne l x hx
    · rintro e r1 s1 (⟨e', h⟩ | ⟨_, _, h, _⟩)
      · cases h; exact fun _ _ => honest_io _ _
      · cases h
    · rintro r1 s1 (⟨e', h⟩ | ⟨_, _, h, _⟩) <;> cases h

end Verif
