import Verif.Lemmas.SysInv
import Verif.Props.Store
import Verif.Lemmas.Exec
import Verif.Lemmas.Names
/-!
Properties C12, C14, C22, C24, C25: any number of server processes on one repository, with any
input, any I/O errors, any interleaving, killed at any point.
-/
namespace Verif
open Spec

/-- **C24.** At every step of a reachable system, the file at an object path keeps its content,
or the step is a successful rename which gives it complete content with the right hash. (Being
killed is a step as well, and a step that changes nothing.) -/
theorem C24_atomic {root : Path} {sha : Bytes → Bytes} {s0 s s' : Sys} {tr : List (Nat × Event)}
    {l : Option (Nat × Event)} (h0 : Start root sha s0) (h : Steps root s0 tr s) (hl : Step root s l s')
    (oid : Bytes) :
    s'.fs.content (objectFile root oid) = s.fs.content (objectFile root oid) ∨
    ∃ i src c, l = some (i, ⟨.rename src (objectFile root oid), .ok ()⟩) ∧
      s'.fs.content (objectFile root oid) = some c ∧ hex (sha c) = oid := by
  obtain ⟨ow, hg, _⟩ := (Good.start h0).steps h
  obtain ⟨_, _, ho, _⟩ := hg.step hl
  rw [objectFile_eq]
  rcases ho oid with e | ⟨i, src, c, h1, h2, h3⟩
  · exact .inl e
  · exact .inr ⟨i, src, c, h1, h2, by rw [← hexEncode_eq_hex]; exact h3⟩

/-- **C12.** The content of every object file hashes to its name. -/
theorem C12_integrity {root : Path} {sha : Bytes → Bytes} {s0 s : Sys} {tr : List (Nat × Event)}
    (h0 : Start root sha s0) (h : Steps root s0 tr s)
    (hi : ∀ oid c, IsOid oid → s0.fs.content (objectFile root oid) = some c → hex (sha c) = oid) :
    ∀ oid c, IsOid oid → s.fs.content (objectFile root oid) = some c → hex (sha c) = oid := by
  intro oid c ho
  induction h generalizing c with
  | refl => exact hi oid c ho
  | tail hs hl ih =>
    intro hc
    rcases C24_atomic h0 hs hl oid with e | ⟨i, src, c', _, h2, h3⟩
    · exact ih c (by rw [← e]; exact hc)
    · rw [h2] at hc; cases hc; exact h3

/-- **C22.** Stored objects stay: at any later moment the object is there, and its content has the
same hash. -/
theorem C22_never_deleted {root : Path} {sha : Bytes → Bytes} {s0 s s' : Sys}
    {tr tr' : List (Nat × Event)} (h0 : Start root sha s0) (h : Steps root s0 tr s) (h' : Steps root s tr' s')
    (oid c : Bytes) (hc : s.fs.content (objectFile root oid) = some c) (hh : hex (sha c) = oid) :
    ∃ c', s'.fs.content (objectFile root oid) = some c' ∧ sha c' = sha c := by
  have trans : ∀ {t' : List (Nat × Event)} {u : Sys}, Steps root s t' u → Steps root s0 (tr ++ t') u := by
    intro t' u hu
    induction hu with
    | refl => simpa using h
    | tail _ hl ih => rw [← List.append_assoc]; exact ih.tail hl
  induction h' with
  | refl => exact ⟨c, hc, rfl⟩
  | tail hs hl ih =>
    obtain ⟨c', h1, h2⟩ := ih
    rcases C24_atomic h0 (trans hs) hl oid with e | ⟨i, src, c'', _, h3, h4⟩
    · exact ⟨c', e.trans h1, h2⟩
    · refine ⟨c'', h3, hexEncode_inj ?_⟩
      rw [hexEncode_eq_hex, hexEncode_eq_hex, h4, hh]

/-- **C14**, files: without a successful rename to an object path, its content stays the same. -/
theorem C14_only_rename {root : Path} {sha : Bytes → Bytes} {s0 s s' : Sys}
    {tr tr' : List (Nat × Event)} (h0 : Start root sha s0) (h : Steps root s0 tr s) (h' : Steps root s tr' s')
    (oid : Bytes) (hn : ∀ i src, (i, (⟨.rename src (objectFile root oid), .ok ()⟩ : Event)) ∉ tr') :
    s'.fs.content (objectFile root oid) = s.fs.content (objectFile root oid) := by
  have trans : ∀ {t' : List (Nat × Event)} {u : Sys}, Steps root s t' u → Steps root s0 (tr ++ t') u := by
    intro t' u hu
    induction hu with
    | refl => simpa using h
    | tail _ hl ih => rw [← List.append_assoc]; exact ih.tail hl
  induction h' with
  | refl => rfl
  | tail hs hl ih =>
    have ih' := ih (fun i src hm => hn i src (by simp [hm]))
    rcases C24_atomic h0 (trans hs) hl oid with e | ⟨i, src, c'', h2, _, _⟩
    · exact e.trans ih'
    · exact absurd (by simp [h2]) (hn i src)

/-- A file opened at an object path never changes afterwards, even if its name is given to another
file: the inode is not open for writing in any process, now or later. This justifies taking the
reads of a download as one call. -/
theorem object_handle_stable {root : Path} {sha : Bytes → Bytes} {s0 s s' : Sys}
    {tr tr' : List (Nat × Event)} (h0 : Start root sha s0) (h : Steps root s0 tr s) (h' : Steps root s tr' s')
    (oid : Bytes) (j : Ino) (hj : s.fs.get (objectFile root oid) = some j) :
    (s'.fs.inodes j).data = (s.fs.inodes j).data := by
  obtain ⟨ow, hg, _⟩ := (Good.start h0).steps h
  obtain ⟨ow', _, hs⟩ := hg.steps h'
  rw [objectFile_eq] at hj
  exact (hs j ⟨hg.1.bound _ _ hj, hg.1.home _ _ (near_of_prefix (objPath_below root oid)) hj, hg.1.objs _ _ hj⟩).2

/-! ### C25 -/

/-- The name of a lock file only disappears by an explicit removal. -/
theorem lock_step {root : Path} {sha : Bytes → Bytes} {s s' : Sys} {ow : Nat → Own}
    {l : Option (Nat × Event)} (hg : Good root sha s ow) (hl : Step root s l s') (id : Bytes) :
    ((s.fs.get (lockFile root id)).isSome → (s'.fs.get (lockFile root id)).isSome ∨
      ∃ i, l = some (i, ⟨.unlink (lockFile root id), .ok ()⟩)) ∧
    (∀ i src, l = some (i, ⟨.link src (lockFile root id), .ok ()⟩) →
      s.fs.get (lockFile root id) = none ∧ (s'.fs.get (lockFile root id)).isSome) := by
  have eL : lockFile root id = locksDir root ++ [id] := by simp [lockFile, locksDir]
  have nO : ∀ oid, lockFile root id ≠ objPath root oid := fun oid => by rw [eL]; exact locks_ne_obj _ _ _
  have nT : ∀ n, lockFile root id ≠ incompleteDir root ++ [n] := fun n => by
    rw [eL]; exact locks_ne_incomplete _ _ _
  obtain ⟨hi, hw⟩ := hg
  cases hl with
  | writeSome i ino b n k hp => exact ⟨fun h => .inl h, fun _ _ h => by cases h⟩
  | mkdirSome i p n e k hp => exact ⟨fun h => .inl h, fun _ _ h => by cases h⟩
  | kill i => exact ⟨fun h => .inl h, fun _ _ h => by cases h⟩
  | elsewhere fs' he =>
    refine ⟨fun h => .inl ?_, fun _ _ h => by cases h⟩
    rw [he.get (near_of_prefix ⟨_, (by simp [lockFile] : root ++ [b!"locks", id] = lockFile root id)⟩)]; exact h
  | call i o k c hp =>
    obtain ⟨cfg, rfl, rfl, hwi⟩ := hw i
    rw [hp] at hwi
    have hm : (ow i).may cfg o := hwi.1
    refine ⟨fun h => ?_, ?_⟩
    · simp only []
      cases o with
      | createTemp d pre uid =>
        simp only [sem]; split
        · exact .inl h
        · split
          · left; rw [FS.get_create]; split <;> first | rfl | exact h
          · exact .inl h
      | createNew p uid =>
        simp only [sem]; split
        · exact .inl h
        · split
          · exact .inl h
          · split
            · left; rw [FS.get_create]; split <;> first | rfl | exact h
            · exact .inl h
      | rename a b =>
        obtain ⟨ino, d, ht, hv, rfl⟩ := hm
        obtain ⟨hg, ⟨n, hn⟩, hd⟩ := hi.tmp i a ino _ ht
        simp only [sem, hg]
        split
        · exact .inl h
        · split
          · exact .inl h
          · split
            · exact .inl h
            · split
              · exact .inl h
              · left
                rw [FS.get_setName, if_neg (nO _), FS.get_delName, if_neg (by rw [hn]; exact nT n)]
                exact h
      | link a b =>
        simp only [sem]; split
        · exact .inl h
        · split
          · exact .inl h
          · split
            · exact .inl h
            · split
              · exact .inl h
              · left; rw [FS.get_setName]; split <;> first | rfl | exact h
      | unlink p =>
        by_cases hpl : p = lockFile cfg.root id
        · subst hpl
          cases hf : c.fault with
          | some e => left; simp only [sem, hf]; exact h
          | none => right; exact ⟨i, by simp [sem, hf, h]⟩
        · left
          simp only [sem]; split
          · exact h
          · split
            · rw [FS.get_delName, if_neg (fun e => hpl e.symm)]; exact h
            · split <;> exact h
      | write j b => left; simp only [sem]; split <;> exact h
      | mkdirAll p => left; simp only [sem]; (repeat' split) <;> exact h
      | chmod p m => left; simp only [sem]; (repeat' split) <;> exact h
      | stat p => left; simp only [sem]; (repeat' split) <;> exact h
      | openRead p => left; simp only [sem]; (repeat' split) <;> exact h
      | fstat p => left; simp only [sem]; (repeat' split) <;> exact h
      | readAll p => left; simp only [sem]; (repeat' split) <;> exact h
      | readDir p => left; simp only [sem]; (repeat' split) <;> exact h
      | now => exact .inl h
      | out b => left; simp only [sem]; (repeat' split) <;> exact h
      | flush => left; simp only [sem]; (repeat' split) <;> exact h
    · intro i' src he
      simp only [Option.some.injEq, Prod.mk.injEq] at he
      obtain ⟨rfl, he⟩ := he
      cases o <;> try (cases (congrArg Sigma.fst he); done)
      rename_i a b
      have h1 : Op.link a b = .link src (lockFile cfg.root id) := congrArg Sigma.fst he
      cases h1
      have h2 : (sem c s.fs (.link src (lockFile cfg.root id))).2 = .ok () := by
        simpa using he
      cases hf : c.fault with
      | some e => simp [sem, hf] at h2
      | none =>
        cases hgs : s.fs.get src with
        | none => simp [sem, hf, hgs] at h2
        | some ino =>
          simp only [sem, hf, hgs] at h2 ⊢
          by_cases hex : ((s.fs.get (lockFile cfg.root id)).isSome || s.fs.isDir (lockFile cfg.root id)) = true
          · rw [if_pos hex] at h2; cases h2
          · rw [if_neg hex] at h2 ⊢
            simp only [Bool.or_eq_true, not_or, Bool.not_eq_true, Option.isSome_eq_false_iff,
              Option.isNone_iff_eq_none] at hex
            by_cases hd : (!s.fs.isDir (lockFile cfg.root id).dropLast) = true
            · rw [if_pos hd] at h2; cases h2
            · rw [if_neg hd]
              exact ⟨hex.1, by simp⟩

/-- **C25.** Between two successful creations of the lock file of the same ID, by any two
processes, a removal of that lock file succeeded. -/
theorem C25_mutual_exclusion {root : Path} {sha : Bytes → Bytes} {s0 s : Sys}
    {tr a b c : List (Nat × Event)} {i i' : Nat} {src src' : Path} {id : Bytes}
    (h0 : Start root sha s0) (h : Steps root s0 tr s)
    (he : tr = a ++ (i, ⟨.link src (lockFile root id), .ok ()⟩) :: b ++
      (i', ⟨.link src' (lockFile root id), .ok ()⟩) :: c) :
    ∃ k, (k, (⟨.unlink (lockFile root id), .ok ()⟩ : Event)) ∈ b := by
  have key : (∀ a i src b, tr = a ++ (i, (⟨.link src (lockFile root id), .ok ()⟩ : Event)) :: b →
        (∀ k, (k, (⟨.unlink (lockFile root id), .ok ()⟩ : Event)) ∉ b) →
        (s.fs.get (lockFile root id)).isSome) ∧
      (∀ a i src b i' src' c, tr = a ++ (i, (⟨.link src (lockFile root id), .ok ()⟩ : Event)) ::
          (b ++ (i', ⟨.link src' (lockFile root id), .ok ()⟩) :: c) →
        ∃ k, (k, (⟨.unlink (lockFile root id), .ok ()⟩ : Event)) ∈ b) := by
    clear he
    induction h with
    | refl =>
      refine ⟨fun a i src b e => ?_, fun a i src b i' src' c e => ?_⟩ <;> simp at e
    | @tail tr s' l s'' hs hl ih =>
      obtain ⟨ih1, ih2⟩ := ih
      obtain ⟨ow, hg, _⟩ := (Good.start h0).steps hs
      obtain ⟨st1, st2⟩ := lock_step hg hl id
      cases l with
      | none =>
        simp only [Option.toList_none, List.append_nil]
        refine ⟨fun a i src b e hb => ?_, ih2⟩
        rcases st1 (ih1 a i src b e hb) with h | ⟨_, h⟩
        · exact h
        · cases h
      | some l =>
        simp only [Option.toList_some]
        constructor
        · intro a i src b e hb
          rcases List.eq_nil_or_concat b with rfl | ⟨b', l', rfl⟩
          · have e' : tr ++ [l] = a ++ [(i, (⟨.link src (lockFile root id), .ok ()⟩ : Event))] := e
            have := (List.append_inj' e' rfl).2
            simp only [List.cons.injEq, and_true] at this
            exact (st2 i src (by rw [this])).2
          · have e' : tr ++ [l] = (a ++ (i, (⟨.link src (lockFile root id), .ok ()⟩ : Event)) :: b') ++ [l'] := by
              rw [e]; simp
            obtain ⟨e1, e2⟩ := List.append_inj' e' rfl
            simp only [List.cons.injEq, and_true] at e2
            subst e2
            have := ih1 a i src b' e1 (fun k hk => hb k (by simp [hk]))
            rcases st1 this with h | ⟨k, h⟩
            · exact h
            · cases h
              exact absurd (by simp) (hb k)
        · intro a i src b i' src' c e
          rcases List.eq_nil_or_concat c with rfl | ⟨c', l', rfl⟩
          · have e' : tr ++ [l] = (a ++ (i, (⟨.link src (lockFile root id), .ok ()⟩ : Event)) :: b) ++
                [(i', ⟨.link src' (lockFile root id), .ok ()⟩)] := by rw [e]; simp
            obtain ⟨e1, e2⟩ := List.append_inj' e' rfl
            simp only [List.cons.injEq, and_true] at e2
            have hn := (st2 i' src' (by rw [e2])).1
            false_or_by_contra
            rename_i hno
            have := ih1 a i src b e1 (fun k hk => hno ⟨k, hk⟩)
            rw [hn] at this
            cases this
          · have e' : tr ++ [l] = (a ++ (i, (⟨.link src (lockFile root id), .ok ()⟩ : Event)) ::
                (b ++ (i', ⟨.link src' (lockFile root id), .ok ()⟩) :: c')) ++ [l'] := by rw [e]; simp
            exact ih2 _ _ _ _ _ _ _ (List.append_inj' e' rfl).1
  exact key.2 a i src b i' src' c (by rw [he]; simp)

/-- **C25**, replies: a `lock` request that ends with status 201 created the lock file itself: it
made a successful `link` to it. -/
theorem C25_reply (cfg : Cfg) (path : Bytes) (r r' : Rdr) (tr : List Event) (st : Status)
    (h : (lockLoop cfg path r).Finished tr (.ok st, r')) (hc : st.code = 201) :
    ∃ src, (⟨.link src (lockFile cfg.root (lockName cfg.sha path)), .ok ()⟩ : Event) ∈ tr := by
  let P : Event → Prop := fun e => ∃ src, e = ⟨.link src (lockPath cfg path), .ok ()⟩
  have any : ∀ {α : Type} (m : M α) r s, m.wp (Logic.seen P) r s (fun _ _ _ => True) :=
    fun m r s => seen_any P (m r) s
  have keep : ∀ {α : Type} (m : M α) r (s : Prop), s → m.wp (Logic.seen P) r s (fun _ _ s => s) :=
    fun m r s h => seen_keep P (m r) s h
  have hcreate : ∀ r s, (lockCreate cfg path).wp (Logic.seen P) r s (fun x _ s => ∀ l, x = .ok l → s) := by
    intro r s
    unfold lockCreate
    rw [M.wp_bind]
    refine M.wp_mono (any _ r s) ?_
    rintro (t | e | _) r s -
    · simp only [Res.elim_ok]
      rw [M.wp_bind, M.wp_after]
      have hin : (do
          lockWrite cfg (lockTemp cfg path) (lockRecord t path)
          lockPersist (lockTemp cfg path) (lockPath cfg path) : M Unit).wp (Logic.seen P) r s
          (fun x _ s => x = .ok () → s) := by
        rw [M.wp_bind]
        refine M.wp_mono (any _ r s) ?_
        rintro (u | e | _) r s -
        · simp only [Res.elim_ok]
          unfold lockPersist
          rw [M.wp_bind, M.wp_op]
          refine ⟨trivial, fun x _ => ?_⟩
          simp only [Res.elim_ok]
          cases x with
          | ok u => exact fun _ => .inr ⟨_, rfl⟩
          | error e =>
            simp only []
            split
            · intro h; cases h
            · intro h; cases h
        · intro h; cases h
        · intro h; cases h
      refine M.wp_mono hin ?_
      rintro (u | e | _) r s hs
      · refine M.wp_mono (keep _ r s (hs rfl)) ?_
        intro _ r s hs
        simp only [Res.elim_ok]
        refine M.wp_mono (keep _ r s hs) ?_
        exact fun _ _ _ h _ _ => h
      · refine M.wp_mono (any _ r s) ?_
        rintro _ _ _ _ l ⟨⟩
      · refine M.wp_mono (any _ r s) ?_
        rintro _ _ _ _ l ⟨⟩
    · rintro l ⟨⟩
    · rintro l ⟨⟩
  have hloop : (lockLoop cfg path).wp (Logic.seen P) r False
      (fun x _ s => ∀ st, x = .ok st → st.code = 201 → s) := by
    unfold lockLoop
    rw [M.wp_bind, M.wp_attempt]
    refine M.wp_mono (hcreate r False) ?_
    rintro (l | e | _) r s hs
    · simp only [Res.elim_ok]
      refine M.wp_mono (keep _ r s (hs l rfl)) ?_
      exact fun _ _ _ h _ _ _ => h
    · simp only [Res.elim_err, Res.elim_ok]
      split
      · rw [M.wp_bind]
        refine M.wp_mono (any _ r s) ?_
        rintro (x | e | _) r s -
        · simp only [Res.elim_ok]
          cases x with
          | none => rintro st ⟨⟩
          | some l =>
            simp only []
            rw [M.wp_bind]
            refine M.wp_mono (any _ r s) ?_
            rintro (x | e | _) r s -
            · rintro st ⟨⟩ (h : 409 = 201); exact absurd h (by decide)
            · rintro st ⟨⟩
            · rintro st ⟨⟩
        · rintro st ⟨⟩
        · rintro st ⟨⟩
      · rintro st ⟨⟩
    · rintro st ⟨⟩
  obtain ⟨e, he, src, rfl⟩ := seen_finished hloop h (fun s s' hss h st' h1 h2 => hss.mp (h st' h1 h2)) st rfl hc
  exact ⟨src, by rw [← lockPath_eq]; exact he⟩

/-! ### One process running alone: C14 and C53 in terms of the final file system -/

/-- Only the first process has something. -/
def alone (s : Own) : Nat → Own := updAt (fun _ => ⟨none, [], none⟩) 0 s

theorem alone_upd (s s' : Own) : updAt (alone s) 0 s' = alone s' := by
  funext k; unfold alone updAt; split <;> rfl

/-- What happens to the directory of temporary files: besides the one owned, it has the same files
as in `fs0`. -/
def TmpSame (root : Path) (fs0 fs : FS) (s : Own) : Prop :=
  ∀ n, if s.tmp.map (·.1) = some (incompleteDir root ++ [n]) then fs0.get (incompleteDir root ++ [n]) = none
    else fs.get (incompleteDir root ++ [n]) = fs0.get (incompleteDir root ++ [n])

/-- The event is not a failed removal. -/
def Event.RemovalWorks : Event → Prop
  | ⟨.unlink _, x⟩ => x = .ok ()
  | _ => True

theorem TmpSame.congr {root : Path} {fs0 fs fs' : FS} {s s' : Own} (h : TmpSame root fs0 fs s)
    (hg : ∀ n, fs'.get (incompleteDir root ++ [n]) = fs.get (incompleteDir root ++ [n]))
    (hs : s'.tmp.map (·.1) = s.tmp.map (·.1)) : TmpSame root fs0 fs' s' := by
  intro n
  have := h n
  rw [hs, hg]
  exact this

theorem TmpSame.step {cfg : Cfg} {fs0 fs : FS} {s : Own} (h : TmpSame cfg.root fs0 fs s)
    (hi : Inv0 cfg.root fs (alone s)) (c : Choice) (o : Op) (hm : s.may cfg o)
    (hr : Event.RemovalWorks ⟨o, (sem c fs o).2⟩) :
    TmpSame cfg.root fs0 (sem c fs o).1 (s.upd o (sem c fs o).2) := by
  have hs0 : alone s 0 = s := updAt_same _ _ _
  cases o with
  | createTemp d pre uid =>
    obtain ⟨rfl, hn⟩ := hm
    simp only [sem]
    split
    · exact h
    · split
      · obtain ⟨sfx, hf⟩ := fs.freshName_dir (incompleteDir cfg.root) (pre ++ c.rand)
        have hu := (fs.freshName_unused (incompleteDir cfg.root) (pre ++ c.rand)).1
        intro n
        have hn' := h n
        rw [if_neg (by simp [hn])] at hn'
        by_cases e : fs.freshName (incompleteDir cfg.root) (pre ++ c.rand) = incompleteDir cfg.root ++ [n]
        · rw [if_pos (by simp [Own.upd, Own.base, e]), ← hn', ← e]
          exact hu
        · rw [if_neg, FS.get_create, if_neg (fun e' => e e'.symm)]
          · exact hn'
          · simpa [Own.upd, Own.base] using e
      · exact h
  | createNew p uid =>
    obtain ⟨x, rfl⟩ := hm
    simp only [sem]
    split
    · exact h
    · split
      · exact h
      · split
        · refine h.congr (fun n => ?_) rfl
          rw [FS.get_create, if_neg]
          exact (locks_ne_incomplete _ _ _).symm
        · exact h
  | write i b =>
    have e : ∀ ok, (s.wrote i b ok).tmp.map (·.1) = s.tmp.map (·.1) := by
      intro ok
      unfold Own.wrote
      split
      · rename_i hs
        split
        · simp [hs]
        · rfl
      · rfl
    simp only [sem]
    split
    · exact h.congr (fun n => by simp) (e _)
    · exact h.congr (fun n => by simp) (e _)
  | rename a b =>
    obtain ⟨ino, d, ht, hv, rfl⟩ := hm
    obtain ⟨hg, ⟨n, hn⟩, hd⟩ := hi.tmp 0 a ino (some d) (by rw [hs0]; exact ht)
    simp only [sem, hg]
    split
    · exact h
    · split
      · exact h
      · split
        · exact h
        · split
          · rename_i hdst
            exact absurd (Or.inl ⟨_, _, by rw [hs0]; exact ht⟩) (hi.objs _ _ hdst 0)
          · intro m
            have hm := h m
            rw [if_neg (by simp [Own.upd, Own.base])]
            rw [FS.get_setName, if_neg (incomplete_ne_obj _ _ _), FS.get_delName]
            by_cases e : incompleteDir cfg.root ++ [m] = a
            · rw [if_pos e]
              rw [if_pos (by simp [ht, e])] at hm
              exact hm.symm
            · rw [if_neg e]
              rw [if_neg] at hm
              · exact hm
              · simp only [ht, Option.map_some, Option.some.injEq]; exact fun h => e h.symm
  | link a b =>
    obtain ⟨x, _, _, rfl, rfl, _⟩ := hm
    simp only [sem]
    split
    · exact h
    · split
      · exact h
      · split
        · exact h
        · split
          · exact h
          · refine h.congr (fun n => ?_) rfl
            rw [FS.get_setName, if_neg]
            exact (locks_ne_incomplete _ _ _).symm
  | unlink p =>
    have hok : (sem c fs (.unlink p)).2 = .ok () := hr
    have hfs : (sem c fs (.unlink p)).1 = fs.delName p := by
      simp only [sem] at hok ⊢
      cases hf : c.fault with
      | some e => simp [hf] at hok
      | none =>
        simp only [hf] at hok ⊢
        by_cases hp : (fs.get p).isSome = true
        · rw [if_pos hp]
        · rw [if_neg hp] at hok
          split at hok <;> cases hok
    rw [hfs]
    show TmpSame cfg.root fs0 _ (s.removed p)
    rcases hm with ⟨j, d, ht⟩ | ⟨x, hx⟩
    · have e : s.removed p = { s with tmp := none } := by simp [Own.removed, ht]
      rw [e]
      intro m
      have hm := h m
      rw [if_neg (by simp), FS.get_delName]
      by_cases e : incompleteDir cfg.root ++ [m] = p
      · rw [if_pos e]
        rw [if_pos (by simp [ht, e])] at hm
        exact hm.symm
      · rw [if_neg e]
        rw [if_neg] at hm
        · exact hm
        · simp only [ht, Option.map_some, Option.some.injEq]; exact fun h => e h.symm
    · obtain ⟨y, hy⟩ : ∃ y, p = locksDir cfg.root ++ [y] := by
        rcases hx with ⟨h, _⟩ | h <;> exact ⟨_, h⟩
      refine h.congr (fun n => ?_) ?_
      · rw [FS.get_delName, if_neg]
        rw [hy]; exact (locks_ne_incomplete _ _ _).symm
      · unfold Own.removed
        split
        · rename_i hs
          split
          · rename_i hp
            obtain ⟨_, ⟨m, g⟩, _⟩ := hi.tmp 0 _ _ _ (by rw [hs0]; exact hs)
            rw [hp, hy] at g
            exact absurd g (locks_ne_incomplete _ _ _)
          · rfl
        · rfl
  | mkdirAll p =>
    refine h.congr (fun n => ?_) rfl
    simp only [sem]; (repeat' split) <;> rfl
  | chmod p m =>
    refine h.congr (fun n => ?_) rfl
    simp only [sem]; (repeat' split) <;> rfl
  | stat p =>
    refine h.congr (fun n => ?_) rfl
    simp only [sem]; (repeat' split) <;> rfl
  | openRead p =>
    refine h.congr (fun n => ?_) rfl
    simp only [sem]; (repeat' split) <;> rfl
  | fstat p =>
    refine h.congr (fun n => ?_) rfl
    simp only [sem]; (repeat' split) <;> rfl
  | readAll p =>
    refine h.congr (fun n => ?_) rfl
    simp only [sem]; (repeat' split) <;> rfl
  | readDir p =>
    refine h.congr (fun n => ?_) rfl
    simp only [sem]; (repeat' split) <;> rfl
  | now => exact h
  | out b =>
    refine h.congr (fun n => ?_) rfl
    simp only [sem]; (repeat' split) <;> rfl
  | flush =>
    refine h.congr (fun n => ?_) rfl
    simp only [sem]; (repeat' split) <;> rfl

/-- A program following the ownership rules, run alone. -/
theorem run_alone {α : Type} (cfg : Cfg) (ch : Nat → Choice) (fs0 : FS) (Q : α → Own → Prop) :
    ∀ (p : Prog α) (s : Own) (w : World), p.wp (Logic.own cfg) s Q → Inv0 cfg.root w.fs (alone s) →
    ∃ s', Q (p.run ch w).1 s' ∧ Inv0 cfg.root (p.run ch w).2.fs (alone s') ∧
      ((∀ e ∈ p.events ch w, ¬ Event.Installed e) →
        ∀ oid, (p.run ch w).2.fs.content (objPath cfg.root oid) = w.fs.content (objPath cfg.root oid)) ∧
      (TmpSame cfg.root fs0 w.fs s → (∀ e ∈ p.events ch w, Event.RemovalWorks e) →
        TmpSame cfg.root fs0 (p.run ch w).2.fs s')
  | .ret a, s, w, h, hi => ⟨s, h, hi, fun _ _ => rfl, fun h _ => h⟩
  | .call o k, s, w, h, hi => by
    have hs0 : alone s 0 = s := updAt_same _ _ _
    have hm : s.may cfg o := h.1
    obtain ⟨hi', ho⟩ := hi.step cfg rfl rfl 0 o (ch w.tick) (by rw [hs0]; exact hm)
    rw [hs0, alone_upd] at hi'
    obtain ⟨s', h1, h2, h3, h4⟩ := run_alone cfg ch fs0 Q (k (sem (ch w.tick) w.fs o).2) _
      ⟨(sem (ch w.tick) w.fs o).1, w.out ++ emitted (ch w.tick) o, w.tick + 1⟩ (h.2 _ trivial) hi'
    refine ⟨s', h1, h2, fun hn oid => ?_, fun ht hr => ?_⟩
    · refine (h3 (fun e he => hn e (by simp [Prog.events, he])) oid).trans ?_
      rcases ho oid with e | ⟨src, d, e, _, _⟩
      · exact e
      · refine absurd ?_ (hn ⟨o, (sem (ch w.tick) w.fs o).2⟩ (by simp [Prog.events]))
        rw [e]; rfl
    · refine h4 (ht.step hi _ _ hm (hr ⟨o, _⟩ (by simp [Prog.events]))) (fun e he => hr e (by simp [Prog.events, he]))

/-- **C14.** A `put-object`, run alone with any I/O errors: if it makes no successful rename, or if
it ends with an error answered with 400, the objects are unchanged. -/
theorem C14_store_unchanged (cfg : Cfg) (oid : Bytes) (r : Rdr) (ch : Nat → Choice) (w : World)
    (hb : ∀ p i, w.fs.get p = some i → i < w.fs.next)
    (h : (∀ e ∈ (putObject cfg oid r).events ch w, ¬ Event.Installed e) ∨
      ∃ e, ((putObject cfg oid r).run ch w).1.1 = .err e ∧ (errorStatus e).code = 400) :
    ∀ oid', ((putObject cfg oid r).run ch w).2.fs.content (objectFile cfg.root oid') =
      w.fs.content (objectFile cfg.root oid') := by
  intro oid'
  have hno : ∀ e ∈ (putObject cfg oid r).events ch w, ¬ Event.Installed e := by
    rcases h with h | ⟨e, he, hc⟩
    · exact h
    · intro ev hev hin
      have hfin := Prog.run_finished ch (putObject cfg oid r) w
      rcases C14_refused cfg oid r _ _ _ hfin ⟨ev, hev, hin⟩ with h | ⟨e', h1, h2⟩
      · rw [he] at h; cases h
      · rw [he] at h1; cases h1; rw [hc] at h2; cases h2
  have e0 : (alone ⟨none, [], none⟩ : Nat → Own) = fun _ => ⟨none, [], none⟩ := by
    funext k; unfold alone updAt; split <;> rfl
  obtain ⟨_, _, _, h3, _⟩ := run_alone cfg ch w.fs _ _ _ w (tidy_putObject cfg oid r ⟨none, [], none⟩ rfl)
    (by rw [e0]; exact Inv0.init hb)
  rw [objectFile_eq]
  exact h3 hno oid'

/-- **C53**, files: a `put-object` run alone in which no removal fails leaves the directory of
temporary files as it was. -/
theorem C53_directory_unchanged (cfg : Cfg) (oid : Bytes) (r : Rdr) (ch : Nat → Choice) (w : World)
    (hb : ∀ p i, w.fs.get p = some i → i < w.fs.next)
    (h : ∀ e ∈ (putObject cfg oid r).events ch w, Event.RemovalWorks e) (name : Bytes) :
    ((putObject cfg oid r).run ch w).2.fs.get (cfg.root ++ [b!"incomplete", name]) =
      w.fs.get (cfg.root ++ [b!"incomplete", name]) := by
  have e0 : (alone ⟨none, [], none⟩ : Nat → Own) = fun _ => ⟨none, [], none⟩ := by
    funext k; unfold alone updAt; split <;> rfl
  obtain ⟨s', h1, _, _, h4⟩ := run_alone cfg ch w.fs _ _ _ w (tidy_putObject cfg oid r ⟨none, [], none⟩ rfl)
    (by rw [e0]; exact Inv0.init hb)
  have := h4 (fun n => by rw [if_neg]; simp) h name
  rw [if_neg (by simp [h1])] at this
  simpa [incompleteDir] using this

/-! ### Witnesses -/

namespace Tests

/-- Two processes upload the same object at the same time; the others do nothing. -/
def twoUploads : Sys :=
  ⟨fs0, fun i => if i < 2 then
      server cfg b!"upload" (b!"0050put-object " ++ oidA ++ b!"\n000bsize=6\n0001000aabc1230000")
    else server cfg b!"upload" []⟩

theorem twoUploads_start : Start cfg.root cfg.sha twoUploads :=
  ⟨fun i => by unfold twoUploads server; dsimp only; split <;> exact ⟨_, _, _, rfl, rfl, rfl⟩,
   fun p i h => (by cases h), fun p i _ h => (by cases h)⟩

/-- Alternate between the two processes. -/
def alternate (n : Nat) : List (Nat × Choice) := (List.range n).map fun k => (k % 2, Choice.none)

/-- Half-way through nothing is visible; at the end the object is there, after two renames. -/
example : (twoUploads.exec (alternate 22)).1.fs.content (objectFile cfg.root oidA) = none ∧
    (twoUploads.exec (alternate 60)).1.fs.content (objectFile cfg.root oidA) = some b!"abc123" ∧
    ((twoUploads.exec (alternate 60)).2.filter fun e => match e.2.1 with
      | .rename _ _ => true | _ => false).map (·.1) = [0, 1] := by decide +kernel

/-- Lock of `f`, its unlock, and another lock. -/
def lockAgain : Sys :=
  ⟨fs0, fun i => server cfg b!"upload" (if i = 0 then
      b!"0009lock\n000bpath=f\n0011refname=main\n0000" ++ b!"004cunlock " ++ hex (sha256 b!"v1:f") ++ b!"\n0000"
    else b!"0009lock\n000bpath=f\n0011refname=main\n0000")⟩

theorem lockAgain_start : Start cfg.root cfg.sha lockAgain :=
  ⟨fun i => ⟨_, _, _, rfl, rfl, rfl⟩, fun p i h => (by cases h), fun p i _ h => (by cases h)⟩

def isLockChange (e : Nat × Event) : Option (Nat × Bool × Path) :=
  match e.2 with
  | ⟨.link _ p, .ok _⟩ => some (e.1, true, p)
  | ⟨.unlink p, .ok _⟩ => some (e.1, false, p)
  | _ => none

/-- Process 0 locks and unlocks, then process 1 locks: two successful links with a removal between
(and the removals of the temporary files). -/
example : ((lockAgain.exec (List.replicate 60 (0, Choice.none) ++ List.replicate 60 (1, Choice.none))).2.filterMap
    isLockChange) =
    (let f := lockFile cfg.root (lockName cfg.sha b!"f")
     let t := lockTempFile cfg.root (lockName cfg.sha b!"f")
     [(0, true, f), (0, false, t), (0, false, f), (1, true, f), (1, false, t)]) := by decide +kernel

end Tests

end Verif
