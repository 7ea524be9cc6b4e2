import Verif.Lemmas.Stopped
import Verif.Spec.Aside
/-! Code that has nothing to do with a file runs as if the file were not there. -/
namespace Verif
open Spec

variable {h : Path} {fs : FS}

/-- Calls that have nothing to do with the name `h`. -/
def Op.apart (h : Path) : Op → Prop
  | .mkdirAll p => ¬ h <+: p
  | .createTemp d _ _ => h.dropLast ≠ d
  | .createNew p _ => p ≠ h
  | .rename p q => p ≠ h ∧ q ≠ h
  | .link p q => p ≠ h ∧ q ≠ h
  | .unlink p => p ≠ h
  | .chmod p _ => p ≠ h
  | .stat p => ∀ fs : FS, (fs.delName h).resolve p = fs.resolve p ∧ fs.resolve p ≠ .ok h
  | .openRead p => ∀ fs : FS, (fs.delName h).resolve p = fs.resolve p ∧ fs.resolve p ≠ .ok h
  | .readDir _ => False
  | _ => True

theorem get_apart {p : Path} (hp : p ≠ h) : (fs.delName h).get p = fs.get p := by
  rw [FS.get_delName, if_neg hp]

theorem alDel_swap (l : List (Path × Ino)) (p q : Path) : alDel (alDel l p) q = alDel (alDel l q) p := by
  simp only [alDel, List.filter_filter]
  congr 1
  funext e
  exact Bool.and_comm _ _

theorem alDel_alSet {l : List (Path × Ino)} {p q : Path} {i : Ino} (hp : p ≠ q) :
    alDel (alSet l p i) q = alSet (alDel l q) p i := by
  rw [alSet, alSet, alDel_swap l q p]
  simp [alDel, hp]

theorem delName_setName {p : Path} {i : Ino} (hp : p ≠ h) : (fs.setName p i).delName h = (fs.delName h).setName p i := by
  simp [FS.delName, FS.setName, alDel_alSet hp]

theorem delName_swap (p : Path) : (fs.delName p).delName h = (fs.delName h).delName p := by
  simp [FS.delName, alDel_swap]

theorem delName_create {p : Path} {u m : Nat} (hp : p ≠ h) : (fs.create p u m).delName h = (fs.delName h).create p u m := by
  simp only [FS.delName, FS.create, alDel_alSet hp]
  rfl

/-- A call that has nothing to do with the file does the same without it, with other random names at most. -/
theorem sem_apart (c : Choice) (hc : c.fault = none) (fs : FS) {o : Op} (ho : o.apart h) (hh : h ≠ []) :
    ∃ c', c'.fault = none ∧ c'.time = c.time ∧ sem c' (fs.delName h) o = ((sem c fs o).1.delName h, (sem c fs o).2) ∧
      emitted c' o = emitted c o ∧ (sem c fs o).1.get h = fs.get h := by
  have hdir : ∀ p, (fs.delName h).isDir p = fs.isDir p := fun _ => rfl
  have same : sem c (fs.delName h) o = ((sem c fs o).1.delName h, (sem c fs o).2) → (sem c fs o).1.get h = fs.get h →
      ∃ c', c'.fault = none ∧ c'.time = c.time ∧ sem c' (fs.delName h) o = ((sem c fs o).1.delName h, (sem c fs o).2) ∧
        emitted c' o = emitted c o ∧ (sem c fs o).1.get h = fs.get h := fun h1 h2 => ⟨c, hc, rfl, h1, rfl, h2⟩
  cases o with
  | createTemp d pre u =>
    simp only [Op.apart] at ho
    by_cases hd : fs.isDir d
    · obtain ⟨sfx, hs⟩ := FS.freshName_dir (fs := fs) d (pre ++ c.rand)
      obtain ⟨f1, f2⟩ := FS.freshName_unused (fs := fs) d (pre ++ c.rand)
      have hne : fs.freshName d (pre ++ c.rand) ≠ h := by
        intro e
        rw [hs] at e
        exact ho (by rw [← e]; simp)
      refine ⟨{ c with rand := c.rand ++ sfx }, hc, rfl, ?_, rfl, ?_⟩
      · have hf : (fs.delName h).freshName d (pre ++ (c.rand ++ sfx)) = fs.freshName d (pre ++ c.rand) := by
          rw [hs] at hne f1 f2 ⊢
          rw [← List.append_assoc]
          simp only [FS.freshName]
          rw [if_neg]
          rw [get_apart hne, f1]
          simpa [FS.delName] using f2
        simp only [sem, hc, hdir, hd, if_true, hf]
        rw [delName_create hne]
        rfl
      · simp only [sem, hc, hd, if_true]
        rw [FS.get_create, if_neg (Ne.symm hne)]
    · exact same (by simp [sem, hc, hdir, hd]) (by simp [sem, hc, hd])
  | mkdirAll p =>
    have h1 : ∀ q ∈ pathPrefixes p, (fs.delName h).get q = fs.get q := by
      intro q hq
      refine get_apart ?_
      rintro rfl
      exact ho (mem_pathPrefixes hq)
    have h2 : (pathPrefixes p).any (fun q => ((fs.delName h).get q).isSome) = (pathPrefixes p).any (fun q => (fs.get q).isSome) := by
      rw [Bool.eq_iff_iff, List.any_eq_true, List.any_eq_true]
      constructor <;> rintro ⟨q, hq, hs⟩ <;> refine ⟨q, hq, ?_⟩
      · rw [← h1 q hq]; exact hs
      · rw [h1 q hq]; exact hs
    refine same ?_ ?_ <;> simp only [sem, hc, h2] <;> split <;> rfl
  | createNew p u =>
    simp only [Op.apart] at ho
    refine same ?_ ?_ <;> simp only [sem, hc, get_apart ho, hdir]
    · split
      · rfl
      · split
        · rw [delName_create ho]; rfl
        · rfl
    · split
      · rfl
      · split
        · rw [FS.get_create, if_neg (Ne.symm ho)]
        · rfl
  | write i b => exact same (by simp [sem, hc]; rfl) (by simp [sem, hc])
  | rename p q =>
    simp only [Op.apart] at ho
    refine same ?_ ?_ <;> simp only [sem, hc, get_apart ho.1, get_apart ho.2, hdir] <;> (repeat' split) <;> (try rfl)
    · rw [delName_setName ho.2, delName_swap]
    · rw [FS.get_setName, if_neg (Ne.symm ho.2), FS.get_delName, if_neg (Ne.symm ho.1)]
  | link p q =>
    simp only [Op.apart] at ho
    refine same ?_ ?_ <;> simp only [sem, hc, get_apart ho.1, get_apart ho.2, hdir] <;> (repeat' split) <;> (try rfl)
    · rw [delName_setName ho.2]
    · rw [FS.get_setName, if_neg (Ne.symm ho.2)]
  | unlink p =>
    simp only [Op.apart] at ho
    refine same ?_ ?_ <;> simp only [sem, hc, get_apart ho, hdir] <;> (repeat' split) <;> (try rfl)
    · rw [delName_swap]
    · rw [FS.get_delName, if_neg (Ne.symm ho)]
  | chmod p m =>
    simp only [Op.apart] at ho
    refine same ?_ ?_ <;> simp only [sem, hc, get_apart ho, hdir] <;> (repeat' split) <;> rfl
  | stat p =>
    obtain ⟨h1, h2⟩ := ho fs
    refine same ?_ ?_ <;> simp only [sem, hc, h1, hdir]
    · cases e : fs.resolve p with
      | error => rfl
      | ok q =>
        have : q ≠ h := by rintro rfl; exact h2 e
        simp only [get_apart this]
        (repeat' split) <;> rfl
    · (repeat' split) <;> rfl
  | openRead p =>
    obtain ⟨h1, h2⟩ := ho fs
    refine same ?_ ?_ <;> simp only [sem, hc, h1, hdir]
    · cases e : fs.resolve p with
      | error => rfl
      | ok q =>
        have : q ≠ h := by rintro rfl; exact h2 e
        simp only [get_apart this]
        (repeat' split) <;> rfl
    · (repeat' split) <;> rfl
  | fstat i => cases i <;> exact same (by simp [sem, hc]; try rfl) (by simp [sem, hc])
  | readAll i => cases i <;> exact same (by simp [sem, hc]; try rfl) (by simp [sem, hc])
  | readDir p => exact ho.elim
  | now => exact same rfl rfl
  | out b => exact same (by simp [sem, hc]) (by simp [sem, hc])
  | flush => exact same (by simp [sem, hc]) (by simp [sem, hc])


/-- The same for several files. -/
theorem sem_aparts {o : Op} : ∀ {H : List Path} (c : Choice) (_ : c.fault = none) (fs : FS), (∀ h ∈ H, o.apart h) →
    (∀ h ∈ H, h ≠ []) →
    ∃ c', c'.fault = none ∧ c'.time = c.time ∧ sem c' (fs.dels H) o = ((sem c fs o).1.dels H, (sem c fs o).2) ∧
      emitted c' o = emitted c o ∧ ∀ h ∈ H, (sem c fs o).1.get h = fs.get h
  | [], c, hc, fs, _, _ => ⟨c, hc, rfl, rfl, rfl, fun _ h => by cases h⟩
  | h :: H, c, hc, fs, ho, hh => by
    obtain ⟨c1, h1, h2, h3, h4, _⟩ := sem_apart c hc fs (ho h (by simp)) (hh h (by simp))
    obtain ⟨c', g1, g2, g3, g4, _⟩ := sem_aparts (H := H) c1 h1 (fs.delName h) (fun x hx => ho x (by simp [hx]))
      fun x hx => hh x (by simp [hx])
    refine ⟨c', g1, g2.trans h2, ?_, g4.trans h4, fun x hx => ?_⟩
    · show sem c' ((fs.delName h).dels H) o = _
      rw [g3, h3]
      rfl
    · obtain ⟨_, _, _, _, _, h5⟩ := sem_apart c hc fs (ho x hx) (hh x hx)
      exact h5

/-! ### Whole programs -/

variable {H : List Path}

/-- The logic of `Logic.run` for code that has nothing to do with the files `H`. -/
def Logic.apart (ch : Nat → Choice) (H : List Path) : Logic World where
  pre _ o := ∀ h ∈ H, o.apart h
  upd := (Logic.run ch).upd
  legal := (Logic.run ch).legal

/-- The same world without the files. -/
def World.without (w : World) (H : List Path) : World := { w with fs := w.fs.dels H }

/-- No calls fail, and the clock shows the same. -/
def Alike (ch ch' : Nat → Choice) : Prop := ∀ n, (ch' n).fault = none ∧ (ch' n).time = (ch n).time

theorem Prog.apart_congr {α : Type} {p : Prog α} : ∀ {ch ch' : Nat → Choice} {w : World} {Q : α → World → Prop},
    (∀ n, w.tick ≤ n → ch n = ch' n) → p.wp (Logic.apart ch H) w Q → p.wp (Logic.apart ch' H) w Q := by
  induction p with
  | ret a => exact fun _ hw => hw
  | call o k ih =>
    intro ch ch' w Q he hw
    have e := he w.tick (Nat.le_refl _)
    refine ⟨hw.1, fun x hx => ?_⟩
    have hx' : (Logic.apart ch H).legal w o x := by
      show x = (sem (ch w.tick) w.fs o).2
      rw [e]; exact hx
    have hu : (Logic.apart ch' H).upd w o x = (Logic.apart ch H).upd w o x := by
      show World.mk _ _ _ = World.mk _ _ _
      rw [e]
    rw [hu]
    refine ih x (fun n hn => he n ?_) (hw.2 x hx')
    have : w.tick + 1 ≤ n := hn
    omega

theorem stopped_congr {α : Type} {ch ch' : Nat → Choice} : ∀ (n : Nat) {p : Prog α} {w : World},
    (∀ n, w.tick ≤ n → ch n = ch' n) → stopped ch n p w = stopped ch' n p w
  | 0, _, _, _ => by simp only [stopped]
  | _ + 1, .ret _, _, _ => by simp only [stopped]
  | n + 1, .call o k, w, he => by
    simp only [stopped, he w.tick (Nat.le_refl _)]
    refine stopped_congr n fun m hm => he m ?_
    have : w.tick + 1 ≤ m := hm
    omega

/-- **The frame rule.** -/
theorem Prog.frame {α : Type} (hh : ∀ h ∈ H, h ≠ []) {p : Prog α} : ∀ {ch : Nat → Choice} {w : World} {Q : α → World → Prop},
    (∀ n, (ch n).fault = none) → (∀ ch', Alike ch ch' → p.wp (Logic.apart ch' H) (w.without H) Q) →
    p.wp (Logic.run ch) w (fun a w' => Q a (w'.without H) ∧ ∀ h ∈ H, w'.fs.get h = w.fs.get h) ∧
    ∀ n, ∃ ch', Alike ch ch' ∧ stopped ch' n p (w.without H) = (stopped ch n p w).without H := by
  induction p with
  | ret a =>
    exact fun {ch w Q} hc hw => ⟨⟨hw _ fun n => ⟨hc n, rfl⟩, fun _ _ => rfl⟩, fun n => ⟨ch, fun n => ⟨hc n, rfl⟩, by
      cases n <;> simp only [stopped]⟩⟩
  | call o k ih =>
    intro ch w Q hc hw
    have ho : ∀ h ∈ H, o.apart h := (hw ch fun n => ⟨hc n, rfl⟩).1
    obtain ⟨c', h1, h2, h3, h4, h5⟩ := sem_aparts (ch w.tick) (hc _) w.fs ho hh
    have alike : ∀ {ch'}, Alike ch ch' → Alike ch (fun n => if n = w.tick then c' else ch' n) := by
      intro ch' ha n
      by_cases hn : n = w.tick
      · subst hn; simp [h1, h2]
      · simp only [hn, if_false]; exact ha n
    have step : World.mk (sem c' (w.fs.dels H) o).1 (w.out ++ emitted c' o) (w.tick + 1) =
        World.without ⟨(sem (ch w.tick) w.fs o).1, w.out ++ emitted (ch w.tick) o, w.tick + 1⟩ H := by
      rw [h3, h4]
      rfl
    have hw' : ∀ ch', Alike ch ch' → (k (sem (ch w.tick) w.fs o).2).wp (Logic.apart ch' H)
        (World.without ⟨(sem (ch w.tick) w.fs o).1, w.out ++ emitted (ch w.tick) o, w.tick + 1⟩ H) Q := by
      intro ch' ha
      have hw'' := (hw _ (alike ha)).2 (sem (ch w.tick) w.fs o).2 (by
        show _ = (sem (if w.tick = w.tick then c' else _) (w.fs.dels H) o).2
        rw [if_pos rfl, h3])
      refine Prog.apart_congr (ch := fun n => if n = w.tick then c' else ch' n) (fun n hn => ?_) (cast ?_ hw'')
      · have : w.tick + 1 ≤ n := hn
        exact if_neg (by omega)
      · congr 1
        show World.mk (sem (if w.tick = w.tick then c' else _) (w.fs.dels H) o).1
          (w.out ++ emitted (if w.tick = w.tick then c' else _) o) (w.tick + 1) = _
        rw [if_pos rfl, step]
    constructor
    · refine ⟨trivial, fun x hx => ?_⟩
      have hx : x = (sem (ch w.tick) w.fs o).2 := hx
      subst hx
      refine Prog.wp_mono (ih _ hc hw').1 ?_
      rintro a w' ⟨q1, q2⟩
      exact ⟨q1, fun h hm => (q2 h hm).trans (h5 h hm)⟩
    · intro n
      cases n with
      | zero => exact ⟨ch, fun n => ⟨hc n, rfl⟩, by simp only [stopped]⟩
      | succ n =>
        obtain ⟨ch', ha, e⟩ := (ih _ hc hw').2 n
        refine ⟨_, alike ha, ?_⟩
        simp only [stopped]
        rw [← e]
        show stopped (fun n => if n = w.tick then c' else ch' n) n
          (k (sem (if w.tick = w.tick then c' else _) (w.fs.dels H) o).2)
          ⟨(sem (if w.tick = w.tick then c' else _) (w.fs.dels H) o).1,
            w.out ++ emitted (if w.tick = w.tick then c' else _) o, w.tick + 1⟩ = _
        rw [if_pos rfl, step, h3]
        refine stopped_congr n fun m hm => ?_
        have : w.tick + 1 ≤ m := hm
        exact if_neg (by omega)

/-! ### Proving that code has nothing to do with the file -/

/-- The responses do not matter, except that a temporary file is where it should be. -/
def Logic.sep (h : Path) : Logic Unit where
  pre _ o := o.apart h
  upd _ _ _ := ()
  legal _ o x := match o, x with
    | .createTemp d _ _, .ok (p, _) => p.dropLast = d
    | _, _ => True

abbrev Prog.Sep {α : Type} (h : Path) (p : Prog α) : Prop := p.wp (Logic.sep h) () (fun _ _ => True)

theorem Prog.sep_all {α : Type} {p : Prog α} (hp : p.All (Op.apart h)) : p.Sep h :=
  Prog.wp_mono (hp.wp (L := Logic.sep h) () (fun _ ho => ho) fun _ _ _ _ => rfl) fun _ _ _ => trivial

theorem Prog.sep_apart {α : Type} {p : Prog α} {ch : Nat → Choice} : ∀ {w : World} {Q : α → World → Prop},
    (∀ h ∈ H, p.Sep h) → p.wp (Logic.run ch) w Q → p.wp (Logic.apart ch H) w Q := by
  induction p with
  | ret a => exact fun _ hw => hw
  | call o k ih =>
    intro w Q hs hw
    refine ⟨fun h hm => (hs h hm).1, fun x hx => ih x (fun h hm => (hs h hm).2 x ?_) (hw.2 x hx)⟩
    have hx : x = (sem (ch w.tick) w.fs o).2 := hx
    cases o with
    | createTemp d pre u =>
      cases e : (ch w.tick).fault with
      | some _ => simp only [sem, e] at hx; subst hx; trivial
      | none =>
        simp only [sem, e] at hx
        split at hx
        · subst hx
          obtain ⟨sfx, hs⟩ := FS.freshName_dir (fs := w.fs) d (pre ++ (ch w.tick).rand)
          show (w.fs.freshName d _).dropLast = d
          rw [hs]; simp
        · subst hx; trivial
    | _ => trivial

theorem Prog.Sep.bind {α β : Type} {p : Prog α} {f : α → Prog β} (hp : p.Sep h) (hf : ∀ a, (f a).Sep h) :
    (p.bind f).Sep h := by
  unfold Prog.Sep
  rw [Prog.wp_bind]
  exact Prog.wp_mono hp fun a _ _ => hf a

/-! ### The commands of the server -/

variable {cfg : Cfg} {path : Bytes}

theorem halfLock_ne : halfLock cfg path ≠ [] := by simp [halfLock, lockFile]

theorem halfLock_dropLast : (halfLock cfg path).dropLast = locksDir cfg.root := lockFile_dropLast _ _

theorem objPath_apart (oid : Bytes) : objPath cfg.root oid ≠ halfLock cfg path := by
  intro e
  simp [objPath, halfLock, lockFile] at e

theorem lockPath_apart (hsha : ∀ b, (cfg.sha b).length = 32) (p : Bytes) : lockPath cfg p ≠ halfLock cfg path := by
  intro e
  rw [lockPath_eq] at e
  have := congrArg List.length (lockFile_inj e)
  rw [List.length_append, (isOid_lockName hsha _).1, (isOid_lockName hsha _).1] at this
  simp at this

theorem exact_apart {p : Path} (hp : p ≠ h) : ∀ fs : FS, (fs.delName h).resolve (.exact p) = fs.resolve (.exact p) ∧
    fs.resolve (.exact p) ≠ .ok h :=
  fun fs => ⟨rfl, fun e => hp (by simpa [FS.resolve] using e)⟩

theorem join_apart {id : Bytes} (hsha : ∀ b, (cfg.sha b).length = 32) (hid : IsOid id) : ∀ fs : FS,
    (fs.delName (halfLock cfg path)).resolve (.join (locksDir cfg.root) id) = fs.resolve (.join (locksDir cfg.root) id) ∧
    fs.resolve (.join (locksDir cfg.root) id) ≠ .ok (halfLock cfg path) := by
  intro fs
  cases hd : fs.isDir (locksDir cfg.root) with
  | true =>
    rw [resolve_id hd hid, resolve_id (fs := fs.delName (halfLock cfg path)) hd hid]
    refine ⟨rfl, fun e => ?_⟩
    have e : lockFile cfg.root id = halfLock cfg path := by simpa using e
    have := congrArg List.length (lockFile_inj e)
    rw [List.length_append, hid.1, (isOid_lockName hsha _).1] at this
    simp at this
  | false =>
    have hne : locksDir cfg.root ≠ halfLock cfg path := by
      intro e
      have := congrArg List.length e
      simp [locksDir, halfLock, lockFile] at this
    have h0 : id.contains 0 = false := by
      rw [Bool.eq_false_iff]
      simpa using oid_notin hid (x := 0) (by decide)
    have hs : id.head? ≠ some SLASH := by
      intro e
      exact oid_notin hid (x := SLASH) (by decide) (List.mem_of_mem_head? e)
    have hd' : (fs.delName (halfLock cfg path)).isDir (locksDir cfg.root) = false := hd
    have hsp : ∃ c cs, splitOn SLASH id = c :: cs := by
      cases e : splitOn SLASH id with
      | nil => exact absurd e (splitOn_ne_nil _ _)
      | cons c cs => exact ⟨c, cs, rfl⟩
    obtain ⟨c, cs, hsp⟩ := hsp
    simp only [FS.resolve, h0, hs, if_false, hsp, FS.walk, hd, hd', get_apart hne, Bool.false_eq_true]
    refine ⟨trivial, ?_⟩
    split <;> simp

abbrev Aside (cfg : Cfg) (path : Bytes) (o : Op) : Prop := o.apart (halfLock cfg path)

theorem aside_oidNew (b : Bytes) : (oidNew b).All (Aside cfg path) := by unfold oidNew; all_ops

theorem aside_readToFlushParse : readToFlushParse.All (Aside cfg path) := by
  unfold readToFlushParse readToFlush; all_ops

theorem aside_versionCmd : versionCmd.All (Aside cfg path) := by
  unfold versionCmd
  exact .bind (.rdr _) fun _ => .pure _

theorem aside_backendBatch : ∀ l, (backendBatch cfg l).All (Aside cfg path)
  | [] => .pure _
  | (oid, n) :: rest => by
    unfold backendBatch
    have := aside_backendBatch rest
    refine .bind (.op (exact_apart (objPath_apart _))) fun _ => ?_
    all_ops

theorem aside_batchCmd (p m : Bytes) : (batchCmd cfg p m).All (Aside cfg path) := by
  unfold batchCmd readBatch readToDelim
  have h2 := aside_readToFlushParse (cfg := cfg) (path := path)
  have h3 := aside_backendBatch (cfg := cfg) (path := path)
  refine .bind ?_ fun _ => .pure _
  refine .bind (.rdr _) fun _ => .bind (.ofRes _) fun _ => .bind h2 fun _ => ?_
  split <;> (try split) <;> simp only [] <;>
    first
    | exact .bind (.ofRes _) fun _ => h3 _
    | exact .bind (.pure _) fun _ => .bind (.ofRes _) fun _ => h3 _
    | exact .bind (.throw _) fun _ => .bind (.ofRes _) fun _ => h3 _

theorem aside_verifyObject (oid : Bytes) : (verifyObject cfg oid).All (Aside cfg path) := by
  unfold verifyObject backendVerify readToFlush
  refine .bind (.rdr _) fun _ => .bind (.ofRes _) fun _ => .bind (aside_oidNew _) fun _ =>
    .bind (.ofRes _) fun _ => .bind (.op (exact_apart (objPath_apart _))) fun _ => ?_
  all_ops

theorem aside_getObject (oid : Bytes) : (getObject cfg oid).All (Aside cfg path) := by
  unfold getObject backendDownload readToFlush
  refine .bind (.rdr _) fun _ => .bind (.ofRes _) fun _ => .bind (aside_oidNew _) fun _ =>
    .bind (.attempt (.bind (.op (exact_apart (objPath_apart _))) fun _ => .bind (.ofIo _) fun _ => .bind (.op trivial) fun _ =>
      .bind (.ofIo _) fun _ => .pure _)) fun _ => ?_
  all_ops

theorem aside_timestamp : (timestamp cfg).All (Aside cfg path) := by
  unfold timestamp
  split
  · exact .pure _
  · exact .op trivial

theorem aside_lockFromId {id : Bytes} (hsha : ∀ b, (cfg.sha b).length = 32) (hid : IsOid id) :
    (lockFromId cfg id).All (Aside cfg path) := by
  have h1 := join_apart (cfg := cfg) (path := path) hsha hid
  have h2 : (userForFile cfg (.join (locksDir cfg.root) id)).All (Aside cfg path) := by
    unfold userForFile
    refine .bind (.op h1) fun _ => ?_
    all_ops
  unfold lockFromId
  refine .bind (.op h1) fun x => ?_
  split
  · all_ops
  · refine .bind (.op trivial) fun _ => ?_
    all_ops

theorem aside_lockFromPath (hsha : ∀ b, (cfg.sha b).length = 32) (p : Bytes) : (lockFromPath cfg p).All (Aside cfg path) := by
  unfold lockFromPath
  have := aside_lockFromId (cfg := cfg) (path := path) (id := lockId cfg p) hsha (by rw [lockId_eq]; exact isOid_lockName hsha p)
  all_ops

theorem aside_lockArgs (l : LockInfo) : (lockArgs cfg l).All (Aside cfg path) := by
  unfold lockArgs fmtTimestamp
  refine .bind ?_ fun _ => .pure _
  all_ops

theorem aside_lockSpec (o : Bool) (l : LockInfo) : (lockSpec cfg o l).All (Aside cfg path) := by
  unfold lockSpec fmtTimestamp
  refine .bind ?_ fun _ => ?_
  · all_ops
  · simp only []
    all_ops

theorem aside_listLocksForPath (hsha : ∀ b, (cfg.sha b).length = 32) (p : Bytes) (c : Option Bytes) (o : Bool) :
    (listLocksForPath cfg p c o).All (Aside cfg path) := by
  unfold listLocksForPath
  refine .bind (aside_lockFromPath hsha _) fun x => ?_
  cases x with
  | none => exact .pure _
  | some l =>
    simp only []
    have := aside_lockSpec (cfg := cfg) (path := path) o l
    repeat' (first | split | exact .pure _ | exact .bind this fun _ => .pure _)

theorem aside_unlockCmd {id : Bytes} (hsha : ∀ b, (cfg.sha b).length = 32) (hid : IsOid id) :
    (unlockCmd cfg id).All (Aside cfg path) := by
  have h1 := aside_lockFromId (cfg := cfg) (path := path) hsha hid
  have h2 := aside_lockArgs (cfg := cfg) (path := path)
  have h3 : ∀ l, (lockUnlock cfg l).All (Aside cfg path) := by
    intro l
    unfold lockUnlock
    exact .bind (.op (lockPath_apart hsha _)) fun _ => .ofIo _
  unfold unlockCmd readToFlush
  refine .bind (.rdr _) fun _ => ?_
  split
  · exact .throw _
  · refine .bind h1 fun x => ?_
    cases x with
    | none => exact .pure _
    | some l =>
      refine .bind (h2 l) fun _ => .bind (.attempt (h3 l)) fun _ => ?_
      all_ops

theorem aside_dropFile {p : Path} (hp : p ≠ halfLock cfg path) : (dropFile p).All (Aside cfg path) := by
  unfold dropFile
  exact .bind (.op hp) fun _ => .pure _

theorem aside_lockLoop (hsha : ∀ b, (cfg.sha b).length = 32) {p : Bytes} (hp : lockName cfg.sha p ≠ lockName cfg.sha path) :
    (lockLoop cfg p).All (Aside cfg path) := by
  have ht : lockTemp cfg p ≠ halfLock cfg path := by
    rw [lockTemp_eq]
    intro e
    exact hp (List.append_cancel_right (lockFile_inj e))
  have h1 := aside_timestamp (cfg := cfg) (path := path)
  have h2 := aside_lockArgs (cfg := cfg) (path := path)
  have h3 := aside_lockFromPath (cfg := cfg) (path := path) hsha p
  have h4 : (lockCreate cfg p).All (Aside cfg path) := by
    unfold lockCreate lockWrite lockPersist userForFile
    refine .bind h1 fun t => .bind (.after (.bind (.bind (.op ht) fun x => ?_) fun _ => .bind (.op ⟨ht, lockPath_apart hsha _⟩) fun _ => ?_)
      (aside_dropFile ht)) fun _ => .bind (.bind (.op (exact_apart (lockPath_apart hsha _))) fun _ => ?_) fun _ => .bind h1 fun _ => .pure _
    · split
      · all_ops
      · exact .bind (.op trivial) fun _ => .ofIo _
    · all_ops
    · all_ops
  unfold lockLoop
  refine .bind (.attempt h4) fun x => ?_
  cases x with
  | ok l => exact .bind (h2 l) fun _ => .pure _
  | error e =>
    simp only []
    split
    · refine .bind h3 fun y => ?_
      cases y with
      | none => exact .panic
      | some l => exact .bind (h2 l) fun _ => .pure _
    · exact .throw _

theorem M.All.sep {α : Type} {m : M α} (hm : m.All (Op.apart h)) (r : Rdr) :
    m.wp (Logic.sep h) r () (fun _ _ _ => True) := Prog.sep_all (hm r)

theorem sep_readToFlushParse {α : Type} {f : List Bytes → M α} {r r' : Rdr} {v : List Bytes}
    (e : readToType .flush r = (.ok v, r')) (k : (f v r').Sep h) : ((readToFlushParse >>= f) r).Sep h := by
  show (readToFlushParse >>= f).wp (Logic.sep h) r () (fun _ _ _ => True)
  unfold readToFlushParse
  rw [M.wp_bind, M.wp_bind, M.wp_attempt]
  unfold readToFlush
  rw [M.wp_rdr, e]
  exact k

theorem sep_lockCmd (hsha : ∀ b, (cfg.sha b).length = 32) {kv : List (Bytes × Bytes)} {u rest p ref : Bytes} {r : Rdr}
    (ha : ArgsOk kv) (hpa : lookup kv b!"path" = some p) (href : lookup kv b!"refname" = some ref)
    (hF : Frames (argPackets kv ++ [.flush]) u) (hi : r.input = u ++ rest) (hp : lockName cfg.sha p ≠ lockName cfg.sha path) :
    (lockCmd cfg r).Sep (halfLock cfg path) := by
  obtain ⟨m, hm, hget⟩ := C09_args_exact kv ha
  unfold lockCmd
  refine sep_readToFlushParse (readToFlush_args hF hi) ?_
  rw [hm]
  show ((match Args.get m b!"path", Args.get m b!"refname" with
    | some path, some _ => lockLoop cfg path
    | _, _ => M.throw (Err.withMsg .missingData b!"both path and refname required") : M Status) _).Sep _
  rw [hget, hget, hpa, href]
  exact Prog.sep_all (aside_lockLoop hsha hp _)

theorem sep_listLocks (hsha : ∀ b, (cfg.sha b).length = 32) {kv : List (Bytes × Bytes)} {u rest p : Bytes} {r : Rdr} {o : Bool}
    (ha : ArgsOk kv) (hpa : lookup kv b!"path" = some p)
    (hF : Frames (argPackets kv ++ [.flush]) u) (hi : r.input = u ++ rest) :
    (listLocks cfg o r).Sep (halfLock cfg path) := by
  obtain ⟨m, hm, hget⟩ := C09_args_exact kv ha
  unfold listLocks
  refine sep_readToFlushParse (readToFlush_args hF hi) ?_
  rw [hm]
  show M.wp (Logic.sep (halfLock cfg path)) _ _ () (fun _ _ _ => True)
  rw [M.wp_bind, M.wp_ofRes]
  simp only [Res.elim_ok]
  rw [M.wp_bind, M.wp_ofRes]
  cases parseLimit m with
  | ok n =>
    simp only [Res.elim_ok, hget, hpa]
    exact (aside_listLocksForPath hsha _ _ _).sep _
  | err e => trivial
  | panic => trivial

theorem aside_copyInF (bufs : Nat → Nat) (ino : Ino) : ∀ f i acc, (copyInF bufs ino f i acc).All (Aside cfg path)
  | 0, _, _ => .panic
  | f + 1, i, acc => by
    unfold copyInF
    refine .bind (.rdr _) (fun d => ?_)
    have ih := aside_copyInF bufs ino f (i + 1) (acc ++ d)
    split
    · exact .pure _
    · exact .bind (.op trivial) fun _ => .bind (.ofIo _) fun _ => ih

theorem sep_putObject (oid : Bytes) (r : Rdr) : (putObject cfg oid r).Sep (halfLock cfg path) := by
  show (putObject cfg oid).wp (Logic.sep (halfLock cfg path)) r () (fun _ _ _ => True)
  have htmp : ∀ {p : Path}, p.dropLast = incompleteDir cfg.root → p ≠ halfLock cfg path := by
    rintro p hp rfl
    rw [halfLock_dropLast] at hp
    simp [locksDir, incompleteDir] at hp
  unfold putObject
  rw [M.wp_bind]
  refine M.wp_mono ((aside_oidNew _).sep _) fun x r _ _ => ?_
  cases x <;> try trivial
  rename_i oid
  simp only [Res.elim_ok]
  rw [M.wp_bind]
  refine M.wp_mono (M.All.sep (.rdr _) _) fun x r _ _ => ?_
  cases x <;> try trivial
  simp only [Res.elim_ok]
  rw [M.wp_bind]
  refine M.wp_mono (M.All.sep (.ofRes _) _) fun x r _ _ => ?_
  cases x <;> try trivial
  simp only [Res.elim_ok]
  rw [M.wp_bind]
  refine M.wp_mono (M.All.sep (.ofRes _) _) fun x r _ _ => ?_
  cases x <;> try trivial
  simp only [Res.elim_ok]
  rw [M.wp_bind]
  refine M.wp_mono (Q := fun x _ _ => ∀ y : Path × Bytes, x = .ok y → y.1.dropLast = incompleteDir cfg.root) ?_ ?_
  · unfold startUpload
    rw [M.wp_bind, M.wp_op]
    refine ⟨?_, fun x hx => ?_⟩
    · show (halfLock cfg path).dropLast ≠ incompleteDir cfg.root
      exact fun e => htmp e rfl
    · simp only [Res.elim_ok]
      cases x with
      | error e => 
        rw [M.wp_bind, M.wp_ofIo]
        intro y hy; cases hy
      | ok x =>
        obtain ⟨p, ino⟩ := x
        have hx : p.dropLast = incompleteDir cfg.root := hx
        rw [M.wp_bind, M.wp_ofIo]
        simp only [Res.elim_ok]
        rw [M.wp_onFail, M.wp_bind]
        refine M.wp_mono (Q := fun _ _ _ => True) ?_ fun x r _ _ => ?_
        · exact Prog.sep_all (aside_copyInF _ _ _ _ _ _)
        · cases x with
          | ok d => 
            simp only [Res.elim_ok]
            rw [M.wp_pure]
            simp only [Res.elim_ok]
            rintro y ⟨⟩
            exact hx
          | err e =>
            simp only [Res.elim_err]
            refine M.wp_mono ((aside_dropFile (htmp hx)).sep _) fun _ _ _ _ => ?_
            rintro y ⟨⟩
          | panic =>
            simp only [Res.elim_panic]
            refine M.wp_mono ((aside_dropFile (htmp hx)).sep _) fun _ _ _ _ => ?_
            rintro y ⟨⟩
  · rintro x r ⟨⟩ hx
    cases x <;> try trivial
    rename_i y
    obtain ⟨tmp, data⟩ := y
    have ht := htmp (hx _ rfl)
    have h1 : ∀ n, (checkUpload cfg oid n data).All (Aside cfg path) := by
      intro n
      have := aside_oidNew (cfg := cfg) (path := path) (hexEncode (cfg.sha data))
      unfold checkUpload
      all_ops
    have h2 : (finishUpload cfg oid tmp).All (Aside cfg path) := by
      unfold finishUpload fixPermissions
      refine .bind (.onFail (.bind (.op ?_) fun _ => .bind (.ofIo _) fun _ => .bind (.op ⟨ht, objPath_apart _⟩) fun _ => ?_) (aside_dropFile ht)) fun _ =>
        .bind (.op (exact_apart (objPath_apart _))) fun _ => .bind (.ofIo _) fun _ => .bind (.op (objPath_apart _)) fun _ => .ofIo _
      · intro e
        simp [objPath, halfLock, lockFile, List.prefix_append_right_inj] at e
      · all_ops
    exact M.All.sep (.bind (.onFail (h1 _) (aside_dropFile ht)) fun _ => .bind h2 fun _ => .pure _) _

theorem aside_sendStatus (st : Status) : (sendStatus st).All (Aside cfg path) := by
  have ob : ∀ b, (outBytes b).All (Aside cfg path) := fun b => by
    unfold outBytes; exact .bind (.op trivial) fun _ => .ofIo _
  have wc : ∀ cs, (writeChunks cs).All (Aside cfg path) := by
    intro cs
    induction cs with
    | nil => exact .pure _
    | cons c cs ih => exact .bind (.bind (ob _) fun _ => ob _) fun _ => ih
  have sa : ∀ ms, (sendAll ms).All (Aside cfg path) := by
    intro ms
    induction ms with
    | nil => exact .pure _
    | cons m ms ih => exact .bind (wc _) fun _ => ih
  have sf : sendFlush.All (Aside cfg path) := by
    unfold sendFlush; exact .bind (ob _) fun _ => .bind (.op trivial) fun _ => .ofIo _
  have se : ∀ b, (send b).All (Aside cfg path) := fun b => wc _
  have co : ∀ h, (copyOut h).All (Aside cfg path) := by
    intro h
    unfold copyOut
    refine .bind (.op trivial) fun x => ?_
    obtain ⟨cs, e⟩ := x
    refine .bind (sa _) fun _ => ?_
    cases e <;> first | exact .pure _ | exact .throw _
  unfold sendStatus sendDelim
  repeat' first
    | exact se _ | exact sa _ | exact sf | exact ob _ | exact co _ | exact .pure _
    | refine M.All.bind ?_ (fun _ => ?_)
    | split

theorem aside_sendCapabilities : sendCapabilities.All (Aside cfg path) := by
  unfold sendCapabilities send sendFlush outBytes
  refine .bind ?_ fun _ => .bind (.bind (.op trivial) fun _ => .ofIo _) fun _ => .bind (.op trivial) fun _ => .ofIo _
  generalize chunks _ _ = cs
  induction cs with
  | nil => exact .pure _
  | cons c cs ih => exact .bind (.bind (.bind (.op trivial) fun _ => .ofIo _) fun _ => .bind (.op trivial) fun _ => .ofIo _) fun _ => ih

theorem aside_mkdirs : (mkdirs (topDirs cfg.root)).All (Aside cfg path) := by
  have : ∀ ds : List Path, (∀ d ∈ ds, d ∈ topDirs cfg.root) → (mkdirs ds).All (Aside cfg path) := by
    intro ds
    induction ds with
    | nil => exact fun _ => .pure _
    | cons d ds ih =>
      intro hd
      unfold mkdirs
      refine .bind (.op ?_) fun _ => .bind (.ofIo _) fun _ => ih fun x hx => hd x (by simp [hx])
      intro e
      have hl := e.length_le
      have := hd d (by simp)
      simp only [topDirs, List.mem_cons, List.not_mem_nil, or_false] at this
      rcases this with rfl | rfl | rfl | rfl <;> simp [halfLock, lockFile] at hl
  exact this _ fun _ h => h

/-! ### Turns and sessions -/

theorem sep_handled {mode : Mode} {l rest1 hw : Bytes} {r : Rdr} {cmd : Bytes} {args : List Bytes}
    (hf : Frame (.data l) hw) (hi : r.input = hw ++ rest1) (hl : l ≠ [])
    (hwords : commandWords l = cmd :: args) (hq : cmd ≠ b!"quit")
    (hd : (dispatch cfg mode cmd args.head? { r with input := rest1 }).Sep (halfLock cfg path)) :
    (turn cfg mode r).Sep (halfLock cfg path) := by
  rw [turn_data cfg mode r _ l hl (readPacket_frame hf r rest1 hi)]
  simp only [hwords, List.head?_cons, Option.getD_some, List.tail_cons, hq, false_and, if_false]
  show M.wp (Logic.sep (halfLock cfg path)) _ _ () (fun _ _ _ => True)
  rw [M.wp_bind, M.wp_attempt]
  refine M.wp_mono (Q := fun _ _ _ => True) hd fun x r' _ _ => ?_
  cases x with
  | ok st => exact M.All.sep (.bind (aside_sendStatus _) fun _ => .pure _) _
  | err e => exact M.All.sep (.bind (aside_sendStatus _) fun _ => .pure _) _
  | panic => trivial

theorem sep_turn_means {mode : Mode} {q : Request} {ps : List Packet} {wire rest : Bytes} {r : Rdr}
    (hsha : ∀ b, (cfg.sha b).length = 32) (hq : Aloof cfg path (.ask q))
    (he : Spec.Means mode ps q) (hF : Frames ps wire) (hi : r.input = wire ++ rest) :
    (turn cfg mode r).Sep (halfLock cfg path) := by
  cases he with
  | @version _ l more items hl hn =>
    obtain ⟨v, u, rfl, hv, hu⟩ := frames_split (ps := [Packet.data l]) (by simpa using hF)
    rw [List.append_assoc] at hi
    obtain ⟨h1, h2⟩ := commandLine_words hl
    exact sep_handled (frames_singleton hv) hi h2 h1 (by decide) (Prog.sep_all (aside_versionCmd _))
  | @batch _ l kv items ls hl ha hh hb =>
    obtain ⟨v, u, rfl, hv, hu⟩ := frames_split (ps := [Packet.data l]) (by simpa using hF)
    rw [List.append_assoc] at hi
    obtain ⟨h1, h2⟩ := commandLine_words hl
    refine sep_handled (frames_singleton hv) hi h2 h1 (by decide) ?_
    cases mode with
    | upload => exact Prog.sep_all (aside_batchCmd _ _ _)
    | download => exact Prog.sep_all (aside_batchCmd _ _ _)
  | @put l more kv oid sz n ds t hl ho ha hs hn hds ht =>
    obtain ⟨v, u, rfl, hv, hu⟩ := frames_split (ps := [Packet.data l]) (by simpa using hF)
    rw [List.append_assoc] at hi
    obtain ⟨h1, h2⟩ := commandLine_words hl
    exact sep_handled (frames_singleton hv) hi h2 h1 (by decide) (sep_putObject _ _)
  | @verify l more kv oid sz n hl ho ha hs hn =>
    obtain ⟨v, u, rfl, hv, hu⟩ := frames_split (ps := [Packet.data l]) hF
    rw [List.append_assoc] at hi
    obtain ⟨h1, h2⟩ := commandLine_words hl
    exact sep_handled (frames_singleton hv) hi h2 h1 (by decide) (Prog.sep_all (aside_verifyObject _ _))
  | @get l more kv oid hl ho ha =>
    obtain ⟨v, u, rfl, hv, hu⟩ := frames_split (ps := [Packet.data l]) hF
    rw [List.append_assoc] at hi
    obtain ⟨h1, h2⟩ := commandLine_words hl
    exact sep_handled (frames_singleton hv) hi h2 h1 (by decide) (Prog.sep_all (aside_getObject _ _))
  | @lock l kv p ref hl ha hpa href =>
    obtain ⟨v, u, rfl, hv, hu⟩ := frames_split (ps := [Packet.data l]) hF
    rw [List.append_assoc] at hi
    obtain ⟨h1, h2⟩ := commandLine_words hl
    exact sep_handled (frames_singleton hv) hi h2 h1 (by decide)
      (sep_lockCmd (r := { r with input := u ++ rest }) hsha ha hpa href hu rfl hq)
  | @listLocks _ l kv limit hl ha hlim =>
    obtain ⟨v, u, rfl, hv, hu⟩ := frames_split (ps := [Packet.data l]) hF
    rw [List.append_assoc] at hi
    obtain ⟨h1, h2⟩ := commandLine_words hl
    cases hpa : lookup kv b!"path" with
    | none => rw [hpa] at hq; exact hq.elim
    | some p =>
      exact sep_handled (frames_singleton hv) hi h2 h1 (by decide)
        (sep_listLocks (r := { r with input := u ++ rest }) hsha ha hpa hu rfl)
  | @unlock l id more items hl hid hn =>
    obtain ⟨v, u, rfl, hv, hu⟩ := frames_split (ps := [Packet.data l]) (by simpa using hF)
    rw [List.append_assoc] at hi
    obtain ⟨h1, h2⟩ := commandLine_words hl
    exact sep_handled (frames_singleton hv) hi h2 h1 (by decide) (Prog.sep_all (aside_unlockCmd hsha hid _))

variable {ch : Nat → Choice} {mode : Mode}

variable {P : List Bytes}

theorem halves {α : Type} {p : Prog α} (hp : ∀ path ∈ P, p.Sep (halfLock cfg path)) :
    ∀ h ∈ P.map (halfLock cfg), p.Sep h := by
  intro h hm
  obtain ⟨x, hx, rfl⟩ := List.mem_map.mp hm
  exact hp x hx

theorem apart_bind {α β : Type} {m : M α} {f : α → M β} {r : Rdr} {w : World} {Q} {P : Res α → Rdr → World → Prop}
    (hm : m.wp (Logic.apart ch H) r w P) (k : ∀ x r' w', P x r' w' → x.elim (fun a => (f a).wp (Logic.apart ch H) r' w' Q)
      (fun e => Q (.err e) r' w') (Q .panic r' w')) : (m >>= f).wp (Logic.apart ch H) r w Q := by
  rw [M.wp_bind]
  exact M.wp_mono hm k

theorem apart_talk (hc : Calm ch) (hsha : ∀ b, (cfg.sha b).length = 32)
    (hclk : ∀ t, Clock cfg ch t → TimeOk cfg t) {qs : List Said} {wire : Bytes} (hs : Talk mode qs wire) :
    (∀ path ∈ P, ∀ q ∈ qs, Aloof cfg path q) →
    ∀ (s : Store) (f : Nat) (r : Rdr) (w : World), r.input = wire → r.pending = [] →
    r.fin.kind = .unexpectedEof → wire.length < f → Rep cfg s w.fs → Ready cfg w.fs →
    (processF cfg mode f).wp (Logic.apart ch (P.map (halfLock cfg))) r w (fun x _ w' => x = .ok () ∧ ∃ ws s',
      w'.out = w.out ++ ws.flatten ∧ Conversation cfg mode ch s qs ws s' ∧ Rep cfg s' w'.fs) := by
  have step : ∀ {q : Said} {qs : List Said} {w1 ws : Bytes}, 4 ≤ w1.length →
      (∀ (s : Store) (r : Rdr) (w : World), r.input = w1 ++ ws → r.pending = [] → Rep cfg s w.fs → Ready cfg w.fs →
        (turn cfg mode).wp (Logic.apart ch (P.map (halfLock cfg))) r w
          (TurnReplied cfg mode ch s q .again { r with input := ws } w.out)) →
      (∀ (s : Store) (f : Nat) (r : Rdr) (w : World), r.input = ws → r.pending = [] →
        r.fin.kind = .unexpectedEof → ws.length < f → Rep cfg s w.fs → Ready cfg w.fs →
        (processF cfg mode f).wp (Logic.apart ch (P.map (halfLock cfg))) r w (fun x _ w' => x = .ok () ∧ ∃ ws s',
          w'.out = w.out ++ ws.flatten ∧ Conversation cfg mode ch s qs ws s' ∧ Rep cfg s' w'.fs)) →
      (∀ (s : Store) (f : Nat) (r : Rdr) (w : World), r.input = w1 ++ ws → r.pending = [] →
        r.fin.kind = .unexpectedEof → (w1 ++ ws).length < f → Rep cfg s w.fs → Ready cfg w.fs →
        (processF cfg mode f).wp (Logic.apart ch (P.map (halfLock cfg))) r w (fun x _ w' => x = .ok () ∧ ∃ ws s',
          w'.out = w.out ++ ws.flatten ∧ Conversation cfg mode ch s (q :: qs) ws s' ∧ Rep cfg s' w'.fs)) := by
    intro q qs w1 ws hlen one ih s f r w hi hp hfin hf hr hd
    obtain ⟨f, rfl⟩ : ∃ g, f = g + 1 := ⟨f - 1, by omega⟩
    rw [processF]
    refine apart_bind (one s r w hi hp hr hd) ?_
    rintro x r' w' ⟨rfl, rfl, t, t', b, ht, ht', h1, h2, h3, h4⟩
    simp only [Res.elim_ok]
    refine M.wp_mono (ih _ f _ w' rfl hp hfin (by simp only [List.length_append] at hf; omega) h3 h4) ?_
    rintro x r2 w2 ⟨rfl, b2, s2, g1, g2, g3⟩
    refine ⟨rfl, b :: b2, s2, by rw [g1, h1, List.append_assoc, List.flatten_cons], ?_, g3⟩
    exact .cons ht ht' rfl h2 g2
  have long : ∀ {ps : List Packet} {w : Bytes}, ps ≠ [] → Frames ps w → 4 ≤ w.length := by
    intro ps w hne hF
    have := frames_length hF
    have := List.length_pos_iff.mpr hne
    omega
  induction hs with
  | eof =>
    intro _ s f r w hi hp hfin hf hr hd
    obtain ⟨f, rfl⟩ : ∃ g, f = g + 1 := ⟨f - 1, by omega⟩
    rw [processF]
    refine apart_bind (P := fun x r' w' => x = .ok .done ∧ r' = r ∧ w' = w) ?_ ?_
    · have h : r.readPacket = (.err (Err.ofIo r.fin), r) := by
        obtain ⟨i, p, f, c⟩ := r
        simp only at hi
        subst hi
        rfl
      unfold turn
      refine apart_bind (P := fun x r2 w2 => x = .ok (.error (Err.ofIo r.fin)) ∧ r2 = r ∧ w2 = w) ?_ ?_
      · rw [M.wp_attempt, M.wp_rdr, h]
        exact show _ ∧ _ ∧ _ from ⟨rfl, rfl, rfl⟩
      rintro x r2 w2 ⟨rfl, rfl, rfl⟩
      have hk : (Err.ofIo r2.fin).ioKind = .unexpectedEof := hfin
      simp only [Res.elim_ok, hk, if_true]
      exact ⟨rfl, rfl, rfl⟩
    rintro x r' w' ⟨rfl, rfl, rfl⟩
    exact ⟨rfl, [], s, by simp, .nil, hr⟩
  | @quit l w1 rest hl hF =>
    intro _ s f r w hi hp hfin hf hr hd
    obtain ⟨f, rfl⟩ : ∃ g, f = g + 1 := ⟨f - 1, by omega⟩
    rw [processF]
    refine apart_bind (Prog.sep_apart (halves fun p _ => ?_) (runs_turn_quit hc hl hF hi hr hd)) ?_
    · obtain ⟨h1, h2⟩ := commandLine_words hl
      rw [turn_data cfg mode r _ l h2 (readPacket_frame (frames_singleton hF) r rest hi)]
      simp only [h1, List.head?_cons, Option.getD_some, List.tail_cons, List.head?_nil, and_self, if_true]
      exact M.All.sep (.bind (aside_sendStatus _) fun _ => .pure _) _
    rintro x r' w' ⟨rfl, rfl, t, t', b, ht, ht', h1, h2, h3, h4⟩
    exact ⟨rfl, [b], _, by simp [h1], .cons ht ht' rfl h2 .nil, h3⟩
  | ask he hF _ ih =>
    intro hq
    exact step (long (means_ne he) hF) (fun s r w hi hp hr hd =>
      Prog.sep_apart (halves fun p hp => sep_turn_means hsha (hq p hp _ (List.mem_cons_self ..)) he hF hi)
        (runs_turn_means hc hsha hclk he hF hi hp hr hd)) (ih fun p hp q hm => hq p hp q (List.mem_cons_of_mem _ hm))
  | nonsense he hF _ ih =>
    intro hq
    refine step (long (denied_ne he) hF) (fun s r w hi hp hr hd =>
      Prog.sep_apart (halves fun p _ => ?_) (runs_turn_denied hc he hF hi hr hd))
      (ih fun p hp q hm => hq p hp q (List.mem_cons_of_mem _ hm))
    rw [turn_denied he hF hi]
    exact M.All.sep (.bind (aside_sendStatus _) fun _ => .pure _) _

theorem Alike.clock {ch' : Nat → Choice} (ha : Alike ch ch') (t : Int) : Clock cfg ch' t ↔ Clock cfg ch t := by
  unfold Clock
  simp only [fun n => (ha n).2]

theorem Spec.Conversation.alike {ch' : Nat → Choice} (ha : Alike ch ch') {s s' : Store} {qs : List Said} {ws : List Bytes}
    (hv : Conversation cfg mode ch' s qs ws s') : Conversation cfg mode ch s qs ws s' := by
  induction hv with
  | nil => exact .nil
  | cons h1 h2 h3 h4 _ ih => exact .cons ((ha.clock _).mp h1) ((ha.clock _).mp h2) h3 h4 ih

theorem apart_program (hc : Calm ch) (hsha : ∀ b, (cfg.sha b).length = 32) (hclk : ∀ t, Clock cfg ch t → TimeOk cfg t)
    {s : Store} {qs : List Said} {w : World} {r : Rdr} (hs : Talk mode qs r.input) (hq : ∀ path ∈ P, ∀ q ∈ qs, Aloof cfg path q)
    (hp : r.pending = []) (hfin : r.fin.kind = .unexpectedEof) (hr : Rep cfg s w.fs) :
    (runProgram cfg (Mode.operation mode)).wp (Logic.apart ch (P.map (halfLock cfg))) r w (fun x _ w' => x = .ok () ∧ ∃ ws s',
      w'.out = w.out ++ b!"000eversion=1\n0000" ++ ws.flatten ∧ Conversation cfg mode ch s qs ws s' ∧ Rep cfg s' w'.fs) := by
  unfold runProgram
  have hmk : ∀ h ∈ P.map (halfLock cfg), (createDirectories cfg r).Sep h := halves fun p _ => M.All.sep aside_mkdirs r
  have hmk' : (createDirectories cfg).wp (Logic.apart ch (P.map (halfLock cfg))) r w (fun x r' w' => x = .ok () ∧ r' = r ∧
      w'.out = w.out ∧ Rep cfg s w'.fs ∧ Ready cfg w'.fs) := Prog.sep_apart hmk (runs_createDirectories hc hr)
  refine apart_bind hmk' ?_
  rintro x r' w1 ⟨rfl, rfl, e1, hr1, hd1⟩
  simp only [Res.elim_ok]
  have hcp : sendCapabilities.wp (Logic.apart ch (P.map (halfLock cfg))) r' w1 (fun x r2 w' => x = .ok () ∧ r2 = r' ∧
      w'.fs = w1.fs ∧ w'.out = w1.out ++ (encMsg b!"version=1\n" ++ b!"0000")) :=
    Prog.sep_apart (halves fun p _ => M.All.sep aside_sendCapabilities r') (prints_sendCapabilities ch r' w1 hc)
  refine apart_bind hcp ?_
  rintro x r2 w2 ⟨rfl, rfl, e2, e3⟩
  have hcap : encMsg b!"version=1\n" ++ b!"0000" = b!"000eversion=1\n0000" := by decide
  rw [hcap] at e3
  simp only [Res.elim_ok]
  have main := apart_talk hc hsha hclk hs hq s (r2.input.length + 1) r2 w2 rfl hp hfin (by omega)
    (by rw [e2]; exact hr1) (by rw [e2]; exact hd1)
  have main' : (processF cfg mode (r2.input.length + 1)).wp (Logic.apart ch (P.map (halfLock cfg))) r2 w2
      (fun x _ w' => x = .ok () ∧ ∃ ws s', w'.out = w.out ++ b!"000eversion=1\n0000" ++ ws.flatten ∧
      Conversation cfg mode ch s qs ws s' ∧ Rep cfg s' w'.fs) := by
    refine M.wp_mono main ?_
    rintro x r3 w3 ⟨h1, ws, s', h2, h3⟩
    exact ⟨h1, ws, s', by rw [h2, e3, e1], h3⟩
  cases mode with
  | upload => exact main'
  | download => exact main'

end Verif
