import Verif.Spec.Leftover
import Verif.Props.Power
/-!
Property C86: temporary files of uploads that are left behind.
-/
namespace Verif
open Spec

/-- If the program ends by itself, it has no temporary file then. -/
def NeatEnd : Prog Exit → Own → Prop
  | .ret x, o => x = ⟨137, []⟩ ∨ o.tmp = none
  | .call op k, o => ∀ x, NeatEnd (k x) (o.upd op x)

theorem NeatEnd.of_wp {cfg : Cfg} : ∀ {p : Prog Exit} {o : Own}, p.wp (Logic.own cfg) o (fun _ s => s.tmp = none) → NeatEnd p o
  | .ret _, _, h => .inr h
  | .call _ _, _, h => fun x => NeatEnd.of_wp (h.2 x trivial)

/-- The temporary files that are there. -/
structure Strewn (root : Path) (fs0 : FS) (tr : List (Nat × Event)) (s : Sys) (ow : Nat → Own) : Prop where
  neat : ∀ i, NeatEnd (s.procs i) (ow i)
  part : ∀ n ino, s.fs.get (partFile root n) = some ino → fs0.get (partFile root n) = some ino ∨
    (∃ i e, (i, (⟨.unlink (partFile root n), .error e⟩ : Event)) ∈ tr) ∨
    ∃ i d, (ow i).tmp = some (partFile root n, ino, d) ∧ Made root tr i (partFile root n) ino

theorem partFile_eq (root : Path) (n : Bytes) : partFile root n = incompleteDir root ++ [n] := by
  simp [partFile, incompleteDir]

theorem Spec.Made.mono {root : Path} {tr tr' : List (Nat × Event)} {i : Nat} {p : Path} {ino : Ino} (h : Made root tr i p ino) :
    Made root (tr ++ tr') i p ino := by
  obtain ⟨pre, uid, h⟩ := h
  exact ⟨pre, uid, by simp [h]⟩

theorem wrote_tmp (o : Own) (i : Ino) (b : Bytes) (ok : Bool) {p : Path} {ino : Ino} {d : Option Bytes}
    (h : o.tmp = some (p, ino, d)) : ∃ d', (o.wrote i b ok).tmp = some (p, ino, d') := by
  unfold Own.wrote
  rw [h]
  by_cases hj : ino = i <;> simp [hj, h]

theorem setProc_neat {s : Sys} {ow : Nat → Own} (h : ∀ i, NeatEnd (s.procs i) (ow i)) {i : Nat} {p : Prog Exit} {o : Own}
    (hp : NeatEnd p o) : ∀ j, NeatEnd (s.setProc i p j) (updAt ow i o j) := by
  intro j
  by_cases hj : j = i
  · subst hj; simpa [Sys.setProc, updAt] using hp
  · simpa [Sys.setProc, updAt, hj] using h j

theorem Strewn.move {root : Path} {sha : Bytes → Bytes} {fs0 : FS} {tr : List (Nat × Event)} {s s' : Sys} {ow ow' : Nat → Own}
    {l : Option (Nat × Event)} (h : Strewn root fs0 tr s ow) (hg : Good root sha s ow) (hm : Moves root sha s ow l s' ow') :
    Strewn root fs0 (tr ++ l.toList) s' ow' := by
  have quiet : ∀ {fs' : FS} {ow' : Nat → Own}, (∀ n, fs'.get (partFile root n) = s.fs.get (partFile root n)) →
      (∀ i p ino d, (ow i).tmp = some (p, ino, d) → ∃ d', (ow' i).tmp = some (p, ino, d')) →
      ∀ n ino, fs'.get (partFile root n) = some ino → fs0.get (partFile root n) = some ino ∨
        (∃ i e, (i, (⟨.unlink (partFile root n), .error e⟩ : Event)) ∈ tr ++ l.toList) ∨
        ∃ i d, (ow' i).tmp = some (partFile root n, ino, d) ∧ Made root (tr ++ l.toList) i (partFile root n) ino := by
    intro fs' ow' h1 h2 n ino hn
    rw [h1] at hn
    rcases h.part n ino hn with h | ⟨i, e, h⟩ | ⟨i, d, h, hm⟩
    · exact .inl h
    · exact .inr (.inl ⟨i, e, by simp [h]⟩)
    · obtain ⟨d', h⟩ := h2 _ _ _ _ h
      exact .inr (.inr ⟨i, d', h, Spec.Made.mono hm⟩)
  cases hm with
  | writeSome cfg i ino b n k hp =>
    refine ⟨setProc_neat h.neat ?_, quiet (fun _ => rfl) fun j p ino' d hj => ?_⟩
    · have := h.neat i
      rw [hp] at this
      intro x
      rw [Own.upd_write_parts]
      exact this x
    · by_cases hji : j = i
      · subst hji
        simpa [updAt, Own.base] using wrote_tmp _ ino (b.take n) true hj
      · exact ⟨d, by simpa [updAt, hji] using hj⟩
  | mkdirSome cfg i p n e k hp => exact ⟨h.neat, quiet (fun _ => rfl) fun _ _ _ d h => ⟨d, h⟩⟩
  | kill i =>
    refine ⟨fun j => ?_, quiet (fun _ => rfl) fun _ _ _ d h => ⟨d, h⟩⟩
    by_cases hj : j = i
    · subst hj; simp [Sys.setProc, NeatEnd]
    · simpa [Sys.setProc, hj] using h.neat j
  | elsewhere fs' he =>
    exact ⟨h.neat, quiet (fun n => he.get (near_of_prefix ⟨_, rfl⟩)) fun _ _ _ d h => ⟨d, h⟩⟩
  | call cfg i o k c hp hr hs hm =>
    subst hr
    refine ⟨setProc_neat h.neat (by have := h.neat i; rw [hp] at this; exact this _), ?_⟩
    intro n ino hn
    have keep : s.fs.get (partFile cfg.root n) = some ino →
        (∀ d, (ow i).tmp = some (partFile cfg.root n, ino, d) →
          ∃ d', ((ow i).base o (sem c s.fs o).2).tmp = some (partFile cfg.root n, ino, d')) →
        fs0.get (partFile cfg.root n) = some ino ∨
        (∃ i' e, (i', (⟨.unlink (partFile cfg.root n), .error e⟩ : Event)) ∈ tr ++ (some (i, (⟨o, (sem c s.fs o).2⟩ : Event))).toList) ∨
        ∃ j d, (updAt ow i ((ow i).upd o (sem c s.fs o).2) j).tmp = some (partFile cfg.root n, ino, d) ∧
          Made cfg.root (tr ++ (some (i, (⟨o, (sem c s.fs o).2⟩ : Event))).toList) j (partFile cfg.root n) ino := by
      intro h1 h2
      rcases h.part n ino h1 with h | ⟨i, e, h⟩ | ⟨j, d, h, hj⟩
      · exact .inl h
      · exact .inr (.inl ⟨i, e, by simp [h]⟩)
      · by_cases hji : j = i
        · subst hji
          obtain ⟨d', h⟩ := h2 _ h
          exact .inr (.inr ⟨j, d', by simpa [updAt] using h, Spec.Made.mono hj⟩)
        · exact .inr (.inr ⟨j, d, by simpa [updAt, hji] using h, Spec.Made.mono hj⟩)
    have nO : ∀ oid, partFile cfg.root n ≠ objPath cfg.root oid := fun oid e => by
      rw [partFile_eq] at e; exact incomplete_ne_obj _ _ _ e
    have nL : ∀ x, partFile cfg.root n ≠ locksDir cfg.root ++ [x] := fun x e => by
      rw [partFile_eq] at e; exact locks_ne_incomplete _ _ _ e.symm
    revert keep hn
    cases o with
    | createTemp d pre uid =>
      obtain ⟨rfl, ht⟩ := hm
      simp only [sem]; split
      · exact fun hn keep => keep hn fun d hd => ⟨d, hd⟩
      · split
        · rw [FS.get_create]
          split
          · rename_i e
            intro hn _
            cases hn
            exact .inr (.inr ⟨i, some [], by simp [updAt, Own.base, e], pre, uid, by simp [e, incompleteDir]⟩)
          · exact fun hn keep => keep hn fun d hd => by rw [ht] at hd; cases hd
        · exact fun hn keep => keep hn fun d hd => ⟨d, hd⟩
    | createNew p uid =>
      obtain ⟨x, rfl⟩ := hm
      simp only [sem]; split
      · exact fun hn keep => keep hn fun d hd => ⟨d, hd⟩
      · split
        · exact fun hn keep => keep hn fun d hd => ⟨d, hd⟩
        · split
          · have : partFile cfg.root n ≠ lockTemp cfg x := nL _
            rw [FS.get_create, if_neg this]
            exact fun hn keep => keep hn fun d hd => ⟨d, hd⟩
          · exact fun hn keep => keep hn fun d hd => ⟨d, hd⟩
    | rename a b =>
      obtain ⟨ino', d', ht, hv, rfl⟩ := hm
      simp only [sem]
      split
      · exact fun hn keep => keep hn fun d hd => ⟨d, hd⟩
      · split
        · exact fun hn keep => keep hn fun d hd => ⟨d, hd⟩
        · split
          · exact fun hn keep => keep hn fun d hd => ⟨d, hd⟩
          · split
            · exact fun hn keep => keep hn fun d hd => ⟨d, hd⟩
            · split
              · rename_i j hj _ _ e
                have := (hg.1.tmp i a ino' _ ht).1
                rw [hj] at this
                cases this
                exact absurd (.inl ⟨_, _, ht⟩) (hg.1.objs _ _ e i)
              · rw [FS.get_setName, if_neg (nO _), FS.get_delName]
                split
                · exact fun hn _ => by cases hn
                · rename_i hne
                  exact fun hn keep => keep hn fun d hd => by
                    rw [ht] at hd
                    exact absurd (congrArg (fun x => x.map Prod.fst) hd) (by simpa using fun e => hne e.symm)
    | link a b =>
      obtain ⟨x, t, j, rfl, rfl, _⟩ := hm
      simp only [sem]; split
      · exact fun hn keep => keep hn fun d hd => ⟨d, hd⟩
      · split
        · exact fun hn keep => keep hn fun d hd => ⟨d, hd⟩
        · split
          · exact fun hn keep => keep hn fun d hd => ⟨d, hd⟩
          · split
            · exact fun hn keep => keep hn fun d hd => ⟨d, hd⟩
            · have : partFile cfg.root n ≠ lockPath cfg x := nL _
              rw [FS.get_setName, if_neg this]
              exact fun hn keep => keep hn fun d hd => ⟨d, hd⟩
    | unlink p =>
      by_cases hpl : p = partFile cfg.root n
      · subst hpl
        simp only [sem]; split
        · exact fun hn _ => .inr (.inl ⟨i, _, List.mem_append_right _ (List.mem_singleton.mpr rfl)⟩)
        · split
          · rw [FS.get_delName, if_pos rfl]
            exact fun hn _ => by cases hn
          · split <;> exact fun hn _ => .inr (.inl ⟨i, _, List.mem_append_right _ (List.mem_singleton.mpr rfl)⟩)
      · have ho : ∀ d, (ow i).tmp = some (partFile cfg.root n, ino, d) →
            ((ow i).removed p).tmp = some (partFile cfg.root n, ino, d) := fun d hd => by
          unfold Own.removed
          rw [hd]
          dsimp only
          rw [if_neg (fun e => hpl e.symm)]
          exact hd
        simp only [sem]; split
        · exact fun hn keep => keep hn fun d hd => ⟨d, ho d hd⟩
        · split
          · rw [FS.get_delName, if_neg (fun e => hpl e.symm)]
            exact fun hn keep => keep hn fun d hd => ⟨d, ho d hd⟩
          · split <;> exact fun hn keep => keep hn fun d hd => ⟨d, ho d hd⟩
    | write j b =>
      simp only [sem]
      split <;> exact fun hn keep => keep hn fun d hd => wrote_tmp _ _ _ _ hd
    | mkdirAll p => simp only [sem]; (repeat' split) <;> exact fun hn keep => keep hn fun d hd => ⟨d, hd⟩
    | chmod p m => simp only [sem]; (repeat' split) <;> exact fun hn keep => keep hn fun d hd => ⟨d, hd⟩
    | stat p => simp only [sem]; (repeat' split) <;> exact fun hn keep => keep hn fun d hd => ⟨d, hd⟩
    | openRead p => simp only [sem]; (repeat' split) <;> exact fun hn keep => keep hn fun d hd => ⟨d, hd⟩
    | fstat p => simp only [sem]; (repeat' split) <;> exact fun hn keep => keep hn fun d hd => ⟨d, hd⟩
    | readAll p => simp only [sem]; (repeat' split) <;> exact fun hn keep => keep hn fun d hd => ⟨d, hd⟩
    | readDir p => simp only [sem]; (repeat' split) <;> exact fun hn keep => keep hn fun d hd => ⟨d, hd⟩
    | now => exact fun hn keep => keep hn fun d hd => ⟨d, hd⟩
    | out b => simp only [sem]; (repeat' split) <;> exact fun hn keep => keep hn fun d hd => ⟨d, hd⟩
    | flush => simp only [sem]; (repeat' split) <;> exact fun hn keep => keep hn fun d hd => ⟨d, hd⟩

theorem leaves_steps {root : Path} {sha : Bytes → Bytes} {s0 s : Sys} {tr : List (Nat × Event)} (h0 : Start root sha s0)
    (h : Steps root s0 tr s) : ∃ ow, Good root sha s ow ∧ Strewn root s0.fs tr s ow := by
  induction h with
  | refl =>
    refine ⟨_, Good.start h0, fun i => ?_, fun n ino h => .inl h⟩
    obtain ⟨cfg, op, r, hp, _, _⟩ := h0.procs i
    rw [hp]
    exact NeatEnd.of_wp (own_mainProg cfg op r)
  | tail _ hl ih =>
    obtain ⟨ow, hg, h⟩ := ih
    obtain ⟨ow', hg', _, _, hm⟩ := hg.move hl
    exact ⟨ow', hg', h.move hg hm⟩

/-- **C86.** At every moment, whatever fails, whoever is killed and however many servers are at work, each file in the
directory of temporary files was there before, or the OS refused to remove it, or it is the one file (`one i`) that a
server made which is still running or was killed. -/
theorem C86_left {root : Path} {sha : Bytes → Bytes} {s0 s : Sys} {tr : List (Nat × Event)} (h0 : Start root sha s0)
    (h : Steps root s0 tr s) : ∃ one : Nat → Option Path, ∀ n ino, s.fs.get (partFile root n) = some ino →
      s0.fs.get (partFile root n) = some ino ∨
      (∃ i e, (i, (⟨.unlink (partFile root n), .error e⟩ : Event)) ∈ tr) ∨
      ∃ i, one i = some (partFile root n) ∧ Made root tr i (partFile root n) ino ∧ Unfinished s i := by
  obtain ⟨ow, _, hl⟩ := leaves_steps h0 h
  refine ⟨fun i => (ow i).tmp.map Prod.fst, fun n ino hn => ?_⟩
  rcases hl.part n ino hn with h | h | ⟨i, d, h, hm⟩
  · exact .inl h
  · exact .inr (.inl h)
  · refine .inr (.inr ⟨i, by simp [h], hm, fun x hx => ?_⟩)
    have := hl.neat i
    rw [hx] at this
    rcases this with e | e
    · exact e
    · rw [h] at e; cases e

/-- **C86**, the number: if the directory of temporary files was empty, and no removal of a temporary file failed, there
are at most as many temporary files as servers that are running or were killed (and made one). -/
theorem C86_count {root : Path} {sha : Bytes → Bytes} {s0 s : Sys} {tr : List (Nat × Event)} (h0 : Start root sha s0)
    (h : Steps root s0 tr s) (he : ∀ n, s0.fs.get (partFile root n) = none)
    (hu : ∀ i n e, (i, (⟨.unlink (partFile root n), .error e⟩ : Event)) ∉ tr) {ns : List Bytes} (hd : ns.Nodup)
    (hn : ∀ n ∈ ns, (s.fs.get (partFile root n)).isSome) :
    ∃ is : List Nat, is.Nodup ∧ is.length = ns.length ∧ ∀ i ∈ is, Unfinished s i ∧ ∃ p ino, Made root tr i p ino := by
  obtain ⟨one, h1⟩ := C86_left h0 h
  have key : ∀ n ∈ ns, ∃ i, one i = some (partFile root n) ∧ Unfinished s i ∧ ∃ p ino, Made root tr i p ino := by
    intro n hm
    obtain ⟨ino, hi⟩ := Option.isSome_iff_exists.mp (hn n hm)
    rcases h1 n ino hi with h | ⟨i, e, h⟩ | ⟨i, h, hm, hf⟩
    · rw [he] at h; cases h
    · exact absurd h (hu i n e)
    · exact ⟨i, h, hf, _, _, hm⟩
  have inj : ∀ {a b : Bytes}, partFile root a = partFile root b → a = b := fun e => by
    simpa [partFile] using List.append_cancel_left e
  clear hn
  suffices ∃ is : List Nat, is.Nodup ∧ is.length = ns.length ∧
      ∀ i ∈ is, (∃ n ∈ ns, one i = some (partFile root n)) ∧ Unfinished s i ∧ ∃ p ino, Made root tr i p ino by
    obtain ⟨is, h1, h2, h3⟩ := this
    exact ⟨is, h1, h2, fun i hi => (h3 i hi).2⟩
  induction ns with
  | nil => exact ⟨[], List.nodup_nil, rfl, by simp⟩
  | cons n ns ih =>
    rw [List.nodup_cons] at hd
    obtain ⟨is, h2, h3, h4⟩ := ih hd.2 fun m hm => key m (by simp [hm])
    obtain ⟨i, h5, h6⟩ := key n (by simp)
    refine ⟨i :: is, List.nodup_cons.mpr ⟨fun hi => ?_, h2⟩, by simp [h3], fun j hj => ?_⟩
    · obtain ⟨⟨m, hm, h7⟩, _⟩ := h4 i hi
      rw [h5] at h7
      exact hd.1 (inj (Option.some.inj h7) ▸ hm)
    · rcases List.mem_cons.mp hj with rfl | hj
      · exact ⟨⟨n, by simp, h5⟩, h6⟩
      · obtain ⟨⟨m, hm, h7⟩, h8⟩ := h4 j hj
        exact ⟨⟨m, by simp [hm], h7⟩, h8⟩

namespace Tests

/-- Every process is a server that is sent an object. -/
def uploading : Sys := ⟨fs0, fun _ => server cfg b!"upload" (enc (putA [b!"abc123"]))⟩
theorem uploading_start : Start cfg.root cfg.sha uploading :=
  ⟨fun _ => ⟨_, _, _, rfl, rfl, rfl⟩, (by intro p i h; cases h), (by intro p i _ h; cases h)⟩

/-- Server 0 makes its temporary file. Then server 1 makes one, and server 2 comes to its end. -/
def twoParts : Sys × List (Nat × Event) :=
  uploading.exec (List.replicate 9 (0, Choice.none) ++ List.replicate 9 (1, Choice.none) ++ List.replicate 60 (2, Choice.none))

/-- Non-vacuity of `C86_left` and `C86_count`: server 0 is killed then; there are two temporary files. -/
example : Steps cfg.root uploading (twoParts.2 ++ []) ⟨twoParts.1.fs, twoParts.1.setProc 0 (.ret ⟨137, []⟩)⟩ :=
  (Sys.exec_steps ..).tail (.kill 0)
example : (twoParts.1.fs.names.filter fun x => x.1.dropLast == cfg.root ++ [b!"incomplete"]).length = 2 ∧
    (twoParts.1.fs.get (partFile cfg.root oidA)).isSome = true ∧
    (match twoParts.1.procs 2 with | .ret x => x.code == 0 | _ => false) = true ∧
    twoParts.1.fs.content (objectFile cfg.root oidA) = some b!"abc123" := by decide +kernel

/-- A removal that fails: the data is wrong, the OS refuses to remove the temporary file, and it is left behind by a server
that comes to its end. -/
def refusing : Sys := ⟨fs0, fun _ => server cfg b!"upload" (enc (putA [b!"abc124"]))⟩
def notRemoved : Sys × List (Nat × Event) :=
  refusing.exec (List.replicate 10 (0, Choice.none) ++ [(0, { Choice.none with fault := some eio })] ++ List.replicate 60 (0, Choice.none))
example : (notRemoved.1.fs.get (partFile cfg.root oidA)).isSome = true ∧
    notRemoved.2.any (fun e => match e.2 with | ⟨.unlink p, .error _⟩ => p == partFile cfg.root oidA | _ => false) = true ∧
    (match notRemoved.1.procs 0 with | .ret x => x.code == 0 | _ => false) = true := by decide +kernel

end Tests

end Verif
