import Verif.Model.Pieces
import Verif.Props.System
/-!
**C80**: it makes no difference whether a file is read in one call or piece by piece.
-/
namespace Verif
open Spec

/-- Pieces, none empty, are what one gets from reads of their sizes. -/
theorem cutChunks_pieces : ∀ (ps : List Bytes) (rest : Bytes), (∀ d ∈ ps, d ≠ []) →
    cutChunks (ps.map (fun d => d.length - 1)) (ps.flatten ++ rest) = ps ++ cutChunks [] rest
  | [], rest, _ => by simp
  | d :: ps, rest, h => by
    have hd : d ≠ [] := h d (by simp)
    have hl : d.length - 1 + 1 = d.length := by
      have := List.length_pos_iff.mpr hd
      omega
    have hne : d ++ (ps.flatten ++ rest) ≠ [] := by simp [hd]
    have ih := cutChunks_pieces ps rest fun d hd => h d (by simp [hd])
    rw [List.map_cons, List.flatten_cons, List.append_assoc, List.cons_append, ← ih]
    show (if _ then _ else _) = _
    rw [if_neg hne, hl, List.take_left, List.drop_left]

/-- A call never takes away from the content of a file. -/
theorem sem_grows (c : Choice) (fs : FS) (o : Op) {j : Ino} (hj : j < fs.next) :
    (fs.inodes j).data <+: ((sem c fs o).1.inodes j).data ∧ fs.next ≤ (sem c fs o).1.next := by
  have hne : j ≠ fs.next := Nat.ne_of_lt hj
  cases o <;> simp only [sem] <;> repeat' split
  all_goals first
    | exact ⟨List.prefix_refl _, Nat.le_refl _⟩
    | (simp only [FS.create, if_neg hne]; exact ⟨List.prefix_refl _, Nat.le_succ _⟩)
    | (simp only [FS.append, FS.setInode]
       split
       · subst_vars; exact ⟨by simp, Nat.le_refl _⟩
       · exact ⟨List.prefix_refl _, Nat.le_refl _⟩)

/-- Nor does any step, from a file of the repository. -/
theorem step_grows {root : Path} {s s' : Sys} {l : Option (Nat × Event)} (h : Step root s l s') {j : Ino}
    (hj : j < s.fs.next) : s.fs.next ≤ s'.fs.next ∧
      (near root (s.fs.inodes j).born = true → (s.fs.inodes j).data <+: (s'.fs.inodes j).data) := by
  cases h with
  | call i o k c hp =>
    have := sem_grows c s.fs o hj
    exact ⟨this.2, fun _ => this.1⟩
  | writeSome i ino b n k hp =>
    have := sem_grows Choice.none s.fs (.write ino (b.take n)) hj
    exact ⟨this.2, fun _ => this.1⟩
  | mkdirSome i p n e k hp =>
    have := sem_grows { Choice.none with fault := some e, cut := n } s.fs (.mkdirAll p) hj
    exact ⟨this.2, fun _ => this.1⟩
  | kill i => exact ⟨Nat.le_refl _, fun _ => List.prefix_refl _⟩
  | elsewhere fs' he =>
    refine ⟨he.next, fun hn => ?_⟩
    rw [(he.inodes j hj hn).1]
    exact List.prefix_refl _

/-- What process `i` has got, if it is still running, is the beginning of the file it is reading, if that is one of the
repository. -/
def Reading.Sound (root : Path) (s : Reading) (i : Nat) : Prop :=
  s.got i = [] ∨ (∃ x, s.sys.procs i = .ret x) ∨
  ∃ j k, s.sys.procs i = .call (.readAll (some j)) k ∧ j < s.sys.fs.next ∧ (∀ d ∈ s.got i, d ≠ []) ∧
    (near root (s.sys.fs.inodes j).born = true → (s.got i).flatten <+: (s.sys.fs.inodes j).data)

/-- What a step does to the processes. -/
theorem step_procs {root : Path} {s s' : Sys} {l : Option (Nat × Event)} (h : Step root s l s')
    (hl : isReading l = false) (i : Nat) {j : Ino} {k : Resp (.readAll (some j)) → Prog Exit}
    (hp : s.procs i = .call (.readAll (some j)) k) : s'.procs i = .call (.readAll (some j)) k ∨ ∃ x, s'.procs i = .ret x := by
  cases h with
  | call i' o k' c hp' =>
    by_cases hi : i = i'
    · subst hi
      rw [hp] at hp'
      cases hp'
      cases hl
    · exact .inl (by simp [Sys.setProc, hi, hp])
  | writeSome i' ino b n k' hp' =>
    by_cases hi : i = i'
    · subst hi
      rw [hp] at hp'
      cases hp'
    · exact .inl (by simp [Sys.setProc, hi, hp])
  | mkdirSome i' p n e k' hp' => exact .inl hp
  | kill i' =>
    by_cases hi : i = i'
    · exact .inr ⟨_, by simp [Sys.setProc, hi]; rfl⟩
    · exact .inl (by simp [Sys.setProc, hi, hp])
  | elsewhere fs' he => exact .inl hp

theorem step_ret {root : Path} {s s' : Sys} {l : Option (Nat × Event)} (h : Step root s l s') (i : Nat)
    {x : Exit} (hp : s.procs i = .ret x) : ∃ x, s'.procs i = .ret x := by
  cases h with
  | call i' o k' c hp' =>
    by_cases hi : i = i'
    · subst hi
      rw [hp] at hp'
      cases hp'
    · exact ⟨x, by simp [Sys.setProc, hi, hp]⟩
  | writeSome i' ino b n k' hp' =>
    by_cases hi : i = i'
    · subst hi
      rw [hp] at hp'
      cases hp'
    · exact ⟨x, by simp [Sys.setProc, hi, hp]⟩
  | mkdirSome i' p n e k' hp' => exact ⟨x, hp⟩
  | kill i' =>
    by_cases hi : i = i'
    · exact ⟨_, by simp [Sys.setProc, hi]; rfl⟩
    · exact ⟨x, by simp [Sys.setProc, hi, hp]⟩
  | elsewhere fs' he => exact ⟨x, hp⟩

theorem Reading.Sound.step {root : Path} {s s' : Reading} {l : Option (Nat × Event)} (hs : ∀ i, s.Sound root i)
    (h : ReadStep root s l s') (i : Nat) : s'.Sound root i := by
  cases h with
  | other h hl hb =>
    rcases hs i with h0 | ⟨x, hx⟩ | ⟨j, k, hp, hj, hne, hpre⟩
    · exact .inl h0
    · exact .inr (.inl (step_ret h i hx))
    · rcases step_procs h hl i hp with hp' | hx
      · obtain ⟨h1, h2⟩ := step_grows h hj
        refine .inr (.inr ⟨j, k, hp', Nat.lt_of_lt_of_le hj h1, hne, fun hn => ?_⟩)
        have hn' := hn
        simp only [hb j hj] at hn'
        exact (hpre hn').trans (h2 hn')
      · exact .inr (.inl hx)
  | piece i' j k n d hp hj hd hne =>
    by_cases hi : i = i'
    · subst hi
      refine .inr (.inr ⟨j, k, hp, hj, ?_, fun hn => ?_⟩)
      · intro x hx
        simp only [Reading.setGot, if_true, List.mem_append, List.mem_singleton] at hx
        rcases hx with hx | rfl
        · rcases hs i with h0 | ⟨y, hy⟩ | ⟨j', k', hp', _, hne', _⟩
          · rw [h0] at hx; cases hx
          · rw [hp] at hy; cases hy
          · exact hne' x hx
        · exact hne
      · have hpre : (s.got i).flatten <+: (s.sys.fs.inodes j).data := by
          rcases hs i with h0 | ⟨y, hy⟩ | ⟨j', k', hp', _, _, hpre⟩
          · rw [h0]; exact List.nil_prefix
          · rw [hp] at hy; cases hy
          · rw [hp] at hp'; cases hp'; exact hpre hn
        simp only [Reading.setGot, if_true, List.flatten_append, List.flatten_cons, List.flatten_nil, List.append_nil]
        obtain ⟨rest, hr⟩ := hpre
        rw [← hr, List.drop_left] at hd
        rw [← hr, hd]
        exact (List.prefix_append_right_inj _).mpr (List.take_prefix _ _)
    · have : (⟨s.sys, s.setGot i' (s.got i' ++ [d])⟩ : Reading).got i = s.got i := by simp [Reading.setGot, hi]
      unfold Reading.Sound
      rw [this]
      exact hs i
  | done i' j k hp hd =>
    by_cases hi : i = i'
    · exact .inl (by simp [Reading.setGot, hi])
    · unfold Reading.Sound
      simp only [Reading.setGot, Sys.setProc, if_neg hi]
      exact hs i
  | failed i' j k e hp =>
    by_cases hi : i = i'
    · exact .inl (by simp [Reading.setGot, hi])
    · unfold Reading.Sound
      simp only [Reading.setGot, Sys.setProc, if_neg hi]
      exact hs i

/-- A step in which no call is completed, or none. -/
def Meanwhile (root : Path) (s s' : Sys) : Prop := Step root s none s' ∨ s' = s

/-- Other programs may change their own files. -/
theorem elsewhere_data {root : Path} {fs : FS} {j : Ino} (hj : near root (fs.inodes j).born = false) (b : Bytes) :
    Elsewhere root fs (fs.setInode j { fs.inodes j with data := b }) := by
  refine ⟨rfl, rfl, fun h => h, fun p i h => .inl ⟨p, h⟩, fun i _ hn => ?_, Nat.le_refl _⟩
  have hne : i ≠ j := by
    rintro rfl
    rw [hj] at hn
    cases hn
  simp [FS.setInode, hne]

theorem setInode_back {fs : FS} {j : Ino} (b : Bytes) :
    ((fs.setInode j { fs.inodes j with data := b }).setInode j
      { (fs.setInode j { fs.inodes j with data := b }).inodes j with data := (fs.inodes j).data }) = fs := by
  obtain ⟨n, d, is, nx⟩ := fs
  simp only [FS.setInode, if_true]
  congr 1
  funext i
  by_cases hi : i = j <;> simp [hi]

/-- A reading in pieces that now ends with `x` could have been made at once, right now. -/
theorem read_at_once {root : Path} {s : Reading} {i : Nat} (hs : s.Sound root i) {j : Ino}
    {k : Resp (.readAll (some j)) → Prog Exit} (hp : s.sys.procs i = .call (.readAll (some j)) k) (e : Option IoErr)
    (hd : e = none → (s.sys.fs.inodes j).data.drop (s.got i).flatten.length = []) :
    ∃ s1 s2, Meanwhile root s.sys s1 ∧
      Step root s1 (some (i, ⟨.readAll (some j), (s.got i, e)⟩)) s2 ∧
      Meanwhile root s2 ⟨s.sys.fs, s.sys.setProc i (k (s.got i, e))⟩ := by
  have hne : ∀ d ∈ s.got i, d ≠ [] := by
    rcases hs with h0 | ⟨y, hy⟩ | ⟨j', k', hp', _, hne', _⟩
    · rw [h0]; intro d hd; cases hd
    · rw [hp] at hy; cases hy
    · exact hne'
  -- the answer, when the file begins with what was got
  have ans : ∀ fs : FS, (∃ rest, (fs.inodes j).data = (s.got i).flatten ++ rest ∧ (e = none → rest = [])) →
      ∃ c, sem c fs (.readAll (some j)) = (fs, (s.got i, e)) := by
    rintro fs ⟨rest, hr, hz⟩
    refine ⟨{ Choice.none with fault := e, cut := (s.got i).length, chunks := (s.got i).map (fun d => d.length - 1) }, ?_⟩
    cases e with
    | none =>
      simp only [sem]
      rw [hr, cutChunks_pieces _ _ hne, hz rfl]
      simp [cutChunks]
    | some e =>
      simp only [sem]
      rw [hr, cutChunks_pieces _ _ hne]
      simp
  by_cases hpre : (s.got i).flatten <+: (s.sys.fs.inodes j).data
  · obtain ⟨rest, hr⟩ := hpre
    obtain ⟨c, hc⟩ := ans s.sys.fs ⟨rest, hr.symm, fun he => by
      have := hd he
      rwa [← hr, List.drop_left] at this⟩
    have st := Step.call (root := root) i _ k c hp
    rw [hc] at st
    exact ⟨_, _, .inr rfl, st, .inr rfl⟩
  · have hn : near root (s.sys.fs.inodes j).born = false := by
      rcases hs with h0 | ⟨y, hy⟩ | ⟨j', k', hp', _, _, h⟩
      · rw [h0] at hpre; exact absurd List.nil_prefix hpre
      · rw [hp] at hy; cases hy
      · rw [hp] at hp'
        cases hp'
        cases hb : near root (s.sys.fs.inodes j).born
        · rfl
        · exact absurd (h hb) hpre
    let fs1 := s.sys.fs.setInode j { s.sys.fs.inodes j with data := (s.got i).flatten }
    obtain ⟨c, hc⟩ := ans fs1 ⟨[], by simp [fs1, FS.setInode], fun _ => rfl⟩
    have st := Step.call (root := root) (s := ⟨fs1, s.sys.procs⟩) i _ k c hp
    rw [hc] at st
    refine ⟨_, _, .inl (.elsewhere fs1 (elsewhere_data hn _)), st, .inl ?_⟩
    have hn1 : near root (fs1.inodes j).born = false := by simp [fs1, FS.setInode, hn]
    have back := Step.elsewhere (root := root) (s := ⟨fs1, s.sys.setProc i (k (s.got i, e))⟩) _
      (elsewhere_data hn1 (s.sys.fs.inodes j).data)
    rw [show fs1.setInode j { fs1.inodes j with data := (s.sys.fs.inodes j).data } = s.sys.fs from setInode_back _] at back
    exact back

/-- Each step is one with reading at once, but for what other programs may do right before and after it. -/
theorem read_step {root : Path} {s s' : Reading} {l : Option (Nat × Event)} (hs : ∀ i, s.Sound root i)
    (h : ReadStep root s l s') : ∃ s1 s2, Meanwhile root s.sys s1 ∧ (Step root s1 l s2 ∨ (s2 = s1 ∧ l = none)) ∧
      Meanwhile root s2 s'.sys := by
  cases h with
  | other h hl hb => exact ⟨_, _, .inr rfl, .inl h, .inr rfl⟩
  | piece i j k n d hp hj hd hne => exact ⟨_, _, .inr rfl, .inr ⟨rfl, rfl⟩, .inr rfl⟩
  | done i j k hp hd =>
    obtain ⟨s1, s2, h1, h2, h3⟩ := read_at_once (hs i) hp none fun _ => hd
    exact ⟨s1, s2, h1, .inl h2, h3⟩
  | failed i j k e hp =>
    obtain ⟨s1, s2, h1, h2, h3⟩ := read_at_once (hs i) hp (some e) fun h => by cases h
    exact ⟨s1, s2, h1, .inl h2, h3⟩

theorem Steps.meanwhile {root : Path} {s s' s'' : Sys} {tr : List (Nat × Event)} (h : Steps root s tr s')
    (h' : Meanwhile root s' s'') : Steps root s tr s'' := by
  rcases h' with h' | rfl
  · simpa using h.tail h'
  · exact h

theorem ReadSteps.coarse {root : Path} {s s' : Reading} {tr : List (Nat × Event)} (hs : ∀ i, s.Sound root i)
    (h : ReadSteps root s tr s') : Steps root s.sys tr s'.sys ∧ ∀ i, s'.Sound root i := by
  induction h with
  | refl => exact ⟨.refl, hs⟩
  | tail _ hl ih =>
    obtain ⟨ih, hs⟩ := ih
    refine ⟨?_, Reading.Sound.step hs hl⟩
    obtain ⟨s1, s2, h1, h2, h3⟩ := read_step hs hl
    refine Steps.meanwhile ?_ h3
    have := ih.meanwhile h1
    rcases h2 with h2 | ⟨rfl, rfl⟩
    · exact this.tail h2
    · simpa using this

theorem sound_reading (root : Path) (s : Sys) (i : Nat) : s.reading.Sound root i := .inl rfl

/-- **C80**: whatever happens when files are read piece by piece could have happened with each file read in one call:
the same calls with the same results, in the same order, and in the end the same files and processes. So what is proved
of all steps of the system (C12, C14, C24, C25, C62, …) is true of such systems too. -/
theorem C80_pieces {root : Path} {s0 : Sys} {tr : List (Nat × Event)} {s : Reading}
    (h : ReadSteps root s0.reading tr s) : Steps root s0 tr s.sys :=
  (h.coarse (sound_reading root s0)).1

/-- **C80**, for ever: the same for executions without end. Each moment becomes three. -/
theorem C80_execution (F : ReadExecution) : ∃ ρ : Execution, ρ.root = F.root ∧
    ∀ n, ρ.st (3 * n) = (F.st n).sys ∧ ρ.lab (3 * n + 1) = F.lab n ∧ ρ.lab (3 * n) = none ∧ ρ.lab (3 * n + 2) = none := by
  have hs : ∀ n i, (F.st n).Sound F.root i := by
    intro n
    induction n with
    | zero => exact fun i => .inl (F.start i)
    | succ n ih =>
      rcases F.step n with h | ⟨h, _⟩
      · exact Reading.Sound.step ih h
      · rw [h]; exact ih
  have h3 : ∀ n, ∃ p : Sys × Sys, Meanwhile F.root (F.st n).sys p.1 ∧
      (Step F.root p.1 (F.lab n) p.2 ∨ (p.2 = p.1 ∧ F.lab n = none)) ∧ Meanwhile F.root p.2 (F.st (n + 1)).sys := by
    intro n
    rcases F.step n with h | ⟨h, hl⟩
    · obtain ⟨s1, s2, h⟩ := read_step (hs n) h
      exact ⟨(s1, s2), h⟩
    · exact ⟨((F.st n).sys, (F.st n).sys), .inr rfl, .inr ⟨rfl, hl⟩, .inr (by rw [h])⟩
  obtain ⟨m, hm⟩ := Classical.axiomOfChoice h3
  let st : Nat → Sys := fun k => match k % 3 with
    | 0 => (F.st (k / 3)).sys
    | 1 => (m (k / 3)).1
    | _ => (m (k / 3)).2
  let lab : Nat → Option (Nat × Event) := fun k => if k % 3 = 1 then F.lab (k / 3) else none
  have e0 : ∀ n, st (3 * n) = (F.st n).sys := by
    intro n
    have h1 : 3 * n % 3 = 0 := by omega
    have h2 : 3 * n / 3 = n := by omega
    simp only [st, h1, h2]
  have e1 : ∀ n, st (3 * n + 1) = (m n).1 := by
    intro n
    have h1 : (3 * n + 1) % 3 = 1 := by omega
    have h2 : (3 * n + 1) / 3 = n := by omega
    simp only [st, h1, h2]
  have e2 : ∀ n, st (3 * n + 2) = (m n).2 := by
    intro n
    have h1 : (3 * n + 2) % 3 = 2 := by omega
    have h2 : (3 * n + 2) / 3 = n := by omega
    simp only [st, h1, h2]
  have l1 : ∀ n, lab (3 * n + 1) = F.lab n := by
    intro n
    have h1 : (3 * n + 1) % 3 = 1 := by omega
    have h2 : (3 * n + 1) / 3 = n := by omega
    simp only [lab, h1, h2, if_true]
  have l0 : ∀ n, lab (3 * n) = none := fun n => if_neg (by omega)
  have l2 : ∀ n, lab (3 * n + 2) = none := fun n => if_neg (by omega)
  refine ⟨⟨F.root, st, lab, fun k => ?_⟩, rfl, fun n => ⟨e0 n, l1 n, l0 n, l2 n⟩⟩
  have hk : k = 3 * (k / 3) ∨ k = 3 * (k / 3) + 1 ∨ k = 3 * (k / 3) + 2 := by omega
  generalize k / 3 = n at hk
  obtain ⟨a, b, c⟩ := hm n
  rcases hk with rfl | rfl | rfl
  · rw [e0, e1, l0]
    exact a.imp id fun h => ⟨h, rfl⟩
  · rw [e1, show 3 * n + 1 + 1 = 3 * n + 2 from rfl, e2, l1]
    exact b
  · rw [e2, show 3 * n + 2 + 1 = 3 * (n + 1) from by omega, e0, l2]
    exact c.imp id fun h => ⟨h, rfl⟩


/-- **C80**, files of the repository: who reads one to its end in pieces has got its whole content as it is then. -/
theorem C80_whole {root : Path} {s0 : Sys} {tr : List (Nat × Event)} {s s' : Reading}
    (h : ReadSteps root s0.reading tr s) {i : Nat} {j : Ino} {ps : List Bytes}
    (hl : ReadStep root s (some (i, ⟨.readAll (some j), (ps, none)⟩)) s')
    (hj : near root (s.sys.fs.inodes j).born = true) : ps.flatten = (s.sys.fs.inodes j).data := by
  have hs := (h.coarse (sound_reading root s0)).2 i
  generalize hlab : (some (i, (⟨.readAll (some j), (ps, none)⟩ : Event)) : Option (Nat × Event)) = l at hl
  cases hl with
  | other h hn hb => subst hlab; cases hn
  | piece => cases hlab
  | failed => cases hlab
  | done i' j' k hp hd =>
    cases hlab
    rcases hs with h0 | ⟨y, hy⟩ | ⟨j', k', hp', _, _, h⟩
    · rw [h0] at hd ⊢
      exact hd.symm
    · rw [hp] at hy; cases hy
    · rw [hp] at hp'
      cases hp'
      obtain ⟨rest, hr⟩ := h hj
      rw [← hr, List.drop_left] at hd
      rw [← hr, hd, List.append_nil]

/-- **C80**, objects: whatever is read of an object that was once opened, and however much later, belongs to the content
it had then. So a server may send each piece before it reads the next, as the code does. -/
theorem C80_object {root : Path} {sha : Bytes → Bytes} {s0 : Sys} {s s' : Reading} {tr tr' : List (Nat × Event)}
    (h0 : Start root sha s0) (h : ReadSteps root s0.reading tr s) (h' : ReadSteps root s tr' s') (oid : Bytes) (j : Ino)
    (hj : s.sys.fs.get (objectFile root oid) = some j) :
    (s'.sys.fs.inodes j).data = (s.sys.fs.inodes j).data :=
  have hs := h.coarse (sound_reading root s0)
  object_handle_stable h0 hs.1 (h'.coarse hs.2).1 oid j hj

/-! An example: while process 0 reads the file 7, which belongs to others, in two pieces, it is changed. What it gets,
"ax", was never in the file. (The process is at the point where it reads a lock; `unlock` of an ID with slashes leads
there.) -/

private def fs7 (b : Bytes) : FS := ⟨[], [], fun j => if j = 7 then ⟨b, 0, 0, [b!"other"]⟩ else ⟨[], 0, 0, []⟩, 8⟩
private def at7 : Prog Exit := .call (.readAll (some 7)) fun x => .ret ⟨0, x.1.flatten⟩

private theorem others_change : Elsewhere [b!"lfs"] (fs7 b!"ab") (fs7 b!"yx") := by
  refine ⟨rfl, rfl, fun h => h, fun p j h => ?_, fun j hj hn => ?_, Nat.le_refl _⟩
  · cases h
  · by_cases h : j = 7
    · subst h; revert hn; decide
    · simp [fs7, h]

example : ∃ s, ReadSteps [b!"lfs"] (⟨fs7 b!"ab", fun _ => at7⟩ : Sys).reading
      [(0, ⟨.readAll (some 7), ([b!"a", b!"x"], none)⟩)] s ∧
    s.sys.procs 0 = .ret ⟨0, b!"ax"⟩ ∧ s.sys.fs = fs7 b!"yx" ∧ s.got 0 = [] := by
  have e0 := ReadSteps.refl (root := [b!"lfs"]) (s := (⟨fs7 b!"ab", fun _ => at7⟩ : Sys).reading)
  have e1 := e0.tail (.piece 0 7 _ 0 b!"a" rfl (by decide) (by decide) (by decide))
  have e2 := e1.tail (.other (.elsewhere _ others_change) rfl fun j _ => by
    by_cases h : j = 7 <;> simp [fs7, h, Sys.reading])
  have e3 := e2.tail (.piece 0 7 _ 0 b!"x" rfl (by decide) (by decide) (by decide))
  exact ⟨_, e3.tail (.done 0 7 _ rfl (by decide)), rfl, rfl, rfl⟩

/-! Another one: process 0 reads a file of the repository, process 1 is still writing it. -/

private def fs8 (b : Bytes) : FS := ⟨[], [], fun j => if j = 7 then ⟨b, 0, 0, [b!"lfs", b!"f"]⟩ else ⟨[], 0, 0, []⟩, 8⟩
private def wr8 : Prog Exit := .call (.write 7 b!"bc") fun _ => .ret ⟨0, []⟩

example : ∃ s s' : Reading, ReadSteps [b!"lfs"] (⟨fs8 b!"a", fun i => if i = 0 then at7 else wr8⟩ : Sys).reading [] s ∧
    ReadStep [b!"lfs"] s (some (0, ⟨.readAll (some 7), ([b!"a", b!"b"], none)⟩)) s' ∧
    near [b!"lfs"] (s.sys.fs.inodes 7).born = true ∧ (s.sys.fs.inodes 7).data = b!"ab" := by
  have e0 := ReadSteps.refl (root := [b!"lfs"]) (s := (⟨fs8 b!"a", fun i => if i = 0 then at7 else wr8⟩ : Sys).reading)
  have e1 := e0.tail (.piece 0 7 _ 4 b!"a" rfl (by decide) (by decide) (by decide))
  have e2 := e1.tail (.other (.writeSome 1 7 b!"bc" 1 _ rfl) rfl fun j _ => by
    by_cases h : j = 7 <;> simp [fs8, h, Sys.reading, FS.append, FS.setInode])
  have e3 := e2.tail (.piece 0 7 _ 4 b!"b" rfl (by decide) (by decide) (by decide))
  exact ⟨_, _, e3, .done 0 7 _ rfl (by decide), by decide, by decide⟩

end Verif
