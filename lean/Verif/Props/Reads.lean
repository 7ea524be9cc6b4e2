import Verif.Lemmas.Reads
import Verif.Props.Crash
/-!
C23: which files the server looks at.

The property is false for the code: the ID of an `unlock` request is appended to the name of the directory of
locks without being checked. `C23_refuted` is a run in which the server reads a file outside the lfs
directory. `C23_reads_partial` says what remains true.
-/
namespace Verif
open Spec

variable {cfg : Cfg} {r : Rdr}

/-- Names of `Inside` stay below the lfs directory. -/
theorem inside_below {root : Path} {f : FPath} (h : Inside root f) : Below root f := by
  intro fs p hp
  cases h with
  | object => cases hp; exact ⟨_, by simp only [objectFile, objectDir, List.append_assoc]; rfl⟩
  | lock => cases hp; exact ⟨_, rfl⟩
  | locks => cases hp; exact ⟨_, rfl⟩
  | @entry n hn =>
    simp only [FS.resolve] at hp
    split at hp
    · cases hp
    split at hp
    · rename_i hh
      exact absurd (List.mem_of_mem_head? (by rw [hh]; rfl)) hn.1
    · rw [splitOn_none SLASH n hn.1] at hp
      simp only [FS.walk] at hp
      split at hp
      · split at hp
        · cases hp; exact ⟨_, rfl⟩
        · split at hp
          · rename_i h2
            exact absurd h2 hn.2
          · split at hp
            · cases hp
            · cases hp; exact ⟨_, by rw [List.append_assoc]⟩
      · split at hp <;> cases hp

theorem rd_trace {P : FPath → Prop} : ∀ (tr past : List Event) (s : List (Option Ino)),
    (∀ h ∈ s, ∃ f, (⟨.openRead f, .ok h⟩ : Event) ∈ past) → (Logic.rd P).PreTr s tr →
    ∀ p e f, tr = p ++ e :: f → (∀ g, fileOf e.1 = some g → P g) ∧
      ∀ h, handleOf e.1 = some h → ∃ g, (⟨.openRead g, .ok h⟩ : Event) ∈ past ++ p
  | [], _, _, _, _, p, e, f, he => by simp at he
  | e0 :: tr, past, s, hs, hpre, p, e, f, he => by
    cases p with
    | nil =>
      cases he
      exact ⟨hpre.1.1, fun h hh => by simpa using hs h (hpre.1.2 h hh)⟩
    | cons e1 p =>
      rw [List.cons_append] at he
      obtain ⟨rfl, he'⟩ := List.cons.inj he
      have := rd_trace tr (past ++ [e0]) _ ?_ hpre.2 p e f he'
      · simpa using this
      · have old : ∀ h ∈ s, ∃ f, (⟨.openRead f, .ok h⟩ : Event) ∈ past ++ [e0] := fun h hh => by
          obtain ⟨f, hf⟩ := hs h hh
          exact ⟨f, by simp [hf]⟩
        obtain ⟨o, x⟩ := e0
        cases o with
        | openRead q =>
          cases x with
          | error => exact old
          | ok i =>
            intro h hh
            rcases List.mem_cons.mp hh with rfl | hh
            · exact ⟨q, by simp⟩
            · exact old h hh
        | _ => exact old

/-- **C23**, what remains true: whatever the client sends, whatever the OS answers (listing a directory, it reports
only possible names), and wherever the process is stopped: every file or directory looked at is inside the lfs directory,
or its name is the argument of an `unlock` command of the client, appended to the directory of locks; and only
files opened that way are read. What is missing: that such a name is below the lfs directory, see `C23_refuted`. -/
theorem C23_reads_partial (hsha : ∀ b, (cfg.sha b).length = 32) {op : Bytes} {tr : List Event}
    (h : (mainProg cfg op r).Did tr) (hn : ∀ e ∈ tr, Event.NamesOk e) {past future : List Event} {e : Event}
    (he : tr = past ++ e :: future) :
    (∀ f, fileOf e.1 = some f → Inside cfg.root f ∨
      ∃ id, f = .join (cfg.root ++ [b!"locks"]) id ∧ AsksUnlock r id) ∧
    ∀ k, handleOf e.1 = some k → ∃ f, (⟨.openRead f, .ok k⟩ : Event) ∈ past :=
  rd_trace tr [] [] (fun _ h => by cases h)
    (Prog.wp_did (rd_mainProg hsha op r) h (Logic.legalTr_of_forall fun e he _ => hn e he)) past e future he

/-- **C23**, for clients whose `unlock` commands name an ID that has no slash and is not `..`: only files below the lfs
directory are looked at, whatever else they send. -/
theorem C23_below_partial (hsha : ∀ b, (cfg.sha b).length = 32) {op : Bytes} {tr : List Event}
    (h : (mainProg cfg op r).Did tr) (hn : ∀ e ∈ tr, Event.NamesOk e)
    (hid : ∀ id, AsksUnlock r id → EntryName id) {e : Event} (he : e ∈ tr) {f : FPath} (hf : fileOf e.1 = some f) :
    Below cfg.root f := by
  obtain ⟨past, future, rfl⟩ := List.append_of_mem he
  rcases (C23_reads_partial hsha h hn rfl).1 f hf with hi | ⟨id, rfl, hu⟩
  · exact inside_below hi
  · exact inside_below (.entry (hid id hu))

theorem readPacket_infix {r r' : Rdr} {d : Bytes} (h : r.readPacket = (.ok (.data d), r')) : d <:+: r.input := by
  unfold Rdr.readPacket at h
  split at h
  · cases h
  rename_i h1
  split at h
  · cases h
  · cases h
  split at h
  · cases h
  split at h
  · cases h
  split at h
  · cases h
  split at h
  · cases h
  rename_i h2
  cases h
  have e1 := (readExact_ok h1).2.1
  have e2 := (readExact_ok h2).2.1
  exact ⟨_, _, by rw [e1, e2, List.append_assoc]⟩

theorem asksUnlock_infix {r : Rdr} {id : Bytes} (h : AsksUnlock r id) : b!"unlock" <:+: r.input := by
  obtain ⟨r1, r2, d, more, h1, h2, w, hw, _, hd⟩ := h
  refine List.IsInfix.trans ?_ ((readPacket_infix h2).trans h1.isInfix)
  have : b!"unlock" <+: w := by
    cases hw with
    | cons _ _ => exact ⟨_, by simp only [List.append_assoc]; rfl⟩
  rcases hd with rfl | ⟨rfl, _⟩
  · exact (this.trans ⟨_, rfl⟩).isInfix
  · exact this.isInfix

namespace Tests

/-- A repository with a file outside the lfs directory: `/repo/secret`. -/
def fsSecret : FS := { fsL with names := ([b!"repo", b!"secret"], 2) :: fsL.names }

def secretRdr : Rdr := Rdr.new (enc [.data b!"unlock ../../../secret\n", .flush]) eofErr false

def listing : Rdr := Rdr.new (enc [.data b!"list-lock", .flush]) eofErr false

def secretEvents : List Event := (mainProg Tests.cfg b!"upload" secretRdr).events calm ⟨fsSecret, [], 0⟩

def openedB (f : FPath) (k : Option Ino) : Event → Bool
  | ⟨.openRead g, x⟩ => match x with | .ok h => g = f && h = k | .error _ => false
  | _ => false
theorem opened_mem {f : FPath} {k : Option Ino} {tr : List Event} (h : tr.any (openedB f k) = true) :
    (⟨.openRead f, .ok k⟩ : Event) ∈ tr := by
  obtain ⟨⟨o, x⟩, he, hb⟩ := List.any_eq_true.mp h
  cases o <;> first | cases hb | skip
  cases x with
  | error => cases hb
  | ok =>
    simp only [openedB, Bool.and_eq_true, decide_eq_true_eq] at hb
    obtain ⟨rfl, rfl⟩ := hb
    exact he

def readB (k : Option Ino) (d : Bytes) : Event → Bool
  | ⟨.readAll h, x⟩ => h = k && x.1 = [d] && x.2.isNone
  | _ => false
theorem read_mem {k : Option Ino} {d : Bytes} {tr : List Event} (h : tr.any (readB k d) = true) :
    (⟨.readAll k, ([d], none)⟩ : Event) ∈ tr := by
  obtain ⟨⟨o, x⟩, he, hb⟩ := List.any_eq_true.mp h
  cases o <;> first | cases hb | skip
  obtain ⟨cs, e⟩ := x
  simp only [readB, Bool.and_eq_true, decide_eq_true_eq, Option.isNone_iff_eq_none] at hb
  obtain ⟨⟨rfl, rfl⟩, rfl⟩ := hb
  exact he

def resolvedB (x : Except IoErr Path) (p : Path) : Bool := match x with | .ok q => q = p | .error _ => false
theorem resolvedB_iff {x : Except IoErr Path} {p : Path} (h : resolvedB x p = true) : x = .ok p := by
  cases x with
  | error => cases h
  | ok => rw [of_decide_eq_true h]

/-- All names reported are possible ones. -/
def namesB : Event → Bool
  | ⟨.readDir _, x⟩ => match x with | .ok ns => ns.all (fun n => !n.contains 47 && n != b!"..") | .error _ => true
  | _ => true
theorem namesOk_of {e : Event} (h : namesB e = true) : Event.NamesOk e := by
  obtain ⟨o, x⟩ := e
  cases o <;> first | trivial | skip
  cases x with
  | error => intro _ h; cases h
  | ok ns =>
    intro _ he n hn
    cases he
    have := List.all_eq_true.mp h n hn
    simp at this
    exact this

end Tests

open Tests in
/-- **C23** is false for the code: here the server opens a file outside the lfs directory because the client says so, and
reads it. -/
theorem C23_refuted : ∃ (f : FPath) (p : Path) (k : Option Ino) (d : Bytes),
    (⟨.openRead f, .ok k⟩ : Event) ∈ secretEvents ∧ (⟨.readAll k, ([d], none)⟩ : Event) ∈ secretEvents ∧
    fsSecret.resolve f = .ok p ∧ ¬Tests.cfg.root <+: p ∧ fsSecret.content p = some d := by
  refine ⟨.join (Tests.cfg.root ++ [b!"locks"]) b!"../../../secret", [b!"repo", b!"secret"], some 2, b!"v1:5:g:h", ?_, ?_, ?_,
    by decide, by decide⟩
  · exact opened_mem (by decide +kernel)
  · exact read_mem (by decide +kernel)
  · exact resolvedB_iff (by decide +kernel)

open Tests in
/-- A session to which `C23_reads_partial` and `C23_below_partial` apply, in which files are read: the locks are
listed. -/
example : ∃ tr, (mainProg Tests.cfg b!"upload" listing).Did tr ∧ (∀ e ∈ tr, Event.NamesOk e) ∧
    (∀ id, AsksUnlock listing id → EntryName id) ∧
    (⟨.readAll (some 1), ([b!"v1:1000684800:f"], none)⟩ : Event) ∈ tr := by
  refine ⟨(mainProg Tests.cfg b!"upload" listing).events calm ⟨fsL, [], 0⟩, (Prog.run_finished _ _ _).did,
    fun e he => namesOk_of ?_, fun id h => ?_, read_mem (by decide +kernel)⟩
  · have : ((mainProg Tests.cfg b!"upload" listing).events calm ⟨fsL, [], 0⟩).all namesB = true := by decide +kernel
    exact List.all_eq_true.mp this e he
  · exact absurd (asksUnlock_infix h) (by decide +kernel)

end Verif
