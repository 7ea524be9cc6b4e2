import Verif.Model.Tools
/-!
How `git-lfs-transfer` starts.
-/
namespace Verif.Spec

/-- How the process ends because of an error of libgit2, once it has found the repository. -/
def gitExit (e : GitErr) : Exit :=
  match e.code with
  | .notFound => ⟨1, b!"fatal: needed a single revision\n"⟩
  | .conflict => ⟨1, b!"fatal: conflict\n"⟩
  | .other _ => ⟨2, b!"fatal: " ++ e.text ++ b!"\n"⟩

/-- The process cannot start serving, and ends like this. -/
inductive Stops : Except GitErr (Except GitErr Transfer.Shared) → Exit → Prop
  /-- The repository cannot be opened. -/
  | repo (e : GitErr) : Stops (.error e) ⟨4, e.text ++ b!"\n"⟩
  /-- Its configuration cannot be opened. -/
  | config (e : GitErr) : Stops (.ok (.error e)) (gitExit e)
  /-- `core.sharedRepository` cannot be read, and not for the reason that it is not set. -/
  | value (e e' : GitErr) : e.code ≠ .notFound → Stops (.ok (.ok ⟨.error e, .error e'⟩)) (gitExit e)

/-- A number in octal, possibly with a plus sign. -/
def OctalNumber (x : Bytes) (n : Nat) : Prop :=
  ∃ ds : Bytes, (x = ds ∨ x = b!"+" ++ ds) ∧ ds ≠ [] ∧ (∀ d ∈ ds, 48 ≤ d ∧ d ≤ 55) ∧
    n = ds.foldl (fun n d => 8 * n + (d.toNat - 48)) 0

/-- The umask that leaves the permissions `n`, and permission to search what may be read. -/
def Leaves (n u : Nat) : Prop :=
  ∀ i, u.testBit i = (decide (i < 9) && !(n.testBit i || (i % 3 == 0 && n.testBit (i + 2))))

/-- The umask the process has from now on, if it can start: its own, or one for the permissions that the value asks for. A
value is first read as a boolean, then as a word, then as an octal number of at most 16 bits. -/
inductive Begins (own : Nat) : Transfer.Shared → Nat → Prop
  | yes (s) : Begins own ⟨s, .ok true⟩ 0o007
  | group (b) : Begins own ⟨.ok b!"group", b⟩ 0o007
  | no (s) : s ≠ .ok b!"group" → Begins own ⟨s, .ok false⟩ own
  | umask (e) : Begins own ⟨.ok b!"umask", .error e⟩ own
  | all (e x) : x ∈ [b!"all", b!"world", b!"everybody"] → Begins own ⟨.ok x, .error e⟩ 0o002
  | octal (e x n u) : OctalNumber x n → n < 65536 → Leaves n u → Begins own ⟨.ok x, .error e⟩ u
  /-- Anything else counts for nothing. -/
  | other (e x) : x ∉ [b!"group", b!"umask", b!"all", b!"world", b!"everybody"] → (∀ n, OctalNumber x n → 65536 ≤ n) →
      Begins own ⟨.ok x, .error e⟩ own
  | unset (e e') : e.code = .notFound → Begins own ⟨.error e, .error e'⟩ own

end Verif.Spec
