import Verif.Spec.SharedLocks
import Verif.Spec.Unharmed
/-! What a server makes of any bytes while others work on the same repository. -/
namespace Verif.Spec

/-- Process `i` releases the lock `id` at moment `n`: it was held, and it is not any more. -/
structure FreedAt (ρ : Execution) (i : Nat) (cfg : Cfg) (n : Nat) (id : Bytes) : Prop where
  by_ : ρ.By i n
  held : ρ.lockAt cfg.root n id ≠ none
  free : ρ.lockAt cfg.root (n + 1) id = none

/-- What the reply to `unlock` says about a lock. -/
def Seen.fields (cfg : Cfg) (e : Seen) : List Bytes :=
  [b!"id=" ++ e.id cfg ++ b!"\n", b!"path=" ++ e.path ++ b!"\n", b!"locked-at=" ++ timeText cfg e.time ++ b!"\n",
   b!"ownername=" ++ e.owner ++ b!"\n"]

/-- `Heeds ρ i cfg mode a e q ans`: between the moments `a` and `e`, process `i` finds the answer `ans` to what the client
said. Nonsense is denied and changes nothing. A request to release what is no ID either fails, or releases one lock; it
reports then what it has read in the file of this name; the owner is unknown if the file is gone meanwhile. -/
inductive Heeds (ρ : Execution) (i : Nat) (cfg : Cfg) (mode : Mode) (a e : Nat) : Said → Answer → Prop
  | asked {q : Request} {ans : Answer} : ¬ NoLockId (.ask q) → Answers ρ i cfg mode a e q ans →
      Heeds ρ i cfg mode a e (.ask q) ans
  | denied {code : Nat} {msg : Bytes} : ρ.Leaves cfg.root i a e none → ρ.LeavesLocks cfg.root i a e none →
      Heeds ρ i cfg mode a e (.nonsense code msg) (denial code msg)
  | refused {q : Said} {code : Nat} {msg : Bytes} : NoLockId q → mode = .upload → code ∈ [400, 404, 500] →
      ρ.Leaves cfg.root i a e none → ρ.LeavesLocks cfg.root i a e none → Heeds ρ i cfg mode a e q (denial code msg)
  | released {q : Said} {l : Seen} {n : Nat} : NoLockId q → mode = .upload → a ≤ n → n < e → FreedAt ρ i cfg n (l.id cfg) →
      (cfg.fmtTime l.time).isSome → (l.owner = b!"unknown" ∨ ∃ uid, l.owner = ownerName cfg uid) →
      ρ.Leaves cfg.root i a e none → ρ.LeavesLocks cfg.root i a e (some (n, l.id cfg)) →
      Heeds ρ i cfg mode a e q ⟨200, l.fields cfg, .none⟩

/-- Between the moments `a` and `c`, process `i` answers what the client said, one after the other, up to `rest`. An
excused request gets some reply. -/
inductive ServesAll (ρ : Execution) (i : Nat) (cfg : Cfg) (mode : Mode) : Nat → List Said → Nat → List Said → Prop
  | nil {a : Nat} {qs : List Said} : ServesAll ρ i cfg mode a qs a qs
  | cons {a e b c : Nat} {q : Said} {qs rest : List Said} {ans : Answer} : a ≤ e → e ≤ b →
      ρ.out i a e = [] → Heeds ρ i cfg mode a e q ans →
      Sends ans (ρ.out i e b) → ρ.Leaves cfg.root i e b none → ρ.LeavesLocks cfg.root i e b none →
      ServesAll ρ i cfg mode b qs c rest → ServesAll ρ i cfg mode a (q :: qs) c rest
  | excused {a e b c : Nat} {q : Request} {qs rest : List Said} : a ≤ e → e ≤ b → ¬ NoLockId (.ask q) →
      ρ.out i a e = [] → Excused ρ i cfg a e q →
      IsReply (ρ.out i e b) → ρ.Leaves cfg.root i a b none →
      (lockOf cfg q = none → ρ.LeavesLocks cfg.root i a b none) →
      ServesAll ρ i cfg mode b qs c rest → ServesAll ρ i cfg mode a (.ask q :: qs) c rest

/-- Why process `i` may panic over `q`, which it has read at moment `a`: the request is excused, or it is to release what is
no ID (and then it has changed nothing). -/
inductive Stumbles (ρ : Execution) (i : Nat) (cfg : Cfg) (mode : Mode) (a e : Nat) : Said → Prop
  | excused {q : Request} : ¬ NoLockId (.ask q) → Excused ρ i cfg a e q →
      (lockOf cfg q = none → ρ.LeavesLocks cfg.root i a e none) → Stumbles ρ i cfg mode a e (.ask q)
  | odd {q : Said} : NoLockId q → mode = .upload → ρ.LeavesLocks cfg.root i a e none → Stumbles ρ i cfg mode a e q

/-- What process `i`, which works on `q` since moment `a`, may have done until `N`: nothing, or what is asked for, in one
step. -/
def WorkingOnAny (ρ : Execution) (i : Nat) (cfg : Cfg) (mode : Mode) (a N : Nat) (q : Said) : Prop :=
  ρ.Leaves cfg.root i a N none ∧ ρ.LeavesLocks cfg.root i a N none ∨
  (∃ p, q = .ask p ∧ ¬ NoLockId q ∧ WorkingOn ρ i cfg mode a N p) ∨
  (NoLockId q ∧ mode = .upload ∧ ρ.Leaves cfg.root i a N none ∧
    ∃ n id, a ≤ n ∧ n < N ∧ FreedAt ρ i cfg n id ∧ ρ.LeavesLocks cfg.root i a N (some (n, id)))

/-- What process `i` has been doing between the moments `a` and `N` when this is left: nothing; looking for the answer to
the first, or printing it; or it need not answer properly. -/
inductive BusyWith (ρ : Execution) (i : Nat) (cfg : Cfg) (mode : Mode) (a N : Nat) : List Said → Prop
  | idle : ρ.out i a N = [] → ρ.Leaves cfg.root i a N none → ρ.LeavesLocks cfg.root i a N none →
      BusyWith ρ i cfg mode a N []
  | working {q : Said} {qs : List Said} : ρ.out i a N = [] → WorkingOnAny ρ i cfg mode a N q →
      BusyWith ρ i cfg mode a N (q :: qs)
  | replying {e : Nat} {q : Said} {qs : List Said} {ans : Answer} {more : Bytes} : a ≤ e → e ≤ N →
      ρ.out i a e = [] → Heeds ρ i cfg mode a e q ans → Sends ans (ρ.out i e N ++ more) →
      ρ.Leaves cfg.root i e N none → ρ.LeavesLocks cfg.root i e N none → BusyWith ρ i cfg mode a N (q :: qs)
  | excused {e : Nat} {q : Request} {qs : List Said} {more : Bytes} : a ≤ e → e ≤ N → ¬ NoLockId (.ask q) →
      ρ.out i a e = [] → Excused ρ i cfg a e q →
      IsReply (ρ.out i e N ++ more) → ρ.Leaves cfg.root i a N none →
      (lockOf cfg q = none → ρ.LeavesLocks cfg.root i a N none) → BusyWith ρ i cfg mode a N (.ask q :: qs)

end Verif.Spec
