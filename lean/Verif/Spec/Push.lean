import Verif.Spec.Shared
/-! Clients that push and pull objects, with several servers. -/
namespace Verif.Spec

/-- A line of the reply to a `batch` for an upload says that the object is there already. -/
def SaysThere (line : Bytes) : Prop := b!" noop\n" <:+ line

/-- Until moment `e`, some server has answered a request in a way from which a client takes it that the object is
stored: a successful upload, a line in the reply to a `batch`, or a successful `verify-object`. -/
inductive ToldStored (ρ : Execution) (root : Path) (oid : Bytes) (e : Nat) : Prop
  | put (i : Nat) (cfg : Cfg) (mode : Mode) (a e' size : Nat) (data : Bytes) : cfg.root = root → e' ≤ e →
      Answered ρ i cfg mode a e' (.put oid size data) ⟨200, [], .none⟩ → ToldStored ρ root oid e
  | batch (i : Nat) (cfg : Cfg) (a e' k size : Nat) (items : List (Bytes × Nat)) (lines : List Bytes) (line : Bytes) :
      cfg.root = root → e' ≤ e → Answered ρ i cfg .upload a e' (.batch items) ⟨200, [], .lines lines⟩ →
      items[k]? = some (oid, size) → lines[k]? = some line → SaysThere line → ToldStored ρ root oid e
  | verify (i : Nat) (cfg : Cfg) (mode : Mode) (a e' size : Nat) : cfg.root = root → e' ≤ e →
      Answered ρ i cfg mode a e' (.verify oid size) ⟨200, [], .none⟩ → ToldStored ρ root oid e

/-- Every object in the store has the right hash. -/
def Intact (sha : Bytes → Bytes) (objs : Bytes → Option Bytes) : Prop :=
  ∀ oid d, IsOid oid → objs oid = some d → hex (sha d) = oid

/-- Process `i` is a server to which a client sends these requests on objects, all well-formed; at moment `N` it has
ended. It has met no I/O error and was not killed. -/
structure Finishes (ρ : Execution) (i : Nat) (cfg : Cfg) (mode : Mode) (qs : List Request) (N : Nat) : Prop where
  program : ∃ r wire, (ρ.st 0).procs i = mainProg cfg (Mode.operation mode) r ∧ Session mode qs wire ∧
    r.input = wire ∧ r.pending = [] ∧ r.fin.kind = .unexpectedEof
  objects : ∀ q ∈ qs, OnObjects q
  noFault : ρ.NoFault i N
  notKilled : ρ.NotKilled i N
  ended : ∃ x, (ρ.st N).procs i = .ret x

end Verif.Spec
