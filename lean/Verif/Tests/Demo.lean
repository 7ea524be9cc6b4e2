import Verif.Lemmas.Prog
import Verif.Tests.Sha256
/-!
Concrete configurations and runs, used by the tests and by the witnesses beside the theorems.
-/
namespace Verif.Tests

/-- Days since the epoch to a civil date (proleptic Gregorian calendar). -/
def civil (z : Nat) : Nat × Nat × Nat :=
  let z := z + 719468
  let era := z / 146097
  let doe := z - era * 146097
  let yoe := (doe - doe / 1460 + doe / 36524 - doe / 146096) / 365
  let doy := doe - (365 * yoe + yoe / 4 - yoe / 100)
  let mp := (5 * doy + 2) / 153
  let d := doy - (153 * mp + 2) / 5 + 1
  let m := if mp < 10 then mp + 3 else mp - 9
  (yoe + era * 400 + (if m ≤ 2 then 1 else 0), m, d)

def two (n : Nat) : Bytes := (if n < 10 then [48] else []) ++ natDec n

/-- RFC 3339 for times from the epoch to the year 9999. -/
def rfc3339 (t : Int) : Option Bytes :=
  if t < 0 then none else
    let t := t.toNat
    let (y, m, d) := civil (t / 86400)
    let s := t % 86400
    some (natDec y ++ b!"-" ++ two m ++ b!"-" ++ two d ++ b!"T" ++ two (s / 3600) ++ b!":" ++
      two (s / 60 % 60) ++ b!":" ++ two (s % 60) ++ b!"+00:00")

def cfg : Cfg :=
  { sha := sha256, root := [b!"repo", b!".git", b!"lfs"], umask := 0o077,
    timestamp := some 1000684800, uid := 1000, passwd := fun u => if u = 1000 then some b!"test user" else none,
    fmtTime := rfc3339, copyBuf := fun _ => 8191 }

def fs0 : FS := ⟨[], [[b!"repo"], [b!"repo", b!".git"]], fun _ => ⟨[], 0, 0, []⟩, 0⟩

/-- Some stored object: `abc123`. -/
def oidA : Bytes := b!"6ca13d52ca70c883e0f0bb101e425a89e8624de51db2d2392593af6a84118090"

/-- A repository with that object stored. -/
def fsA : FS :=
  ⟨[(objPath cfg.root oidA, 0)],
   [[b!"repo"], [b!"repo", b!".git"], cfg.root, cfg.root ++ [b!"objects"], cfg.root ++ [b!"locks"],
    cfg.root ++ [b!"incomplete"], cfg.root ++ [b!"tmp"], cfg.root ++ [b!"objects", b!"6c"],
    cfg.root ++ [b!"objects", b!"6c", b!"a1"]],
   fun _ => ⟨b!"abc123", 1000, 0o700, objPath cfg.root oidA⟩, 1⟩

/-- The whole program on an input. -/
def server (c : Cfg) (op : Bytes) (input : Bytes) : Prog Exit := mainProg c op (Rdr.new input eofErr false)

/-- An environment without faults. -/
def calm : Nat → Choice := fun _ => Choice.none

/-- An environment in which only call number `n` fails. -/
def failAt (n : Nat) (e : IoErr) (cut : Nat) : Nat → Choice :=
  fun i => if i = n then { Choice.none with fault := some e, cut := cut } else Choice.none

def eio : IoErr := ⟨.other 5, b!"Input/output error (os error 5)"⟩

end Verif.Tests
