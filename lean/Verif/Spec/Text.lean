import Verif.Model.Bytes
/-! Specifications of the textual conventions, independent of the model's parsers. -/
namespace Verif.Spec

def decDigits : Bytes := b!"0123456789"

/-- `Dec s n`: the non-empty digit string `s` denotes `n` in base ten. -/
inductive Dec : Bytes → Nat → Prop
  | one {d v} : decDigits.idxOf? d = some v → Dec [d] v
  | snoc {s n d v} : Dec s n → decDigits.idxOf? d = some v → Dec (s ++ [d]) (10 * n + v)

/-- An argument line: `key=value\n`, where the key has no `=`. -/
def argLine (k v : Bytes) : Bytes := k ++ b!"=" ++ v ++ b!"\n"

/-- A well-formed argument list: distinct keys, none containing `=` (byte 61). -/
def ArgsOk (kv : List (Bytes × Bytes)) : Prop :=
  (∀ e ∈ kv, (61 : UInt8) ∉ e.1) ∧ (kv.map (·.1)).Nodup

/-- The value of a key in such a list. -/
def lookup (kv : List (Bytes × Bytes)) (k : Bytes) : Option Bytes :=
  (kv.find? (fun e => e.1 = k)).map (·.2)

/-- An object ID is 64 lower-case hexadecimal digits. -/
def IsOid (b : Bytes) : Prop := b.length = 64 ∧ ∀ x ∈ b, x ∈ b!"0123456789abcdef"

def lowerHex : Bytes := b!"0123456789abcdef"

/-- Lower-case hexadecimal: two digits per byte, high digit first. -/
def hex (b : Bytes) : Bytes := b.flatMap fun x => [lowerHex.getD (x.toNat / 16) 0, lowerHex.getD (x.toNat % 16) 0]

/-- The ID of the lock on a path (SHA-256 of `v1:` and the path, in hexadecimal). -/
def lockName (sha : Bytes → Bytes) (path : Bytes) : Bytes := hex (sha (b!"v1:" ++ path))

end Verif.Spec
