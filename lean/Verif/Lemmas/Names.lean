import Verif.Spec.Server
import Verif.Lemmas.Bytes
/-! The textual conventions of the model and of the specification agree. -/
namespace Verif
open Spec

theorem hexEncode_eq_hex (b : Bytes) : hexEncode b = hex b := by
  induction b with
  | nil => rfl
  | cons x b ih =>
    have h : ∀ n, n < 16 → hexDigit n = lowerHex.getD n 0 := by
      intro n hn
      have : ∀ n : Fin 16, hexDigit n.1 = lowerHex.getD n.1 0 := by decide +kernel
      exact this ⟨n, hn⟩
    have hx : x.toNat < 256 := x.toNat_lt
    simp only [hexEncode, hex, List.flatMap_cons]
    rw [h _ (by omega), h _ (by omega)]
    simp only [List.cons_append, List.nil_append, List.cons.injEq, true_and]
    exact ih

theorem objectFile_eq (root : Path) (oid : Bytes) : objectFile root oid = objPath root oid := by
  simp [objectFile, objectDir, objPath]

theorem lockPath_eq (cfg : Cfg) (path : Bytes) :
    lockPath cfg path = lockFile cfg.root (lockName cfg.sha path) := by
  simp only [lockPath, lockId, locksDir, lockFile, lockName, ← hexEncode_eq_hex]
  simp

theorem digitChar_eq (n : Nat) (h : n < 10) : UInt8.ofNat (48 + n) = UInt8.ofNat n.digitChar.toNat := by
  have : (List.range 10).all (fun n => decide (UInt8.ofNat (48 + n) = UInt8.ofNat n.digitChar.toNat)) = true := by
    decide
  have := List.all_eq_true.mp this n (by simpa using h)
  simpa using this

theorem natDec_eq (n : Nat) : natDec n = decimal n := by
  induction n using Nat.strongRecOn with
  | ind n ih =>
    by_cases h : n < 10
    · rw [natDec_lt h, decimal, Nat.toDigits_of_lt_base h, digitChar_eq n h]; rfl
    · have h : 10 ≤ n := Nat.le_of_not_lt h
      rw [natDec_ge h, decimal, Nat.toDigits_of_base_le (by decide) h, ih (n / 10) (by omega),
        digitChar_eq (n % 10) (by omega)]
      simp [decimal]

theorem intDec_eq (i : Int) : intDec i = decimalInt i := by
  cases i with
  | ofNat n => simp [intDec, decimalInt, natDec_eq]
  | negSucc n =>
    have : Int.negSucc n < 0 := by omega
    simp [intDec, decimalInt, natDec_eq, Int.natAbs]

theorem lockId_eq (cfg : Cfg) (path : Bytes) : lockId cfg path = lockName cfg.sha path := by
  simp only [lockId, lockName, ← hexEncode_eq_hex]
  simp

theorem userName_eq (cfg : Cfg) (uid : Nat) : userName cfg uid = ownerName cfg uid := by
  unfold userName ownerName
  rw [natDec_eq]
  cases cfg.passwd uid <;> rfl

theorem lockRecord_eq (l : Lock) : lockRecord l.time l.path = lockText l := by
  simp [lockRecord, lockText, intDec_eq]

theorem bytesLt_iff : ∀ a b : Bytes, bytesLt a b = true ↔ a < b
  | [], [] => by simp [bytesLt]
  | [], _ :: _ => by simp [bytesLt]
  | _ :: _, [] => by simp [bytesLt]
  | a :: as, b :: bs => by
    rw [bytesLt, List.cons_lt_cons_iff, ← bytesLt_iff as bs]
    by_cases h : a < b
    · simp [h]
    · by_cases h' : b < a
      · have : a ≠ b := fun e => by subst e; exact UInt8.lt_irrefl _ h'
        simp [h, h', this]
      · have : a = b := Classical.byContradiction fun hne => (UInt8.lt_or_lt_of_ne hne).elim h h'
        simp [this]

theorem objDir_eq (root : Path) (oid : Bytes) : (objPath root oid).dropLast = objectDir root oid := by
  rw [← objectFile_eq, objectFile, List.dropLast_concat]

theorem locksDir_join (root : Path) (n : Bytes) : locksDir root ++ [n] = lockFile root n := by
  simp [locksDir, lockFile]

end Verif
