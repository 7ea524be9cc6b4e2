/-!
Byte strings and the std conversions the code relies on.

Rust `Vec<u8>`, `&[u8]`, `Bytes`, and (through their UTF-8 encoding) `String`/`&str` are all
modelled as `List UInt8`.
-/
namespace Verif

/-- Byte strings: the `Vec<u8>`, `&[u8]`, `Bytes` and strings of all the code (e.g. pktline.rs:72, 176;
processor.rs:110, 254). -/
abbrev Bytes := List UInt8

/-- `b!"text"` is the explicit list of the UTF-8 bytes of a literal (Rust `b"..."`/`"..."`). -/
syntax:max (name := bytesLit) "b!" noWs str : term

open Lean in
macro_rules
  | `(b!$s:str) => do
    let bs := s.getString.toUTF8.toList
    let elems ← bs.toArray.mapM fun b => pure (Syntax.mkNumLit (toString b.toNat))
    `(([$elems,*] : Bytes))

/-- `b'\n'` (processor.rs:266, 386, 672). -/
def NL : UInt8 := 10
/-- `b' '` (processor.rs:390, 677). -/
def SP : UInt8 := 32
/-- `b'='` (processor.rs:257). -/
def EQ : UInt8 := 61
/-- `b':'` (local.rs:222, 332). -/
def COLON : UInt8 := 58
/-- `/`, which separates the components of a path (local.rs:366-367). -/
def SLASH : UInt8 := 47

/-- `u8::is_ascii_digit` (processor.rs:212). -/
def isDigit (b : UInt8) : Bool := 48 ≤ b && b ≤ 57

/-- Fuelled decimal formatting; `natDec` supplies enough fuel (processor.rs:422, 517). -/
def natDecF : Nat → Nat → Bytes
  | 0, _ => []
  | f + 1, n =>
    if n < 10 then [UInt8.ofNat (48 + n)]
    else natDecF f (n / 10) ++ [UInt8.ofNat (48 + n % 10)]

/-- `format!("{}", n)` for an unsigned integer
(processor.rs:422, 517; local.rs:332). -/
def natDec (n : Nat) : Bytes := natDecF (n + 1) n

/-- `format!("{}", i)` for a signed integer (local.rs:332, the lock timestamp). -/
def intDec : Int → Bytes
  | Int.ofNat n => natDec n
  | Int.negSucc n => b!"-" ++ natDec (n + 1)

/-- `format!("{:03}", code)` (processor.rs:147, 156). -/
def dec3 (n : Nat) : Bytes :=
  let d := natDec n
  List.replicate (3 - d.length) 48 ++ d

/-- One lower-case hexadecimal digit (pktline.rs:177, processor.rs:330). -/
def hexDigit (n : Nat) : UInt8 :=
  if n < 10 then UInt8.ofNat (48 + n) else UInt8.ofNat (87 + n)

/-- Fuelled hexadecimal formatting; `hex4` supplies enough fuel (pktline.rs:177). -/
def hexNatF : Nat → Nat → Bytes
  | 0, _ => []
  | f + 1, n =>
    if n < 16 then [hexDigit n] else hexNatF f (n / 16) ++ [hexDigit (n % 16)]

/-- `format!("{:04x}", n)` (pktline.rs:177): at least four digits, more if needed. -/
def hex4 (n : Nat) : Bytes :=
  let d := hexNatF (n + 1) n
  List.replicate (4 - d.length) 48 ++ d

/-- `hex::encode` (processor.rs:330, local.rs:218). -/
def hexEncode : Bytes → Bytes
  | [] => []
  | b :: bs => hexDigit (b.toNat / 16) :: hexDigit (b.toNat % 16) :: hexEncode bs

/-- The digit loop of `uN::from_str`: checked multiply and add; `none` on a non-digit or on
overflow past `max` (processor.rs:304, 397; local.rs:227). -/
def digitsFold (max : Nat) : Nat → Bytes → Option Nat
  | acc, [] => some acc
  | acc, d :: ds =>
    if isDigit d then
      let acc' := acc * 10 + (d.toNat - 48)
      if acc' ≤ max then digitsFold max acc' ds else none
    else none

/-- `str::parse::<uN>()` with `uN::MAX = max` (used at processor.rs:304, 397): empty input and
a lone sign are errors, one leading `+` is skipped. -/
def parseNat (max : Nat) (s : Bytes) : Option Nat :=
  match s with
  | [] => none
  | c :: cs => if c = 43 then (if cs = [] then none else digitsFold max 0 cs)
               else digitsFold max 0 s

/-- `u64::MAX` (processor.rs:304, 397). -/
def u64Max : Nat := 18446744073709551615
/-- `i64::MAX` (local.rs:227). -/
def i64Max : Nat := 9223372036854775807

/-- `str::parse::<i64>()` (local.rs:227). -/
def parseI64 (s : Bytes) : Option Int :=
  match s with
  | [] => none
  | c :: cs =>
    if c = 45 then
      (if cs = [] then none else (digitsFold (i64Max + 1) 0 cs).map (fun (n : Nat) => - (n : Int)))
    else if c = 43 then
      (if cs = [] then none else (digitsFold i64Max 0 cs).map (fun (n : Nat) => (n : Int)))
    else (digitsFold i64Max 0 s).map (fun (n : Nat) => (n : Int))

/-- Lexicographic `<` on byte strings (`Ord for [u8]`; processor.rs:577, 611; and the file-name
order of local.rs:414, `OsString` compares as bytes on unix). -/
def bytesLt : Bytes → Bytes → Bool
  | [], [] => false
  | [], _ :: _ => true
  | _ :: _, [] => false
  | a :: as, b :: bs => if a < b then true else if b < a then false else bytesLt as bs

/-- `slice::split(|&b| b == sep)`: always returns at least one piece (processor.rs:390, 677). -/
def splitOn (sep : UInt8) : Bytes → List Bytes
  | [] => [[]]
  | b :: bs =>
    if b = sep then [] :: splitOn sep bs
    else match splitOn sep bs with
      | [] => [[b]]
      | p :: ps => (b :: p) :: ps

/-- `slice::splitn(n, |&b| b == sep)` for `n ≥ 1`: the last piece is the unsplit rest. The
argument is `n - 1`, the number of splits still allowed (local.rs:222). -/
def splitN (sep : UInt8) : Nat → Bytes → List Bytes
  | 0, s => [s]
  | _ + 1, [] => [[]]
  | n + 1, b :: bs =>
    if b = sep then [] :: splitN sep n bs
    else match splitN sep (n + 1) bs with
      | [] => [[b]]
      | p :: ps => (b :: p) :: ps

/-- Byte at index `i`, 0 past the end (`safe_get` of core::str::lossy) (std; used at processor.rs:377, local.rs:445).
-/
def byteAt (s : Bytes) (i : Nat) : Nat := (s.getD i 0).toNat

/-- Whether byte `i` is a UTF-8 continuation byte (std; used at processor.rs:377, local.rs:445). -/
def contAt (s : Bytes) (i : Nat) : Bool := byteAt s i / 64 = 2

/-- One step of UTF-8 decoding at the head of a non-empty string: `(valid, consumed)`; on an
invalid sequence `consumed` is the length of the maximal invalid prefix (std's
`core::str::lossy::Utf8Chunks`) (used at processor.rs:377, 630; local.rs:226, 445). -/
def utf8Next (s : Bytes) : Bool × Nat :=
  let b := byteAt s 0
  let c := byteAt s 1
  if b < 128 then (true, 1)
  else if b < 0xC2 then (false, 1)
  else if b < 0xE0 then (if contAt s 1 then (true, 2) else (false, 1))
  else if b < 0xF0 then
    if (b = 0xE0 && 0xA0 ≤ c && c ≤ 0xBF) || (0xE1 ≤ b && b ≤ 0xEC && 0x80 ≤ c && c ≤ 0xBF) ||
       (b = 0xED && 0x80 ≤ c && c ≤ 0x9F) || (0xEE ≤ b && 0x80 ≤ c && c ≤ 0xBF) then
      (if contAt s 2 then (true, 3) else (false, 2))
    else (false, 1)
  else if b < 0xF5 then
    if (b = 0xF0 && 0x90 ≤ c && c ≤ 0xBF) || (0xF1 ≤ b && b ≤ 0xF3 && 0x80 ≤ c && c ≤ 0xBF) ||
       (b = 0xF4 && 0x80 ≤ c && c ≤ 0x8F) then
      (if contAt s 2 then (if contAt s 3 then (true, 4) else (false, 3)) else (false, 2))
    else (false, 1)
  else (false, 1)

/-- Fuelled `String::from_utf8_lossy`; `utf8Lossy` supplies enough fuel (processor.rs:377, local.rs:445). -/
def utf8LossyF : Nat → Bytes → Bytes
  | 0, _ => []
  | _ + 1, [] => []
  | f + 1, s =>
    let (ok, n) := utf8Next s
    (if ok then s.take n else [0xEF, 0xBF, 0xBD]) ++ utf8LossyF f (s.drop n)

/-- `String::from_utf8_lossy` (processor.rs:377; `to_string_lossy` at local.rs:445). -/
def utf8Lossy (s : Bytes) : Bytes := utf8LossyF s.length s

/-- Fuelled `str::from_utf8(..).is_ok()`; `utf8Valid` supplies enough fuel (processor.rs:630, local.rs:226). -/
def utf8ValidF : Nat → Bytes → Bool
  | _, [] => true
  | 0, _ => false
  | f + 1, s => (utf8Next s).1 && utf8ValidF f (s.drop (utf8Next s).2)

/-- `str::from_utf8(..).is_ok()` (processor.rs:630, local.rs:226). -/
def utf8Valid (s : Bytes) : Bool := utf8ValidF s.length s

/-- `format!("{:?}", bytes)` of bytes 0.4.12 (processor.rs:308, 402). -/
def bytesDebug (s : Bytes) : Bytes :=
  b!"b\"" ++ s.flatMap (fun c =>
    if c = 10 then b!"\\n" else if c = 13 then b!"\\r" else if c = 9 then b!"\\t"
    else if c = 92 || c = 34 then [92, c] else if c = 0 then b!"\\0"
    else if 32 ≤ c && c < 127 then [c]
    else b!"\\x" ++ [hexDigit (c.toNat / 16), hexDigit (c.toNat % 16)]) ++ b!"\""

end Verif
