import Verif.Model.Errors
/-!
Model of `scutiger-core/src/pktline.rs`.
-/
namespace Verif

/-- pktline.rs:61, 170 `MAX_PACKET_LEN`. -/
def maxPacketLen : Nat := 65516

/-- A received packet (pktline.rs:9-27). The model keeps type and data together: a data packet
carries its bytes, and `PacketType::Data(n)` always has `n = data.len()`
(pktline.rs:98-102). -/
inductive Packet
  | flush
  | delim
  | data (d : Bytes)
  deriving DecidableEq, Repr

/-- pktline.rs:45-50 `Packet::data`. -/
def Packet.data? : Packet → Option Bytes
  | .data d => some d
  | _ => none

/-- `pktline::Reader` (pktline.rs:53-58) together with the byte source it wraps.

* `input`: bytes the source will still deliver;
* `fin`: the error `read_exact` reports once they are exhausted (`UnexpectedEof` for a plain
  end of file, or a connection error);
* `pending`: `buf[off..len]`, the bytes of the last packet not yet handed out.

Simplification: the contents of `buf` outside `off..len` are not observable and not modelled.
`checked` says whether the crate was compiled with overflow checks (debug) or not
(`cargo build --release`). -/
structure Rdr where
  input : Bytes
  pending : Bytes
  fin : IoErr
  checked : Bool
  deriving DecidableEq, Repr

/-- The end-of-file error of `Read::read_exact` (pktline.rs:74, 84, 92, 100). -/
def eofErr : IoErr := ⟨.unexpectedEof, b!"failed to fill whole buffer"⟩

/-- pktline.rs:63-70 `Reader::new`. -/
def Rdr.new (input : Bytes) (fin : IoErr) (checked : Bool) : Rdr := ⟨input, [], fin, checked⟩

/-- `rdr.read_exact(&mut buf[0..n])`: on a short source the remaining bytes are consumed and the
source's final error is returned (pktline.rs:74, 84, 92, 100). -/
def Rdr.readExact (r : Rdr) (n : Nat) : Except IoErr Bytes × Rdr :=
  if n ≤ r.input.length then (.ok (r.input.take n), { r with input := r.input.drop n })
  else (.error r.fin, { r with input := [] })

/-- pktline.rs:111-115: value of one header byte. The match arms are the inclusive ranges
`b'0'...b':'` and `b'a'...b'g'`. -/
def headerDigit (x : UInt8) : Option Nat :=
  if 48 ≤ x && x ≤ 58 then some (x.toNat - 48)
  else if 97 ≤ x && x ≤ 103 then some (x.toNat - 97 + 10)
  else none

/-- pktline.rs:116 `(v as u16) << ((3 - i) * 4)`: bits shifted out are lost. -/
def shl16 (v i : Nat) : Nat := (v * 2 ^ ((3 - i) * 4)) % 65536

/-- pktline.rs:106-120 `parse_header`. The four shifted digits are summed as `u16`
(`into_iter().sum()`): on overflow this panics with overflow checks and wraps without. Digits
are examined left to right and the first bad one is the error. -/
def parseHeader (checked : Bool) (h : Bytes) : Res Nat :=
  match h with
  | [a, b, c, d] =>
    match headerDigit a, headerDigit b, headerDigit c, headerDigit d with
    | some a, some b, some c, some d =>
      let s := shl16 a 0 + shl16 b 1 + shl16 c 2 + shl16 d 3
      if s < 65536 then .ok s else if checked then .panic else .ok (s % 65536)
    | _, _, _, _ => .err (Err.simple .badPktlineHeader)
  | _ => .err (Err.simple .badPktlineHeader)

/-- pktline.rs:90-104 `Reader::read_packet`. -/
def Rdr.readPacket (r : Rdr) : Res Packet × Rdr :=
  match r.readExact 4 with
  | (.error e, r) => (.err (Err.ofIo e), r)
  | (.ok hdr, r) =>
    match parseHeader r.checked hdr with
    | .err e => (.err e, r)
    | .panic => (.panic, r)
    | .ok size =>
      if size = 0 then (.ok .flush, r)
      else if size = 1 then (.ok .delim, r)
      else if size = 2 ∨ size = 3 then (.err (Err.simple .badPktlineHeader), r)
      else match r.readExact (size - 4) with
        | (.error e, r) => (.err (Err.ofIo e), r)
        | (.ok d, r) => (.ok (.data d), r)

/-- pktline.rs:72-88 `Reader::read_one`. The data read into the caller's buffer is returned in
the packet. -/
def Rdr.readOne (r : Rdr) : Res Packet × Rdr :=
  match r.readExact 4 with
  | (.error e, r) => (.err (Err.ofIo e), r)
  | (.ok hdr, r) =>
    match parseHeader r.checked hdr with
    | .err e => (.err e, r)
    | .panic => (.panic, r)
    | .ok size =>
      if size = 0 then (.ok .flush, r)
      else if size = 1 then (.ok .delim, r)
      else if size = 2 ∨ size = 3 then (.err (Err.simple .badPktlineHeader), r)
      else if size > maxPacketLen + 4 then (.err (Err.simple .badPktlineHeader), r)
      else match r.readExact (size - 4) with
        | (.error e, r) => (.err (Err.ofIo e), r)
        | (.ok d, r) => (.ok (.data d), r)

/-- The `loop` of pktline.rs:140-161, with `n` the caller's buffer length (`buf.len()`).
Every iteration that continues has consumed a 4-byte header, so `r.input.length + 1` is enough
fuel; running out of fuel is unreachable (`Rdr.readLoop_fuel`). The result is the bytes placed
in the caller's buffer. -/
def Rdr.readLoopF : Nat → Nat → Rdr → Res Bytes × Rdr
  | 0, _, r => (.panic, r)
  | f + 1, n, r =>
    match r.readOne with
    | (.ok .delim, r) => (.ok [], r)
    | (.ok .flush, r) => (.ok [], r)
    | (.ok (.data d), r) =>
      if n ≥ maxPacketLen then
        -- direct path: `(Ok(Data(0)), false) => n` with the outer `n = 0`, else return
        (if d = [] then Rdr.readLoopF f n r else (.ok d, r))
      else
        (if d = [] then Rdr.readLoopF f n r
         else (.ok (d.take n), { r with pending := d.drop n }))
    | (.err e, r) => (.err (Err.ofIo e.toIo), r)
    | (.panic, r) => (.panic, r)

/-- The `loop` of pktline.rs:140-161, with enough fuel. -/
def Rdr.readLoop (n : Nat) (r : Rdr) : Res Bytes × Rdr := Rdr.readLoopF (r.input.length + 1) n r

/-- pktline.rs:128-162 `io::Read::read` with a buffer of length `n`. The `io::Error` it returns
is given here already re-wrapped by the caller's `?` (`From<io::Error>`, errors.rs:197-201).

In the fall-through case with a non-empty `pending` (only possible when `n = 0`), reading a new
packet overwrites `buf`; if that read fails, `off` and `len` keep their values (the model keeps
the old bytes; the real ones may be partially overwritten). -/
def Rdr.read (n : Nat) (r : Rdr) : Res Bytes × Rdr :=
  let k := min r.pending.length n
  if k > 0 then (.ok (r.pending.take k), { r with pending := r.pending.drop k })
  else r.readLoop n

/-- pktline.rs:176-181 `write_one`: what is written for one data packet. -/
def encData (d : Bytes) : Bytes := hex4 (d.length + 4) ++ d

/-- pktline.rs:183-200 `Writer::write_packet`: the bytes written. -/
def encPacket : Packet → Bytes
  | .flush => b!"0000"
  | .delim => b!"0001"
  | .data d => encData d

/-- Fuelled `slice::chunks`; `chunks` supplies enough fuel (pktline.rs:206). -/
def chunksF : Nat → Nat → Bytes → List Bytes
  | 0, _, _ => []
  | _ + 1, _, [] => []
  | f + 1, k, s => s.take k :: chunksF f k (s.drop k)

/-- `slice::chunks(k)` for `k > 0` (pktline.rs:206). -/
def chunks (k : Nat) (s : Bytes) : List Bytes := chunksF s.length k s

/-- pktline.rs:204-213 `Write::write` on a sink that accepts everything: the bytes emitted and
the count returned. -/
def writeStream (s : Bytes) : Bytes × Nat :=
  (((chunks maxPacketLen s).map encData).flatten, ((chunks maxPacketLen s).map List.length).sum)

/-- The kind-only view of a failed/finished read used by the iterator: pktline.rs:239-245
`ReaderIterator::next`. `none` is the end of the iteration. -/
def Rdr.next (r : Rdr) : Option (Res Packet) × Rdr :=
  match r.readPacket with
  | (.ok p, r) => (some (.ok p), r)
  | (.err e, r) => if e.ioKind = .unexpectedEof then (none, r) else (some (.err e), r)
  | (.panic, r) => (some .panic, r)

end Verif
