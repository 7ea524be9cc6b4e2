import Verif.Model.Bytes
/-!
Model of `scutiger-core/src/errors.rs`.
-/
namespace Verif

/-- errors.rs:15-20 `ExitStatus`. -/
inductive ExitStatus
  | success | nonFatal | fatal | externalProgramFailed
  deriving DecidableEq, Repr

/-- The `as i32` value of an `ExitStatus` (errors.rs:16-19). -/
def ExitStatus.code : ExitStatus → Nat
  | .success => 0
  | .nonFatal => 1
  | .fatal => 2
  | .externalProgramFailed => 3

/-- errors.rs:23-42 `ErrorKind`. -/
inductive ErrorKind
  | noSuchRevision | conflict | gitError | pcreError | ioError | badPktlineHeader
  | invalidPacket | unexpectedPacket | invalidLFSOid | invalidInteger | parseError
  | unknownCommand | missingData | extraData | corruptData | notAllowed | invalidPath
  | downcastError
  deriving DecidableEq, Repr

/-- `std::io::ErrorKind`: the kinds the code distinguishes, and all others as `other n` (errors.rs:145-157;
local.rs:113, 172, 187, 370; processor.rs:511, 645, 648, 663; pktline.rs:242). -/
inductive IoKind
  | notFound | permissionDenied | alreadyExists | unexpectedEof | invalidData
  | isADirectory | notADirectory | invalidInput | nameTooLong | other (n : Nat)
  deriving DecidableEq, Repr

/-- A `std::io::Error`: its kind and its `Display` text (errors.rs:197-201). -/
structure IoErr where
  kind : IoKind
  text : Bytes
  deriving DecidableEq, Repr

/-- errors.rs:45-49 `Error`. The boxed `internal` error is represented by what the code can
observe of it: its `Display` text, and its `io::ErrorKind` if it downcasts to `io::Error`. -/
structure Err where
  kind : ErrorKind
  internal : Option (Option IoKind × Bytes)
  message : Option Bytes
  deriving DecidableEq, Repr

namespace Err

/-- errors.rs:119-125 `Error::new_simple`. -/
def simple (k : ErrorKind) : Err := ⟨k, none, none⟩

/-- errors.rs:128-134 `Error::from_message`. -/
def withMsg (k : ErrorKind) (m : Bytes) : Err := ⟨k, none, some m⟩

/-- errors.rs:107-116 `Error::new` with a wrapped error that is not an `io::Error`. -/
def wrapOther (k : ErrorKind) (text : Bytes) : Err := ⟨k, some (none, text), none⟩

/-- errors.rs:197-201 `From<io::Error> for Error`. -/
def ofIo (e : IoErr) : Err := ⟨.ioError, some (some e.kind, e.text), none⟩

/-- errors.rs:145-153 `Error::io_kind`. -/
def ioKind (e : Err) : IoKind :=
  match e.internal with
  | some (some k, _) => k
  | some (none, _) => .invalidData
  | none => .invalidData

/-- errors.rs:164-170 `Error::exit_status`. -/
def exitStatus (e : Err) : ExitStatus :=
  match e.kind with
  | .noSuchRevision => .nonFatal
  | .conflict => .nonFatal
  | _ => .fatal

/-- errors.rs:159-161 `Error::fatal`. -/
def fatal (e : Err) : Bool := e.exitStatus = .fatal

/-- errors.rs:51-89 `Display for Error`, the part selected by the kind. -/
def kindText (e : Err) : Bytes :=
  match e.kind with
  | .noSuchRevision => b!"fatal: needed a single revision"
  | .conflict => b!"fatal: conflict"
  | .pcreError => match e.internal with
    | some (_, t) => b!"fatal: invalid regular expression: " ++ t
    | none => b!"fatal: invalid regular expression"
  | .ioError => match e.internal with
    | some (_, t) => b!"fatal: I/O error: " ++ t
    | none => b!"fatal: unknown I/O error"
  | .gitError => match e.internal with
    | some (_, t) => b!"fatal: " ++ t
    | none => b!"fatal: an unknown error occurred"
  | .badPktlineHeader => b!"malformed or unknown pkt-line header"
  | .invalidPacket => b!"invalid or malformed packet"
  | .unexpectedPacket => b!"unexpected packet while parsing"
  | .invalidLFSOid => b!"invalid or malformed LFS oid"
  | .invalidInteger => b!"invalid or malformed integer or size value"
  | .parseError => b!"parse error"
  | .unknownCommand => b!"unknown command or operation"
  | .missingData => b!"incomplete or missing data"
  | .extraData => b!"extra data"
  | .corruptData => b!"corrupt data"
  | .notAllowed => b!"not allowed"
  | .invalidPath => b!"invalid path"
  | .downcastError => b!"unexpected type when downcasting"

/-- errors.rs:51-89 `Display for Error`. -/
def display (e : Err) : Bytes :=
  match e.message with
  | some m => e.kindText ++ b!": " ++ m
  | none => e.kindText

/-- errors.rs:173-177 `From<Error> for io::Error`. -/
def toIo (e : Err) : IoErr := ⟨e.ioKind, e.display⟩

end Err

/-- Rust results with panics made explicit (all functions that return a `Result`; panics at git-lfs-transfer.rs:158,
pktline.rs:119, local.rs:264). -/
inductive Res (α : Type) where
  | ok (a : α)
  | err (e : Err)
  | panic
  deriving DecidableEq, Repr

end Verif
