# Formal model of bk2204/scutiger in Lean 4

## Approach

One executable model, written as small total functions, of the three crates:

* `Verif/Model/Bytes.lean` – byte strings, decimal/hex formatting and parsing, UTF-8.
* `Verif/Model/Errors.lean` – `scutiger-core/src/errors.rs`.
* `Verif/Model/Pktline.lean` – `scutiger-core/src/pktline.rs`: reader, writer, headers.
* `Verif/Model/World.lean` – the operating-system interface: a file system with
  directories, names, inodes (so that hard links, renames and open file descriptors mean
  what POSIX says), and one `Op` per std/libc call the code makes. Each call takes a
  `Choice` (fault, short write, random name, clock, read sizes): quantifying over choices
  covers every environment behaviour.
* `Verif/Model/Prog.lean` – programs as trees of OS calls (`Prog`), so that the *same*
  server program can be run alone, interleaved with any number of other processes, and
  killed between any two calls. `?`, early return and panics are explicit results.
* `Verif/Model/Server.lean` – `processor.rs`, `backend.rs`, `backend/local.rs`,
  `git-lfs-transfer.rs`, function by function.
* `Verif/Model/Late.lean` – the loop of the server with the exact moment at which the temporary file is
  removed after a failed rename; `order_immaterial` relates it to `Server.lean`, which all else is about.
* `Verif/Model/System.lean` – interleaving semantics of many server processes, with
  kills, and with other programs at work elsewhere on the file system.
* `Verif/Model/Tools.lean` – `git-at.rs`, `git-recent-refs.rs`, `pager/mod.rs`,
  `set_permissions`.

Specifications that do not mention the model's helpers live in `Verif/Spec/*`; helper
lemmas in `Verif/Lemmas/*`; the property theorems in `Verif/Props/*`, each with a
non-vacuity example. `Verif/Tests.lean` runs the repository's own test transcripts through
the model (tests of the reading of the code, not proofs).

SHA-256 is a parameter `sha : Bytes -> Bytes` with 32-byte output: theorems hold for every
such function, hence for SHA-256; where collision-freedom matters it is an explicit
hypothesis about the inputs concerned.

## Proof techniques

* pure codec/parsing properties (C01-C07, C09-C11, C31, C39, C43-C51): induction and
  algebraic round trips.
* `wp`: a weakest-precondition calculus over `Prog` with an ownership state. A global
  invariant plus "every OS call of the program satisfies its precondition" gives safety for
  all interleavings, faults and kill points (C12, C14, C20-C22, C24, C25, C36, C53).
* refinement: a fault-free sequential run of the whole server over the encoding of any list
  of well-formed requests produces the replies and the state of an abstract server
  (C13, C15-C19, C26, C30, C32, C34, C35, C37).
* properties the code violates: the negation is proved with a concrete witness run
  (`..._refuted`), and the true part is proved as `..._partial`
  (C04, C05, C08, C23, C27, C28, C29, C33, C38, C42, C46, C50, C52).

## Per property plan

| id | model | proof |
|----|-------|-------|
| C01 | `readPacket`, `writePacket` | header parse of the hex formatting, list splitting |
| C02 | `writeStream` | induction over chunks |
| C03 | `Rdr.read` | induction on remaining stream + pending bytes, arbitrary schedule |
| C04 | `Rdr.read` | refuted: empty-buffer read with pending data drops it; partial: exactly for which states it is harmless (`Ahead`: nothing buffered and data next) |
| C05 | `parseHeader` | refuted (`:` and `g` accepted, wrap/overflow); partial: exact on hex digits, rejects everything outside `0-9:a-g`; `C05_exact_partial` gives the outcome for every header |
| C06 | `readOne`, `readPacket` | case analysis |
| C07 | `Rdr.read` | induction |
| C08 | server | refuted for lock/unlock; partial: put-object; exact: a broken request equals its complete packets and a flush |
| C09, C10 | `parseArgs`, `parseNat` | induction |
| C11 | `Oid` | characterisation |
| C12, C22, C24 | system | ownership invariant over all interleavings |
| C13-C19, C26, C30, C32, C35, C37 | server | refinement |
| C20, C21, C41 | server | wp with call preconditions |
| C23 | server | refuted by `unlock ../../x`; partial: all other commands |
| C25 | system | invariant over traces |
| C27 | server, system | refuted by concrete schedules; partial over all traces |
| C28 | system | refuted by a concrete schedule; partial |
| C29 | server | refuted for traversal ids; partial for lock ids |
| C31 | lock record | round trip |
| C33, C34 | `listLocks` | refuted limit+1; traversal by induction |
| C36, C40 | server | wp over emitted bytes; fuel lemma |
| C38, C52, C54 | server | refuted by witness; what holds, exactly: the server takes the packets of `Spec.Extent` as one request (C38) |
| C39, C43, C51 | errors | decision logic |
| C42 | server | refuted with a ticking clock; partial for a constant clock |
| C44-C46 | git-at | list search; regex syntax tree with PCRE precedence |
| C47, C48 | recent-refs | permutation and sortedness; prefix |
| C49 | pager | decision logic |
| C50 | permissions | refuted for octal; partial |
| C53 | server | wp with ownership postcondition; simulation between the two orders of reply and removal after a failed rename |
| C55 | server | wp with the full history as ghost state |
| C56 | system | wp along one process of an execution, on top of the ownership invariant |
| C57 | system | the same, with locks; a call of another process on the same lock excuses the request |
| C58 | server | programs depend on input they have consumed only (`M.Causal`), a reply ends with a flush, C38/C52 for exact consumption |
| C59 | system | C57 gives what a listing read and when (`Listed`); induction over the files read and over pages; two concrete schedules |
| C60 | server | wp with the full history as ghost state, one lemma per command; refuted by one failing call for batches and for listings of all locks |
| C61 | `utf8Next`, `utf8Valid`, `utf8Lossy`, `unlockCmd`, `listLocks` | arithmetic on encodings; the decoder against `String.utf8EncodeChar`; traces |
| C62 | `StepMany`: servers of several repositories | projection onto one repository; a step of another server is a step of `Elsewhere`, by confinement (`Inv.ohome`) |
| C63 | `Transfer.process`, `setPermissions`, `parseOctal` | case analysis on the answers of libgit2; the octal reader against the value of a digit string; bits |
| C64 | `Pipeline`, `PipeStep`: the program, a pipe and the pager | invariant over interleavings; `nthLine` against `main`; refuted: any listing that ends |
| C65 | every command of the server as a consumer of credit | a logic whose state is credit: calls cost one, bytes read give one, names listed give three |
| C66 | the same | the same logic with other prices: writes cost their length, nothing else costs; a lock record against the packets that asked for it |
| C67 | `turn`, `dispatch` | the table of refusals (Spec/Table.lean) is complete and without overlap; one equation for the turn per entry |
| C68 | `Step`, `PowerLoss` (Spec/Power.lean) | refuted by closed runs; an object path changes its file only by a rename, files at object paths are never written, so what was synced is kept; the other parts are C13, C18, C19 on the files found afterwards |
| C69 | `Turns`, `Client` (Spec/Align.lean) | `Rdr.Le` carries `Along`: each read takes a whole packet off any input that begins with packets, and all of a broken one; closed under sequencing, so it holds for every turn. Larger packets: the upload ends with the reader inside the packet |
| C70 | `RecentRefs.process`, `Listing`, `Pager` (Spec/Tools.lean) | case by case; found missing by seeded errors s73, s77, s82 |
| C71 | `Reply`, `Sends` (Spec/Reply.lean, Spec/Server.lean); refuted for lock paths of 65515 bytes, whose listing contains a packet `lock <id>` of the client's choosing | frames are read back by `readPacket`; unique decomposition by induction on the stream |
| C72 | `Means`, `Denied`, `Talk`, `Conversation` (Spec/Meaning.lean); refuted for `unlock` with an argument that is no ID, which lets a client ask about files outside of the lfs directory | case analysis of `Extent` (C38) for totality; exact replies to nonsense by equations of the model; induction on the session; the replies of the simple server do not mention root, umask, buffers or choices |
| C73 | `stopped`, `Progress`, `SameStore` (Spec/Again.lean); refuted for a `lock` that is killed before it removes its temporary file, which crashes the next `lock` of the same path | a logic of runs with an invariant that holds before every call (Lemmas/Stop.lean); the invariant is shown request by request for all of C72's sessions; the store after a conversation is determined by the last word on each object and lock, so repeating requests changes nothing; unique readability of replies (C71) |
| C74 | `Part`, `Completed`, `BreaksOff`, `CutTalk` (Spec/Cut.lean): what a request means of which some packets have arrived, and a part of the next; the end of the input stands for a flush or delimiter that is missing, except for an upload, which fails | `stops_program_cutTalk` in the logic of Lemmas/Stop.lean; `means_cut`: a proper prefix of a sensible request means nothing, or the request (not an upload), or something that changes nothing; `resumed` from C73 |
| C75 | `LaxFrames`, `LaxPart`, `BadHeader`, `Garbled`, `Any` (Spec/Any.lean, Spec/Lax.lean): the packets that the code accepts, and what it makes of bytes that are none; `OddAt`: the exception | `scan` and induction on the length: every byte string is covered; `stops_any` (Lemmas/Any.lean): the server, against `Any`, with the invariant of C73. `C75_unique`: where a request ends is read off a run of the server, which can only end in one way; that it is the same request, off C72. Only for a program without overflow checks, as released: with them some headers panic (C04) |
| C76 | `Takes`, `Finds`, `Sense`, `HonestSaid`, `Honestly`, `HonestCourse` (Spec/Faulty.lean), with `HonestReply` from C60: what may be said to any bytes | `takes_turn` (Lemmas/FaultyTurn.lean): one turn, against C75's meaning and any history of the OS; `told_put_stops` (Lemmas/Faulty.lean): where reading stops when an upload cannot be written; induction on the length of the input. `finds_total`, `finds_unique` (Props/AnyAll.lean): every byte string, also with an odd `unlock`, has one sense; `C76_meant` follows with it |
| C77 | `ServedAs`, `Dealt`, `CourseOf`, `Partway` (Spec/Unharmed.lean), with `Sense` from C76 and the simple server of C37 | `stops_unlock_odd`, `finds_stops` (Lemmas/Unharmed.lean): one turn on any bytes, at every moment; induction on `Sense`; `C77_effects` by induction on `Dealt`. |
| C78 | `Heeds`, `ServesAll`, `Stumbles`, `BusyWith` (Spec/SharedAny.lean), with `Sense` from C76 and `Answers`, `Excused` from C57 | `amid_finds` (Lemmas/AmongAny.lean): one turn on any bytes among other processes; induction on `Sense`; the execution is completed by letting the server run alone (`Execution.then`), as for C57. |
| C79 | `Overflowing`, `Tidied` (Spec/Checked.lean), `Did`/`Finished` (Spec/Trace.lean), `Partway` from C77 | `M.Strict` (Lemmas/Checked.lean): a relation between the traces of one function in the two builds, closed under sequencing, shown for every function of the server; programs with the same traces are equal (`prog_ext`). |
| C80 | `ReadStep`, `ReadExecution` (Model/Pieces.lean) | `Reading.Sound`: what a process has got of a file of the repository is the beginning of that file, since content only grows; then the whole reading may be put at its end (`read_at_once`). For a file of other programs they are made to change it before and to restore it after. |
| C81 | `MisledStep` (Model/Misled.lean) | the invariant of C12 and C28 (`Good`, `PreInv`, `FullInv`) speaks of calls that change something only, and the programs satisfy it for all answers; so a false answer preserves it (`Good.told`, `misled_lock`). |
| C82 | `ToldStored`, `Intact`, `SaysThere`, `Finishes` (Spec/Push.lean) | from the linearization of C56: the moment of the answer is a moment where the object was there; it stays (C22) and has the right hash (C12). |
| C83 | `Transfer.processErr`, `Transfer.reported` (Model/Stderr.lean) | the process of C43 and C63, with a capacity of standard error; its end by the cases of C63 and C43. |
| C84 | `Steady`, `showing`, `PagesFrom`, `Ramble` (Spec/Loose.lean) | from C60: the reply is backed by the answers about the files; a steadily answered file must be among them. Held locks are answered steadily (semantics of the calls). |
| C85 | `Lives`, `PowerLoss`, `Damaged`, `AboutLock` (Spec/Blackout.lean) | lock files as in C25 and C28, over several lives of the system; replies from C60. |
| C86 | `partFile`, `Made`, `Unfinished` (Spec/Leftover.lean) | the bookkeeping of C12 (each process has at most one temporary file, none at its end), read in the other direction. |
| C87 | `RepBut`, `halfLock`, `stopped` (Spec/Again.lean), `Attempts`, `Taken` (Spec/Retry.lean) | `C73_stopped` for what a kill leaves, and the same for a server that finds the file; induction on the number of kills; the run of `lock` with the file there, which ends in `unreachable!()` after its destructor has removed the file; C72 for the server after that. |
| C88 | `Bears`, `Dossier`, `withGhost` (Spec/Ghost.lean), the simple server (Spec/Server.lean) | The listing reads every file of the directory, in the order of the names; induction over the files. The name of the left file comes directly after that of the lock. False for the code: `C88_refuted`, `C88_endless_refuted`. |
| C89 | `Aloof` (Spec/Aside.lean), `RepBut` (Spec/Again.lean), the simple server (Spec/Server.lean) | A frame rule for the programs of the model (`Prog.frame`): calls that do not touch the file act as if it were not there, but for the random names of temporary files. The calls of each command do not touch it; then C72 for the files without it. A server writes only to files it has created (`own_mainProg`), so the content stays. |
| C90 | `Stints`, `Partly`, `tidied` (Spec/Stints.lean), `Aloof` (Spec/Aside.lean), the simple server (Spec/Server.lean) | Induction over the servers. The frame rule (`Prog.frame`), for any number of files at once, moves a killed run to the files without those that earlier servers left; there C73 applies, and what the run leaves itself joins the others. For `C90_retry` the same rule sets aside the files of all other paths, and what is left is C87. |

## Trusted base

### Lean

* Lean 4.33.0's kernel (and the `olean` files of Lean core it loads).
* Axioms: nothing beyond Lean's own `propext`, `Quot.sound` and `Classical.choice`. No axiom is
  declared in `/verif`, no proof contains `sorry` or `admit`, and neither `native_decide` nor
  `bv_decide` is used; closed evaluations use `decide +kernel`, that is the kernel itself. The list
  per theorem is at the end of this file (`tools/axioms.py` prints it).

### That the model is the code

The model was written by reading; nothing checks it against the compiler's output. Three things stand
in for that: `Verif/Tests/Transcripts.lean` and `Verif/Tests/Units.lean` run all of the repository's own
tests through the model (the two large ones of pktline.rs as statements about every buffer);
`seeded/LOG.jsonl` records which theorems fail when a definition is changed (from s301 on this is shown by a concrete
run that violates the theorem, given there as `counterexample`, not by rebuilding the proofs); and `tools/compare`
compares what can be compared with programs of this sandbox:

* `pcre.py`: the fragment of `Model/Regex.lean` with libpcre2 10.42, 2.4 million random pairs of pattern and
  text, 1.4 million of them in the fragment: no difference. Earlier runs found `[.a.]`, which PCRE2 refuses, and
  two errors of PCRE2 with possessive groups; all three are outside the fragment now.
* `utf8.py`: `utf8Valid` and `utf8Lossy` with Python's decoder, 80000 strings: no difference.
* `files.py`: `sem` (Model/World.lean) with the file system of the machine. The trees always agree. Answers
  differ only in the kind of an error: where a regular file stands for a directory in the middle of a path the
  machine says ENOTDIR, the model ENOENT (EEXIST for `create_dir_all`); and linking a directory is EPERM there.
  Theorems about every answer of the OS include the answers of the machine (a fault may be any error), and the
  others exclude such states (`Rep.noFile`).

Modelled, function by function (every definition cites its lines):

| file | model |
|------|-------|
| scutiger-core/src/errors.rs | `Model/Errors.lean` (all), `Err.ofGit`, `Err.ofPcre` in `Model/Tools.lean` |
| scutiger-core/src/pktline.rs | `Model/Pktline.lean` (all) |
| scutiger-lfs/src/processor.rs, backend.rs, backend/local.rs | `Model/Server.lean` (all), `Model/Late.lean` |
| scutiger-lfs/src/bin/git-lfs-transfer.rs | `Model/Server.lean` (`mainProg`), `Model/Tools.lean` (`Transfer`) |
| scutiger-bin/src/bin/git-at.rs | `Model/Tools.lean` (`GitAt`) |
| scutiger-bin/src/bin/git-recent-refs.rs, pager/mod.rs | `Model/Tools.lean` (`RecentRefs`) |

Not modelled:

* command line parsing (crate `clap`) and its help texts;
* `libgit2/mod.rs` (one option of libgit2) and the test modules and fixtures;
* the branches for systems other than Unix;
* text a panic prints (that it happens, and exit code 101, are modelled);
* what follows an error when writing to standard error, beyond the abort (C83 for the server; the tools have a capacity
  of standard error in their models);
* memory exhaustion, stack overflow, signals other than a kill between two calls (a kill inside a
  call is a failing call with part of its effect, followed by a kill).

### What is taken for granted about the surroundings

* The file system (`Model/World.lean`): POSIX semantics of names, inodes, directories, `rename`,
  `link`, `unlink`, exclusive creation. No symbolic links. Permissions are not checked by the model;
  a refusal is one of the arbitrary failures every call may have. Each call is atomic with respect to
  other processes, except that `write_all` and `create_dir_all` may proceed in parts; C80 proves that reading a file in parts adds
  nothing. Listing a directory is one call; C81 proves that the store is safe
  whatever a listing, or any other call that changes nothing, returns, and C84 that listings of locks miss no lock held
  all the time if listing a directory takes time.
* Other programs (`Elsewhere`): they may do anything to names and directories that are neither below
  the LFS directory nor on the way to it, and to files made there. They may link files of the repository
  elsewhere and change their mode, but neither their content nor their owner. Only the servers touch
  names below the LFS directory. To say this, a file remembers the name it was created under
  (`Inode.born`), which no call looks at. Servers of other repositories need not be assumed to behave
  like that: C62 proves it.
* Power failures (C68, C85, `Spec.PowerLoss`): names, directories, owners and modes are on disk at once, the
  data of a file up to the last sync; of what was written since, the end may be missing. In `Spec.Outage`
  names may be lost as well: each is found as it was at any moment since the last sync. That a name
  stands for a file it never stood for, or that the middle of a file is lost, is not modelled.
* Standard output is buffered by lines (`io::stdout`): `World.out` is what was handed to the stream, and
  what is sure to have left the process is what was written before a flush (`Spec.received`, C58). The
  rest is written when the process exits and lost when it is killed. Standard input: reading takes bytes
  from the input only when they are needed to fill a buffer of the code's reader (`Rdr.readExact`).
* Overflow: the model wraps, as release builds do, or panics, as debug builds do, by a flag of the reader; the
  pktline header is the only place where this matters (C05_overflow). C79 compares the two.
* std: `Read`/`Write`/`BufReader`/`io::copy` as used here, integer parsing and formatting,
  `String::from_utf8_lossy`, `Path::join`/components, iteration over a `HashMap` (order never
  observable here).
* Crates: `tempfile` (creation with a fresh name, `persist`, removal on drop), `hex`, `sha2`
  (a parameter with 32 bytes of output), `chrono` (formatting of times is a parameter), `passwd`
  (a parameter), `bytes`.
* libgit2: arbitrary answers, except `get_bool` of core.sharedRepository for C50 (`Transfer.parseBool`
  and what it uses) and the order of `git2::Time` for C47. Both were written from knowledge of those
  libraries, whose sources are not in the sandbox.
* PCRE2: arbitrary answers for C44. For C45 and C46 the theorems assume that the engine agrees with
  the fragment written down in `Model/Regex.lean` (`Spec.Faithful`), from the documentation of PCRE2.

### Axioms per theorem

* Classical.choice, Quot.sound, propext: `C02_write_framing`, `C04_exact_partial`, `C04_same_partial`, `C05_exact_partial`, `C09_exhaustive`, `C10_decimal_roundtrip`, `C31_record_roundtrip`, `C36_replies_partial`, `C36_cut_partial`, `C36_prefix`, `C36_one_reply`, `C39_classification`, `C40_loop`, `C40_eof`, `C40_bad_header`, `C40_quit`, `C53_order`, `C25_mutual_exclusion`, `C37_pipelined`, `C13_put_exact`, `C15_independent`, `C16_round_trip`, `C17_get_exact`, `C18_verify_exact`, `C19_batch_exact`, `C26_lock_exact`, `C30_unlock_exact`, `C30_history`, `C32_list_exact`, `C33_refuted`, `C33_page_partial`, `C34_traversal`, `C35_owner_flag`, `C42_refuted`, `C42_time_partial`, `C08_lock_partial`, `C38_resync_partial`, `C38_extent_partial`, `C38_determined`, `C38_total`, `C38_split`, `C38_split_unique`, `C38_put_iff`, `C38_batch_iff`, `C52_upload_partial`, `C52_exact_partial`, `C54_fresh_partial`, `C54_exact_partial`, `C27_lock_partial`, `C55_crashes`, `C55_no_crash`, `C29_removes_partial`, `C29_reply_partial`, `C29_directory_partial`, `C28_refuted`, `C28_prefix_partial`, `C28_complete_partial`, `C28_alone_partial`, `C45`, `C46_partial`, `C47_partial`, `C47_determined`, `C47_seconds_partial`, `C48`, `C48_terminates`, `C48_cut`, `C48_ends`, `pager_exists`, `C50_refuted`, `C50_octal_refuted`, `C50_partial`, `C50_put`, `C50_octal_intended`, `C56_linearizable`, `C56_finished`, `C56_visible`, `C57_linearizable`, `C57_finished`, `C58_flushed`, `C58_request`, `C58_session`, `C58_waiting`, `C59_listing`, `C59_complete`, `C59_pages`, `C59_alone`, `C59_twice`, `C60_listing_refuted`, `C60_request_partial`, `C60_session_partial`, `C61_refused`, `C61_reply`, `C61_looked_up`, `C61_listed`, `C61_lossy`, `C61_time`, `C62_untouched`, `C62_view`, `C62_integrity`, `C62_exclusion`, `C62_execution`, `C62_answers`, `C63_startup`, `C63_begins_once`, `C64_complete_partial`, `C64_all_read_partial`, `C65_session`, `C65_request`, `C66_session`, `C66_request`, `C67_table`, `C68_noticed_partial`, `C68_repair_partial`, `C68_unnoticed`, `C68_outage_noticed_partial`, `C71_refuted`, `C72_session_partial`, `C72_same_partial`, `C72_total`, `C72_one_session`, `C72_one_denial`, `C72_not_both`, `C72_reply`, `C72_untouched`, `C72_refuted`, `C73_stopped`, `C73_read`, `C73_again_partial`, `C73_refuted`, `C74_anywhere`, `C74_cut`, `C74_again`, `C74_total`, `C74_one_meaning`, `C74_session`, `C74_stopped`, `C75_total`, `C75_unique`, `C75_same`, `C75_extends`, `C75_session`, `C75_stopped`, `C75_download`, `C76_session`, `C76_sense`, `C76_meant`, `C76_crash`, `C77_session`, `C77_stopped`, `C77_objects`, `C78_any_bytes`, `C78_finished`, `C79_calls`, `C79_so_far`, `C79_same`, `C79_run`, `C79_killed`, `C79_stopped`, `C79_session`, `C80_execution`, `C81_records`, `C81_complete`, `C81_exclusion`, `C82_known`, `C82_pull`, `C82_push`, `C83_end`, `C84_shown`, `C84_pages`, `C84_held`, `C84_execution`, `C85_exclusion_partial`, `C85_prefix_partial`, `C85_damaged_partial`, `C87_crash`, `C87_held`, `C87_twice`, `C87_killed`, `C87_lock`, `C88_exact_partial`, `C88_store`, `C88_left`, `C88_killed`, `C89_aside`, `C89_killed`, `C90_kills`, `C90_next`, `C90_files`, `C90_retry`.
* Quot.sound, propext: `C01_packet_roundtrip`, `C01_read_any_frame`, `C01_sequence`, `C01_bound_needed`, `C03_stream_read`, `C04_zero_read_partial`, `C05_header_partial`, `C06_oversized_reserved`, `C06_read_bounded`, `C07_truncation_detected`, `C09_args_exact`, `C09_args_errors`, `C10_integer_exact`, `C11_oid_validation`, `C11_oid_paths`, `C20_download_readonly`, `C36_refuted`, `C40_turn_consumes`, `C40_terminates`, `C67_reply`, `C67_untouched`, `C43_unknown_operation`, `C21_confined`, `C53_no_temp_left`, `C53_directory_unchanged`, `order_immaterial`, `C12_order`, `C14_order`, `C12_integrity`, `C14_store_unchanged`, `C14_refused`, `C14_only_rename`, `C22_never_deleted`, `object_handle_stable`, `C24_atomic`, `C25_reply`, `C08_refuted`, `C08_put_partial`, `C08_others_partial`, `C08_exact_partial`, `C38_refuted`, `C52_refuted`, `C54_refuted`, `C27_refuted`, `C27_race_refuted`, `C23_refuted`, `C23_reads_partial`, `C23_below_partial`, `C29_refuted`, `C44`, `C45_found`, `GitAtDemo.C46_refuted`, `summary_matches`, `C48_diverges`, `C49_output`, `C57_excuse_needed`, `C59_sound`, `C59_phantom`, `C60_batch_refuted`, `C64_refuted`, `C64_order_partial`, `C68_kept_partial`, `C68_prefix_partial`, `C68_lost`, `C68_damaged`, `C68_lock_lost`, `C68_outage_kept_partial`, `C68_outage_prefix_partial`, `C68_outage_there_partial`, `C68_vanished`, `C69_boundary`, `C69_command`, `C69_oversized`, `C69_inside`, `C70_listing`, `C71_reply`, `C71_prefix`, `C71_stream`, `C71_answer_partial`, `C71_listing_partial`, `C72_one_meaning`, `C72_sensible`, `C72_sessions`, `C77_effects`, `C80_pieces`, `C80_whole`, `C80_object`, `C81_atomic`, `C81_integrity`, `C81_kept`, `C85_lost`, `C85_wrong_lock`, `C85_vanished`, `C85_back`, `C85_kept_partial`, `C86_left`, `C86_count`, `C88_refuted`, `C88_endless_refuted`, `C88_endless`.
* none: `C09_no_panic`, `C51_io_kind_kept`, `C70_unique`.
* propext: `C04_zero_read_refuted`, `C04_zero_read_eats_terminator`, `C05_header_refuted`, `C05_overflow`, `C20_effect`, `C41_refused`, `C41_only_output`, `C43_exit_codes`, `C44_found`, `C44_none`, `C44_fails`, `C44_norepo`, `C44_show`, `RecentDemo.C47_refuted`, `C47_error`, `C49`, `C63_stops_once`, `C64_killed_partial`, `rep_powerLoss`, `C70_no_shell`, `C70_outside`, `C83_calls`, `C83_run`.
