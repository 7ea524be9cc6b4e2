{"id": "C01", "title": "Packet round trip", "statement": "Writing a flush, delim or data packet (payload at most 65531 bytes) with Writer::write_packet and reading the resulting bytes with Reader::read_packet returns the same packet and leaves exactly the bytes that followed it.", "quantifier": "every packet, every payload up to 65531 bytes, every byte string following it", "why_tests_cant": "payload space is unbounded in content; tests use a handful of literals", "anchors": ["scutiger-core/src/pktline.rs: Writer::write_packet, Reader::read_packet, parse_header"]}
{"id": "C02", "title": "Stream writes are framed correctly", "statement": "io::Write::write on a pkt-line Writer emits a sequence of data packets, each carrying between 1 and 65516 bytes, whose payloads concatenate to the buffer, and reports the whole buffer as written; an empty buffer emits nothing.", "quantifier": "every buffer of every length", "why_tests_cant": "chunk boundaries depend on length; tests try one length", "anchors": ["scutiger-core/src/pktline.rs: Writer::write, write_one"]}
{"id": "C03", "title": "Stream reads deliver exactly the payload under any read schedule", "statement": "For any data packets (payload at most 65516) followed by a flush or delim, repeatedly calling io::Read::read with any sequence of positive buffer sizes returns exactly the concatenated payload, then 0 at the terminator, with nothing buffered and the underlying stream positioned right after the terminator.", "quantifier": "every packet sequence including empty packets, every sequence of positive buffer sizes (both the direct and the buffered path)", "why_tests_cant": "interaction of buffer sizes and packet boundaries is unbounded", "anchors": ["scutiger-core/src/pktline.rs: impl Read for Reader, read_one"]}
{"id": "C04", "title": "Zero-length reads are harmless", "statement": "Calling io::Read::read with an empty buffer returns 0 and loses no data: subsequent reads return what they would have returned.", "quantifier": "every reader state", "why_tests_cant": "needs the state where data is pending in the buffer", "anchors": ["scutiger-core/src/pktline.rs: impl Read for Reader"]}
{"id": "C05", "title": "Header strictness", "statement": "A pkt-line header is accepted exactly when it is four lowercase hexadecimal digits, and its value is that hexadecimal number.", "quantifier": "every 4-byte header", "why_tests_cant": "2^32 headers", "anchors": ["scutiger-core/src/pktline.rs: parse_header"]}
{"id": "C06", "title": "Oversized and reserved packets are rejected", "statement": "io::Read never delivers a packet with more than 65516 bytes of payload, and both readers reject the reserved lengths 2 and 3 with BadPktlineHeader.", "quantifier": "every header and stream", "why_tests_cant": "depends on every header value", "anchors": ["scutiger-core/src/pktline.rs: read_one, read_packet"]}
{"id": "C07", "title": "Truncated streams never yield silently short data", "statement": "If the byte stream ends before the terminator of the data, reading it to the end through io::Read reports an error (UnexpectedEof) instead of end of data.", "quantifier": "every packet sequence, every truncation point, every positive read schedule", "why_tests_cant": "truncation points are unbounded", "anchors": ["scutiger-core/src/pktline.rs: impl Read for Reader, read_one"]}
{"id": "C08", "title": "Truncated requests have no effect", "statement": "A request whose byte stream ends before its terminating flush packet is not executed: it changes neither objects nor locks.", "quantifier": "every request and every truncation point", "why_tests_cant": "needs all truncation points and all commands", "anchors": ["scutiger-lfs/src/processor.rs: read_to_type, lock, unlock, put_object", "scutiger-core/src/pktline.rs: ReaderIterator::next"]}
{"id": "C09", "title": "Argument parsing is exact", "statement": "ArgumentParser::parse of a list of key=value lines with distinct keys (keys without '=') returns exactly that mapping; it fails with ParseError when an item lacks '=' or the final newline, with ExtraData on a duplicate key, and never panics.", "quantifier": "every list of byte strings", "why_tests_cant": "content space unbounded; slicing arithmetic must be right for all", "anchors": ["scutiger-lfs/src/processor.rs: ArgumentParser::parse"]}
{"id": "C10", "title": "Integer arguments are parsed exactly", "statement": "A size/limit argument is accepted exactly when it is an optional '+' followed by one or more decimal digits denoting a value that fits the type; the value is then that number. Decimal output produced by the server parses back to the same number.", "quantifier": "every byte string, every number", "why_tests_cant": "overflow boundary and arbitrary lengths", "anchors": ["scutiger-lfs/src/processor.rs: parse_integer, read_batch, size_from_arguments"]}
{"id": "C11", "title": "Object IDs are validated and map to distinct confined paths", "statement": "Oid::new accepts exactly the 64-byte lowercase hexadecimal strings; the path of an accepted ID is <lfs>/objects/<2>/<2>/<oid>, has no '/', '.' or '..' components coming from the client, and different IDs have different paths.", "quantifier": "every byte string, every pair of IDs", "why_tests_cant": "16^64 IDs", "anchors": ["scutiger-lfs/src/processor.rs: Oid::new, Oid::valid, Oid::expected_path"]}
{"id": "C12", "title": "Object store integrity", "statement": "At every moment, in every interleaving of any number of server processes serving arbitrary client input, with any I/O errors and any processes killed at any point, each file at the object path of an ID has content whose SHA-256 is that ID, provided that held initially.", "quantifier": "all interleavings, all inputs, all fault patterns, all kill points, any number of processes", "why_tests_cant": "schedules, crash points and inputs are unbounded", "anchors": ["scutiger-lfs/src/processor.rs: put_object, HashingReader", "scutiger-lfs/src/backend/local.rs: start_upload, finish_upload"]}
{"id": "C13", "title": "Upload is accepted exactly when size and hash match", "statement": "put-object for a well-formed request without I/O errors answers 200 and makes the object readable when the declared size equals the number of bytes sent and their SHA-256 equals the ID; otherwise it answers 400 and the stored objects and locks are unchanged.", "quantifier": "every ID, declared size, data and packetization", "why_tests_cant": "all data, all packetizations", "anchors": ["scutiger-lfs/src/processor.rs: put_object", "scutiger-lfs/src/backend/local.rs: start_upload, finish_upload"]}
{"id": "C14", "title": "A refused upload never changes the visible store", "statement": "Whatever I/O errors occur, if put-object does not reach a successful rename then no object path changes; a reply with status 400 implies that the object store is unchanged.", "quantifier": "every input, every fault pattern", "why_tests_cant": "needs every failure point", "anchors": ["scutiger-lfs/src/processor.rs: put_object", "scutiger-lfs/src/backend/local.rs: start_upload, finish_upload"]}
{"id": "C15", "title": "Upload result is independent of packetization and copy buffer sizes", "statement": "The reply and the final stored objects of a put-object depend only on the concatenated data, not on how the client split it into packets nor on the buffer sizes used internally for copying.", "quantifier": "every two packetizations of the same data, every two buffer schedules", "why_tests_cant": "pairs of schedules", "anchors": ["scutiger-lfs/src/processor.rs: put_object, HashingReader", "scutiger-core/src/pktline.rs: impl Read for Reader"]}
{"id": "C16", "title": "Upload then download returns the same bytes", "statement": "After an accepted put-object of some data, get-object of that ID (same or later session) replies 200 with size equal to the data length and a payload that decodes to exactly that data.", "quantifier": "every data, every store, every chunking of the file reads", "why_tests_cant": "data and chunking unbounded", "anchors": ["scutiger-lfs/src/processor.rs: put_object, get_object, send_status", "scutiger-lfs/src/backend/local.rs: download, finish_upload"]}
{"id": "C17", "title": "get-object semantics", "statement": "get-object replies 404 exactly when no object is stored under the ID, otherwise 200 with its size and exact content, and never modifies the store.", "quantifier": "every store, every ID", "why_tests_cant": "all store states", "anchors": ["scutiger-lfs/src/processor.rs: get_object", "scutiger-lfs/src/backend/local.rs: download"]}
{"id": "C18", "title": "verify-object semantics", "statement": "verify-object replies 404 when the object is absent, 200 when it is present with the given size and 409 when the size differs; it never modifies the store.", "quantifier": "every store, ID and size", "why_tests_cant": "all store states", "anchors": ["scutiger-lfs/src/processor.rs: verify_object", "scutiger-lfs/src/backend/local.rs: verify"]}
{"id": "C19", "title": "batch semantics", "statement": "batch replies with exactly one line per requested object, in request order, giving the stored size if present and the requested size otherwise; the action is noop for present and upload for absent objects in upload mode, download for present and noop for absent in download mode.", "quantifier": "every list of requested objects, every store, both modes", "why_tests_cant": "lists unbounded", "anchors": ["scutiger-lfs/src/processor.rs: read_batch, batch_data", "scutiger-lfs/src/backend/local.rs: batch"]}
{"id": "C20", "title": "Download mode is read-only", "statement": "When started with the download operation, no input whatsoever makes the server create, write, rename, link, delete or chmod any file (only the fixed directory skeleton is created at start-up).", "quantifier": "every client input, every fault pattern and file system state", "why_tests_cant": "all inputs", "anchors": ["scutiger-lfs/src/processor.rs: process_commands", "scutiger-lfs/src/bin/git-lfs-transfer.rs: run"]}
{"id": "C21", "title": "Writes are confined", "statement": "Whatever the client sends, every file system mutation concerns only: the directory skeleton, temporary files in <lfs>/incomplete, the object path of a valid ID and its parent directories, and <lfs>/locks/<64 hex digits> with or without the .lock extension.", "quantifier": "every client input, every fault pattern", "why_tests_cant": "path traversal search space is unbounded", "anchors": ["scutiger-lfs/src/processor.rs: process_commands", "scutiger-lfs/src/backend/local.rs: start_upload, finish_upload, LockFile, unlock"]}
{"id": "C22", "title": "Stored objects are never deleted", "statement": "No sequence of requests by any number of processes removes an object: once an object path exists it keeps existing, and its content stays the same unless SHA-256 collides.", "quantifier": "all interleavings and inputs, fault patterns, kill points", "why_tests_cant": "histories unbounded", "anchors": ["scutiger-lfs/src/processor.rs: process_commands", "scutiger-lfs/src/backend/local.rs"]}
{"id": "C23", "title": "Reads are confined", "statement": "Whatever the client sends, the server reads only files below the lfs directory.", "quantifier": "every client input", "why_tests_cant": "path traversal inputs unbounded", "anchors": ["scutiger-lfs/src/backend/local.rs: from_id", "scutiger-lfs/src/processor.rs: unlock"]}
{"id": "C24", "title": "Upload is atomic under crashes", "statement": "If a server process is killed at any point of a put-object, the object path holds either what it held before or the complete new content, never a partial file.", "quantifier": "every kill point, every data, every chunking, other processes running", "why_tests_cant": "all kill points", "anchors": ["scutiger-lfs/src/backend/local.rs: start_upload, finish_upload"]}
{"id": "C25", "title": "Lock mutual exclusion", "statement": "Between two successful lock requests for the same path, in any interleaving of processes with kills and I/O errors, the lock file was removed (by an unlock) in between; so two clients never both hold the lock.", "quantifier": "all interleavings, processes, fault patterns, kill points", "why_tests_cant": "races need schedules tests cannot enumerate", "anchors": ["scutiger-lfs/src/backend/local.rs: LockFile::write, LockFile::persist, create", "scutiger-lfs/src/processor.rs: lock"]}
{"id": "C26", "title": "lock reply semantics", "statement": "When no other process interferes and no lock temp file was left behind, lock replies 201 with the new lock's id and path when the path was free, and 409 with the existing lock's id, path, time and owner when it was held, leaving the holder unchanged.", "quantifier": "every lock table, every path (any bytes)", "why_tests_cant": "all lock tables and paths", "anchors": ["scutiger-lfs/src/processor.rs: lock", "scutiger-lfs/src/backend/local.rs: create, from_path", "scutiger-lfs/src/backend.rs: as_arguments"]}
{"id": "C27", "title": "lock never crashes the server", "statement": "A lock request always gets a reply: the server does not panic while serving it, whatever other server processes do or did.", "quantifier": "all interleavings and crash histories", "why_tests_cant": "needs races or crash leftovers", "anchors": ["scutiger-lfs/src/processor.rs: lock (unreachable!)", "scutiger-lfs/src/backend/local.rs: LockFile::write, Drop for LockFile"]}
{"id": "C28", "title": "Locks are published atomically", "statement": "Whenever the lock file of a path exists, it contains the complete record for that path, at every kill point and in every interleaving.", "quantifier": "all interleavings, kill points", "why_tests_cant": "races and kill points", "anchors": ["scutiger-lfs/src/backend/local.rs: LockFile::write, persist, Drop"]}
{"id": "C29", "title": "unlock removes exactly the named lock", "statement": "A successful unlock of an id removes the lock with that id and no other; an unlock that fails removes nothing.", "quantifier": "every id (any bytes), every lock table", "why_tests_cant": "id space unbounded", "anchors": ["scutiger-lfs/src/processor.rs: unlock", "scutiger-lfs/src/backend/local.rs: from_id, unlock"]}
{"id": "C30", "title": "Lock lifecycle", "statement": "After lock P and unlock of its id, P is free and can be locked again; unlock of an id with no lock replies 404 and changes nothing; locks on other paths are unaffected (no SHA-256 collision).", "quantifier": "every lock table, every path and history of lock/unlock requests", "why_tests_cant": "histories unbounded", "anchors": ["scutiger-lfs/src/processor.rs: lock, unlock", "scutiger-lfs/src/backend/local.rs"]}
{"id": "C31", "title": "Lock record round trip", "statement": "The lock record written for (time, path) parses back to exactly (time, path), for every path including ones with ':' or newlines; anything parse accepts has the v1 prefix.", "quantifier": "every 64-bit time, every byte string path", "why_tests_cant": "content unbounded", "anchors": ["scutiger-lfs/src/backend/local.rs: create, LocalBackendLock::parse"]}
{"id": "C32", "title": "list-lock lists exactly the held locks", "statement": "With no cursor or path and fewer locks than the limit, list-lock returns each held lock exactly once, in increasing id order, with its path, time and owner, and nothing else.", "quantifier": "every lock table, any directory order", "why_tests_cant": "tables unbounded", "anchors": ["scutiger-lfs/src/processor.rs: list_locks", "scutiger-lfs/src/backend/local.rs: LockSetIterator"]}
{"id": "C33", "title": "list-lock pages respect the limit", "statement": "A list-lock reply contains at most limit locks (and at most 100).", "quantifier": "every lock table, limit and cursor", "why_tests_cant": "needs large tables", "anchors": ["scutiger-lfs/src/processor.rs: list_locks"]}
{"id": "C34", "title": "Cursor traversal is complete", "statement": "Repeating list-lock with the returned next-cursor terminates and visits every lock; consecutive pages overlap only in the lock named by the cursor.", "quantifier": "every lock table, every limit from 1 up", "why_tests_cant": "tables unbounded", "anchors": ["scutiger-lfs/src/processor.rs: list_locks"]}
{"id": "C35", "title": "Owner flag", "statement": "In upload mode each listed lock is flagged 'ours' exactly when its owner name equals the current user's name, 'theirs' otherwise; in download mode no flag is sent.", "quantifier": "every lock, owner and user", "why_tests_cant": "all states", "anchors": ["scutiger-lfs/src/backend/local.rs: as_lock_spec", "scutiger-lfs/src/processor.rs: list_locks"]}
{"id": "C36", "title": "Every reply is well formed", "statement": "For every client input, everything the server writes (absent write errors) is the capability advertisement followed by a sequence of replies, each made of a 'status NNN' packet, argument packets, optionally a delim and data packets, and a flush; no byte outside a pkt-line is ever written.", "quantifier": "every input byte string, both modes, every file system state and fault pattern of file operations", "why_tests_cant": "all inputs", "anchors": ["scutiger-lfs/src/processor.rs: send_status, send_error, process_commands"]}
{"id": "C37", "title": "Pipelined well-formed requests: one reply each, in order", "statement": "For every sequence of well-formed requests sent back to back, the server sends exactly one reply per request, in order, each reply being the one a simple abstract server (a map of objects and a map of locks) gives, and the final files represent the abstract server's final state.", "quantifier": "every sequence of requests, every initial store, every clock, chunking and packetization", "why_tests_cant": "sequences unbounded", "anchors": ["scutiger-lfs/src/processor.rs: process_commands and all handlers", "scutiger-lfs/src/backend/local.rs"]}
{"id": "C38", "title": "Malformed requests do not desynchronise the session", "statement": "After replying with an error to a malformed request, the server resumes at the next request: each request gets exactly one reply.", "quantifier": "every malformed request", "why_tests_cant": "all malformed inputs", "anchors": ["scutiger-lfs/src/processor.rs: put_object, read_batch, process_commands"]}
{"id": "C39", "title": "Error classification", "statement": "A handler error is answered with status 400 exactly when its kind is one of the client-error kinds, otherwise with 500, and the session continues.", "quantifier": "every error value", "why_tests_cant": "all error values", "anchors": ["scutiger-lfs/src/processor.rs: process_commands", "scutiger-core/src/errors.rs"]}
{"id": "C40", "title": "Sessions terminate", "statement": "On every finite input the server terminates: on quit (after replying 200), on end of input (successfully, even inside a packet), or with an error on a malformed command header; each loop iteration consumes at least 4 bytes.", "quantifier": "every input", "why_tests_cant": "all inputs", "anchors": ["scutiger-lfs/src/processor.rs: process_commands"]}
{"id": "C41", "title": "Operation restriction", "statement": "In download mode put-object, verify-object are refused with 403 and lock, unlock with 400; in upload mode get-object is refused with 403; the refusal touches no file.", "quantifier": "every argument", "why_tests_cant": "all inputs", "anchors": ["scutiger-lfs/src/processor.rs: process_commands"]}
{"id": "C42", "title": "Reported lock time is the recorded time", "statement": "The locked-at time in the reply to a successful lock equals the time later reported for that lock.", "quantifier": "every clock behaviour", "why_tests_cant": "depends on clock ticks between two calls", "anchors": ["scutiger-lfs/src/backend/local.rs: create"]}
{"id": "C43", "title": "Exit codes", "statement": "git-lfs-transfer exits 0 exactly when the session ends normally, 1 for missing revision/conflict errors and 2 for all other errors, printing one error line; an unknown operation exits 2 after the advertisement.", "quantifier": "every outcome", "why_tests_cant": "all outcomes", "anchors": ["scutiger-core/src/errors.rs: exit_status", "scutiger-lfs/src/bin/git-lfs-transfer.rs: main, run"]}
{"id": "C44", "title": "git-at finds the first match", "statement": "git-at prints the id of the first commit, in walk order, whose message matches (and that is not skipped), exits 0; if none matches it exits 1, silently exactly when --quiet; fatal errors exit 2 with a message.", "quantifier": "every commit sequence, every matching predicate, all options", "why_tests_cant": "histories unbounded", "anchors": ["scutiger-bin/src/bin/git-at.rs: run, main"]}
{"id": "C45", "title": "--no-fixup skips exactly fixup/squash commits", "statement": "With --no-fixup the result is the first matching commit whose message does not start (after whitespace) with fixup! or squash!; without it such commits are considered too.", "quantifier": "every commit sequence", "why_tests_cant": "messages unbounded", "anchors": ["scutiger-bin/src/bin/git-at.rs: run"]}
{"id": "C46", "title": "--summary searches only the summary", "statement": "With --summary a commit matches only if the pattern matches text beginning in its first line.", "quantifier": "every pattern and message", "why_tests_cant": "patterns unbounded", "anchors": ["scutiger-bin/src/bin/git-at.rs: pattern"]}
{"id": "C47", "title": "recent-refs ordering by date", "statement": "With --sort=committerdate (authordate) the output lists exactly the direct references that peel to a commit and have a UTF-8 name, each once, newest first by committer (author) time, ties in repository order.", "quantifier": "every set of references", "why_tests_cant": "ref sets unbounded", "anchors": ["scutiger-bin/src/bin/git-recent-refs.rs: run"]}
{"id": "C48", "title": "recent-refs visit order", "statement": "With --sort=visitdate the output is HEAD followed by @{-1}, @{-2}, ... in order, up to the first one that cannot be resolved, and the listing terminates whenever some entry does not resolve.", "quantifier": "every reflog", "why_tests_cant": "reflogs unbounded", "anchors": ["scutiger-bin/src/bin/git-recent-refs.rs: run, stringify"]}
{"id": "C49", "title": "Pager selection", "statement": "The pager is GIT_PAGER, else core.pager, else PAGER, else less; none is used when standard output is not a terminal or the chosen pager is cat.", "quantifier": "every environment and configuration", "why_tests_cant": "all combinations", "anchors": ["scutiger-bin/src/bin/pager/mod.rs: find_pager"]}
{"id": "C50", "title": "Shared repository permissions", "statement": "Uploaded objects get the permissions core.sharedRepository asks for: group -> 0770, all/world/everybody -> 0775, an octal mode 0xxx -> that mode plus x where r, umask/false/unset -> according to the process umask.", "quantifier": "every configuration value and umask", "why_tests_cant": "value space unbounded", "anchors": ["scutiger-lfs/src/bin/git-lfs-transfer.rs: set_permissions", "scutiger-lfs/src/backend/local.rs: fix_permissions"]}
{"id": "C51", "title": "Error conversion keeps the I/O kind", "statement": "Wrapping an I/O error into the library error, and converting back, preserves the I/O error kind; other errors convert to InvalidData.", "quantifier": "every error", "why_tests_cant": "all errors", "anchors": ["scutiger-core/src/errors.rs: io_kind, From impls"]}
{"id": "C52", "title": "A failed upload's data is not executed as commands", "statement": "If storing an upload fails because of an I/O error, the remaining data packets of that upload are not interpreted as commands.", "quantifier": "every fault point and data", "why_tests_cant": "fault points unbounded", "anchors": ["scutiger-lfs/src/processor.rs: put_object, process_commands", "scutiger-lfs/src/backend/local.rs: start_upload"]}
{"id": "C53", "title": "No temporary files are left behind", "statement": "When a put-object request has been answered or has ended the process (in any way but a kill), with file removal working, <lfs>/incomplete contains no temporary file created by that request.", "quantifier": "every input, every fault pattern not hitting removal", "why_tests_cant": "all failure points", "anchors": ["scutiger-lfs/src/backend/local.rs: start_upload, finish_upload"]}
{"id": "C54", "title": "An upload is judged by its own data", "statement": "Whatever requests came before in the session, and however they ended, a well-formed upload during which no call fails is stored exactly if its data has the announced size and hash.", "quantifier": "every history of the session, every upload", "why_tests_cant": "needs left-over state of failed requests", "anchors": ["scutiger-core/src/pktline.rs: Reader::read (buffered data)", "scutiger-lfs/src/processor.rs: put_object", "scutiger-lfs/src/backend/local.rs: start_upload"]}
{"id": "C55", "title": "Reasons for a crash", "statement": "In a build without overflow checks the server process panics (exit code 101) only if a lock that it has just found to exist is gone when it looks at it, or if it has learnt a time (fixed by the environment, read from the clock, or read from a lock file) that has no RFC 3339 form; in every other case, whatever the client sends and whatever the OS answers, it ends with a documented exit code.", "quantifier": "every client input, every response of the OS, both operations", "why_tests_cant": "It quantifies over all byte streams a client may send and all I/O outcomes, and includes that no arithmetic, slicing or unwrap on the way can fail.", "anchors": ["scutiger-lfs/src/processor.rs: lock (unreachable!), process_commands", "scutiger-lfs/src/backend/local.rs: formatted_timestamp", "scutiger-core/src/pktline.rs: Reader"]}
{"id": "C56", "title": "Concurrent servers answer object requests as one simple server", "statement": "Let any number of server processes work on one repository, scheduled in any order, killed at will, with any input. A process that is sent well-formed requests on objects (put-object, verify-object, get-object, batch, version, quit) and meets no I/O error itself answers each of them as a simple server would at one moment between the arrival of the request and the first byte of the reply (each line of a batch at its own moment); at that moment the objects change as in the simple server, and by no other call of the process. It never crashes and exits with 0. An object uploaded by one process is served, with the right hash, to every later request of every other process.", "quantifier": "every set of processes, every schedule, every kill, every input of the other processes, every list of requests in every packetization", "why_tests_cant": "It quantifies over all interleavings of any number of processes at the level of single OS calls.", "anchors": ["scutiger-lfs/src/backend/local.rs: start_upload, finish_upload, batch, verify, download", "scutiger-lfs/src/processor.rs: process_commands"]}
{"id": "C57", "title": "Concurrent servers answer lock requests as one simple server, unless they meet on the same lock", "statement": "Let any number of server processes work on one repository, scheduled in any order, killed at will, with any input. A process that is sent well-formed requests and meets no I/O error itself answers each request on one lock (lock, unlock, list-lock with a path) as a simple server would at one moment while it is served; at that moment the lock changes as in the simple server, and by no other call of the process. This holds unless, while the request is served, another process changes the same lock file or the temporary file beside it, or the lock file is no complete record, or a temporary file was left there before; such a request gets some well-formed reply, or the process panics (exit code 101). In every other case it exits with 0.", "quantifier": "every set of processes, every schedule, every kill, every input of the other processes, every list of requests in every packetization", "why_tests_cant": "It quantifies over all interleavings of any number of processes at the level of single OS calls.", "anchors": ["scutiger-lfs/src/backend/local.rs: LockFile, LocalLockBackend (create, from_path, from_id), LockSetIterator, Lock::unlock", "scutiger-lfs/src/processor.rs: lock, unlock, list_locks, list_locks_for_path, process_commands"]}
{"id": "C58", "title": "Replies reach a client that waits for them", "statement": "A client that sends complete requests and waits for their replies before it sends more does not wait for ever: after any number of complete requests (well framed ones, uploads, and packets that are a request on their own, such as unknown or forbidden commands) the server has, before it needs to know anything about later input, written one complete reply per request and flushed it after the last byte, or has ended with a non-zero exit code. Wherever the server waits for its client, all that was asked for has been answered and nothing written is left in the buffer of standard output. This assumes that output does not fail and that the temporary files of uploads can be written.", "quantifier": "every list of complete requests in every packetization, every answer of the OS to every call other than output and writing uploads, every continuation of the input", "why_tests_cant": "It compares the executions on all possible continuations of the input, and tests feed the whole input at once.", "anchors": ["scutiger-lfs/src/processor.rs: send_status, send_error, flush, process_commands", "scutiger-core/src/pktline.rs: Reader::read_packet, Reader::read, Writer::write_packet", "scutiger-lfs/src/bin/git-lfs-transfer.rs: send_capabilities"]}
{"id": "C59", "title": "A listing among concurrent servers shows every lock held throughout, and only locks it read", "statement": "Let any number of server processes work on one repository as in C57. A listing of all locks shows only locks the process read while serving the request, each held at that moment with the path, time and owner shown, unless the file read was a temporary file, incomplete, or changed by another process meanwhile. A lock that is held during the whole request and is not before the cursor is listed, or the page is full and its next cursor is not after that lock (with the same exception for the file the cursor came from). Hence pages fetched one after the other, by any processes, together show every lock held throughout. If no lock changes and no other file is there, the reply is that of the simple server. The listing changes no lock. The exception is needed: a listing can show a lock nobody held at any moment, and can show a lock twice.", "quantifier": "every set of processes, every schedule, every kill, every input of the other processes, every cursor and limit, every number of pages", "why_tests_cant": "It quantifies over all interleavings of a listing with calls of any number of other processes, and over all sequences of pages.", "anchors": ["scutiger-lfs/src/backend/local.rs: LockSetIterator, LocalLockBackend::from_id, LockFile", "scutiger-lfs/src/processor.rs: list_locks"]}
{"id": "C60", "title": "Failures of the operating system are reported as errors, not as facts about the store", "statement": "Whatever the operating system answers to any call (any I/O error anywhere, or whatever other processes made of the files meanwhile), the reply to a well-formed request is either an internal error or says only what the operating system said: 'not found' only if it said that the file does not exist, a size or content only if one file had it and was read to its end, 'stored' only if all the data was written to a new file that was given the name of the object, 'locked' only if the record was written and linked, 'unlocked' only if the lock read was removed, and so on for each reply. A file whose reading fails while it is being sent gets no complete reply and a non-zero exit code.", "quantifier": "every well-formed request and session in every packetization, every answer of the OS to every call other than output", "why_tests_cant": "Tests do not make single file system calls fail, and the property is about every combination of failures.", "anchors": ["scutiger-lfs/src/backend/local.rs: batch, download, verify, start_upload, LocalBackendLock, LockFile, LockSetIterator", "scutiger-lfs/src/processor.rs: size_at_path, batch, verify, get_object, put_object, lock, unlock, list_locks, error", "scutiger-core/src/errors.rs: From<io::Error>"]}
{"id": "C61", "title": "Byte strings that are not text", "statement": "An unlock command whose argument is not UTF-8 opens, looks at and changes no file, and is answered with status 400 and a fixed message, the following requests being unaffected; an argument that is UTF-8 (the concatenation of the encodings of Unicode scalar values) is looked up byte for byte. A listing of locks looks only at the lock file of a path, or at the entries of the directory of locks under their names converted to text: characters are kept, each maximal ill-formed part becomes U+FFFD. The conversion is a function, its outcome is text, and text is left alone. Checking that the time in a lock file is text refuses nothing that would be read as a number.", "quantifier": "every byte string, every directory, every answer of the OS", "why_tests_cant": "there are infinitely many byte strings; overlong forms, surrogates, and truncated sequences each need a case", "anchors": ["scutiger-lfs/src/processor.rs: unlock", "scutiger-lfs/src/backend/local.rs: from_id, LockSetIterator::next, parse"]}
{"id": "C62", "title": "Repositories do not disturb each other", "statement": "Any number of servers for any number of repositories, none of whose LFS directories is inside another, share one file system with other programs. A call of a server of one repository changes no name, file, owner or directory below the LFS directory of another. What each repository sees is an execution of its own servers only, during which other programs act elsewhere; so object integrity, lock exclusion, and the answers to all requests are as if the servers of the other repositories did not exist.", "quantifier": "every number of servers and repositories, every interleaving, every failure and kill, every action of other programs elsewhere", "why_tests_cant": "the claim is about all interleavings of unboundedly many servers and about what cannot be observed", "anchors": ["scutiger-lfs/src/backend/local.rs: whole file", "scutiger-lfs/src/bin/git-lfs-transfer.rs: setup, run"]}
{"id": "C63", "title": "Start of git-lfs-transfer", "statement": "If the repository cannot be opened, or its configuration or core.sharedRepository cannot be read, git-lfs-transfer exits with code 4, 2 or 1 and one line on standard error, having touched no file, read no input and printed nothing on standard output. Otherwise it serves, with the umask core.sharedRepository asks for: 007 for true or group, 002 for all, world or everybody, its own for false, umask, no value or a value that means nothing, and for an octal number of at most 16 bits that is not read as a boolean the complement of the permissions with search permission added wherever there is read permission. Exactly one of these cases applies.", "quantifier": "every answer of libgit2, every configuration, every input", "why_tests_cant": "the answers of libgit2 and the values are unbounded; failures to read the configuration are hard to provoke", "anchors": ["scutiger-lfs/src/bin/git-lfs-transfer.rs: repo, main, main_internal, set_permissions"]}
{"id": "C64", "title": "hand-over to the pager", "statement": "When git-recent-refs uses a pager, what reaches the pager's standard input is at every moment the beginning of the listing that would be printed without a pager, in order and without loss; when the program exits, all of it has been handed over, so that a pager that reads to the end gets all of it; the program is killed only if the pager has gone before; and the program does not exit before its pager has gone.", "quantifier": "every repository, every kind of sorting, every interleaving of program and pager, every division of the writes and reads", "why_tests_cant": "interleavings of two processes over a pipe", "anchors": ["scutiger-bin/src/bin/pager/mod.rs: Pager::stdout", "scutiger-bin/src/bin/git-recent-refs.rs: main"]}
{"id": "C65", "title": "Work bounded by the input", "statement": "At every moment of a session of git-lfs-transfer, whatever the client sends and whatever the operating system answers, the number of system operations the server has made (file operations and clock readings; not output to the client) is at most 4, plus the number of bytes it was sent, plus 3 for every directory entry met while listing locks. For a single request: at most the number of bytes the request took, plus 3 for every entry met. An operation is one call in the model: reading a file to its end counts as one.", "quantifier": "every input, every answer of the operating system, every moment", "why_tests_cant": "a bound over all inputs and all failures", "anchors": ["scutiger-lfs/src/processor.rs: whole file", "scutiger-lfs/src/backend/local.rs: whole file"]}
{"id": "C66", "title": "No more is written than was sent", "statement": "At every moment of a session, the server has tried to write at most as many bytes to files as it was sent, counting uploads that are given up and lock files; and for a single request at most as many as that request took. Clock readings are 64-bit numbers of seconds.", "quantifier": "every input, every answer of the operating system, every moment", "why_tests_cant": "a bound over all inputs and all failures", "anchors": ["scutiger-lfs/src/processor.rs: put_object, lock", "scutiger-lfs/src/backend/local.rs: start_upload, LockFile::write"]}
{"id": "C67", "title": "Every packet in command position is a request or is refused by itself", "statement": "Wherever the server expects a command, every packet (flush, delimiter, empty, blank, or any line) either begins a request of the server's mode or is refused, never both. The refusal is determined by the packet and the mode: 403 'not allowed' for put-object and verify-object with an argument in download mode and for get-object with an argument in upload mode, 400 'unknown version' for version with anything but 1, 400 'no command provided' for an empty packet, 400 'unknown command' for everything else. A refused packet gets exactly that reply and takes nothing more of the input; the session goes on with the next packet; no file is opened, looked at or changed, wherever the server is stopped.", "quantifier": "every packet, both modes, every state of the file system, every answer of the OS", "why_tests_cant": "unboundedly many lines; the table must be complete and without overlap", "anchors": ["scutiger-lfs/src/processor.rs: process_commands"]}
{"id": "C68", "title": "Stored objects survive a power failure", "statement": "Whatever the servers of a repository are doing when the power fails, every object whose upload was answered with status 200 is afterwards present and complete, where a power failure may take away the end of what was written to a file since the last sync (names, directories and owners being journalled). [The code never calls fsync, so this is false: an upload answered with 200 may be an empty file afterwards, and even an object long on disk can be damaged, by a second upload of it. What holds: an object to which no file was renamed since the last sync is intact; every object file is a prefix of content with the right hash; verify-object with the true size answers 200 or 409 according to whether something is missing; a new upload repairs the object. But batch tells an uploading client that there is nothing to do. All this also if names are lost, each being found as at any moment since the last sync.]", "quantifier": "every number of servers, every input, every interleaving, every fault and kill, every moment of the power failure, every outcome of it (each unsynced file cut anywhere)", "why_tests_cant": "A test cannot take away the power, and the page cache hides every missing fsync; the outcomes are one per file and cut position at every moment of every interleaving.", "anchors": ["scutiger-lfs/src/backend/local.rs:50-106", "scutiger-lfs/src/backend/local.rs:150-200"]}
{"id": "C69", "title": "Packet boundaries are never lost", "statement": "If the client sends packets of at most 65520 bytes, and possibly stops in the middle of one, then before every request the server stands at the beginning of one of these packets or at the end of the input, whatever the requests were (malformed, refused, failed or ended early), and whatever it takes for a command is one of the client's packets, in order and at most once. Larger packets (up to 65535 bytes) are accepted everywhere but in the data of an upload; there the server gives up after the header and takes the content for packets.", "quantifier": "every sequence of packets, every truncation, both modes, every number of requests, every answer of the OS", "why_tests_cant": "every way in which a request can end early, at every packet, with every failing call", "anchors": ["scutiger-core/src/pktline.rs: read_packet, read_one, impl Read for Reader", "scutiger-lfs/src/processor.rs: process_commands, read_to_type"]}
{"id": "C70", "title": "git-recent-refs makes the listing that --sort asks for, and fails before it starts a pager", "statement": "Without --sort and with --sort=visitdate the refs visited are listed, with committerdate and authordate those dates decide. The listing goes to the pager if standard output is a terminal and the pager is not 'cat', otherwise to standard output. Outside a repository the message goes to standard error and the exit code is 4, whatever the options, the environment and the terminal are, and no pager is started; if a pager is needed and no shell can be started, the program panics without writing anything.", "quantifier": "every value of the option that clap accepts, every repository, environment and configuration, every place where output breaks off", "why_tests_cant": "the tests construct Program directly and never run main, the option parser or the pager", "anchors": ["scutiger-bin/src/bin/git-recent-refs.rs: sort_type, program, repo, main", "scutiger-bin/src/bin/pager/mod.rs"]}
{"id": "C71", "title": "What the server said can be read off the bytes it sent", "statement": "The bytes of a reply determine its status, its arguments and its data packets; no reply is a proper beginning of another; a stream of replies falls into replies in exactly one way. Two answers with the same bytes have the same status, arguments, lines or content, and two listings with the same bytes show the same locks (path, time, owner). In a listing every held lock is announced once, whatever its path is.", "quantifier": "every reply the server can send, every sequence of them, every answer, every set of locks with any paths the server accepts", "why_tests_cant": "a claim about all pairs of replies; the exception needs a lock path longer than a packet can carry beside its ID (65445 bytes), which no test uses", "anchors": ["scutiger-lfs/src/processor.rs: send_error, send_status, list_locks", "scutiger-core/src/pktline.rs: Writer::write (MAX_PACKET_LEN)", "scutiger-lfs/src/processor.rs: lock"]}
{"id": "C72", "title": "Whatever a client asks, the replies depend on the requests and the store alone", "statement": "Every sequence of packets that the server takes as one request either means exactly one request (of the simple server) or is nonsense that is denied with exactly one error status and message, never both. A client that sends any mixture of the two, with any additional words, arguments, delimiters and lines the server ignores, gets one reply for each, in order: that of the simple server on the current store, or the error, which leaves the store as it is and touches nothing but output. Two servers whose repositories hold the same objects and locks give the same answers to the same requests, whatever else is on their disks, wherever the repositories are, and however the packets are cut.", "quantifier": "every session of requests (sensible or not) in either mode, every store and representation of it on disk, every configuration, schedule of short reads and writes, and packet cutting", "why_tests_cant": "the tests send a few well-formed sessions and about ten malformed requests to one repository; the claim is about all malformed requests and all pairs of repositories", "anchors": ["scutiger-lfs/src/bin/git-lfs-transfer.rs", "scutiger-lfs/src/processor.rs: read_batch, batch, ArgumentParser, list_locks, lock, unlock, ArgumentParser::parse_integer, error", "scutiger-lfs/src/backend/local.rs"]}
{"id": "C73", "title": "A server that is killed has done some of its requests and not begun the others, and the client can go on from where it was", "statement": "A server is killed at any moment of a session, in which the client may have asked anything. Then there is a number k such that the store holds exactly what the first k requests put there, and what the client has received is the greeting and a beginning of the k replies. Each request whose reply the client has received is among the k. A client that starts again, with the first request for which it has no reply or with an earlier one, up to the first of all, is served as usual, and in the end the store is as if nothing had happened: the same objects, the same files locked.", "quantifier": "every session of requests (sensible or not) in either mode, every moment of death (number of system calls made), every store and representation of it on disk, every request to start again from, every configuration and schedule of short reads and writes, in both lives", "why_tests_cant": "the tests never kill a server; there are as many places to kill it as calls, in sessions of any length", "anchors": ["scutiger-lfs/src/bin/git-lfs-transfer.rs", "scutiger-lfs/src/processor.rs: process_commands, put_object, lock, unlock", "scutiger-lfs/src/backend/local.rs: LocalBackend (start_upload, finish_upload), LockFile, LocalLockBackend"]}
{"id": "C74", "title": "If the connection breaks at any byte, the store is that after some of the client's requests, an incomplete upload is never stored, and the client can start again", "statement": "The bytes of a session of sensible requests stop arriving at any place: between requests, within one, within a packet or a packet's header. Then the server still ends with exit code 0 and without a message; there is a k such that the store holds exactly what the first k requests put there, and the client has been sent the replies to these, followed at most by a reply to an incomplete request that changes nothing. If all bytes of the requests before the last have arrived, then k counts these, and perhaps the last, unless this is an upload: an upload of which a byte is missing is never stored. A client that starts again with the incomplete request, or with an earlier one, finds in the end the same objects and the same files locked as if the connection had not broken. More generally, any packets whatever and the beginning of another have one meaning (except for `unlock` with an argument that is text but no ID), which determines the replies and the store; it depends on the bytes alone.", "quantifier": "every session of requests in either mode, every place where the connection breaks, every store and representation of it on disk, every request to start again from, every configuration and schedule of short reads and writes; for the last part all sequences of packets", "why_tests_cant": "the tests end every session properly, or stop at one or two places; the sessions and the places are unlimited, and the repetition after the break is never tried", "anchors": ["scutiger-lfs/src/processor.rs: process_commands, read_to_type, put_object, ArgumentParser", "scutiger-core/src/pktline.rs: Reader::read_packet", "scutiger-lfs/src/backend/local.rs: LocalBackend (start_upload, finish_upload)", "scutiger-lfs/src/bin/git-lfs-transfer.rs"]}
{"id": "C75", "title": "Whatever bytes arrive, the server takes them for some requests and does exactly these", "statement": "Every byte string whatever, whether or not it is in the format (wrong headers, headers that the code accepts by mistake, packets that are too long, packets that stop short, bytes that are no packets at all), is taken in exactly one way by a server built without overflow checks for a list of requests, some of which may be nonsensical, followed by one of two endings: the end of the input or `quit`, with exit code 0 and no message, or four bytes that cannot begin a packet where a request is expected, with exit code 2 and the message about the header. The server sends the replies that a simple server sends to these requests, and leaves the store as it does; if it is killed, it has done some of them and none of the others. It does not end in another way, and never panics. Byte strings in the format mean what C72 and C74 say. On a download server the store stays as it was. The only bytes excepted are those sent to an upload server in which there occurs an `unlock` with an argument that is text but no ID (see C72).", "quantifier": "every byte string, either mode, every store and representation of it on disk, every configuration and schedule of short reads and writes, every moment of a kill; all bytes without exception for a download server", "why_tests_cant": "the set of all byte strings; tests and fuzzing sample it, and look for crashes only, not for a difference to the intended meaning", "anchors": ["scutiger-core/src/pktline.rs: Reader::read_packet, ReaderIterator", "scutiger-lfs/src/processor.rs: process_commands, read_to_type, read_to_delim, Processor::*", "scutiger-lfs/src/bin/git-lfs-transfer.rs: main", "scutiger-core/src/errors.rs"]}
{"id": "C76", "title": "Whatever bytes arrive and whatever the OS answers, each reply is an honest answer to the bytes read for it", "statement": "Let the server receive any bytes whatever (as in C75) while any call to the OS may fail or answer anything, as it may with other processes at work (as in C60). After the greeting it takes the bytes for one request after the other, each of which is what C75 says these bytes mean (an `unlock` whose argument is no ID, which C75 leaves out, asks to release the lock in the file of this name), and the reply to each says only what the OS said (with the exception in C60 for batches and listings that come upon a file that cannot be looked at); nonsense gets the error it always gets, and no file is touched for it but temporary files of uploads. The server stops early only if it panics, for the reasons in C55, or if a file cannot be read while it is being sent, and then with a nonzero exit code. If all uploads can be written, the requests are just those that the bytes mean. If an upload cannot be written, the client gets an internal error or the reply it would get anyhow, and the server goes on somewhere in the data of the upload; bytes of it that are left over come in front of the data of the next upload (C52, C54). If the directories cannot be made there is no greeting and the exit code is nonzero.", "quantifier": "every byte string, either mode, every configuration, every response of the OS to every call but writing to the client", "why_tests_cant": "it combines all byte strings with all responses of the OS; the state after a failed write depends on both", "anchors": ["scutiger-lfs/src/processor.rs: process_commands, Processor::*, error", "scutiger-core/src/pktline.rs: Reader::read, read_packet", "scutiger-lfs/src/backend/local.rs: start_upload, finish_upload", "scutiger-lfs/src/bin/git-lfs-transfer.rs: main"]}
{"id": "C77", "title": "No bytes from any client can harm the store", "statement": "Let the server, alone and without I/O errors, receive any bytes whatever, with any `unlock` arguments too. It takes them for a list of requests (the sense of C76). Each reply is that of the simple server of C37; but an `unlock` of what is no ID is refused with 400, 404 or 500 and changes nothing, or releases just one lock that is held, with the fields found in the file it names, which need not be the record of that lock. The server then ends in one of the ways of C75, or it panics at such an `unlock`, having changed nothing for it. In every case, also if the server is killed at any moment, the files are in order and represent the store after the requests that were done (but for a file that a `lock` under way may leave). So an object is replaced only by an upload of data with its hash, no object goes away, locks are made only by `lock`, of the path named and for this user, and released only by `unlock`, and if this names an ID, by that of the lock.", "quantifier": "every byte string, either mode, every configuration with a 32-byte hash and times that can be formatted, every store, every clock and choice of names, every moment at which the server is killed", "why_tests_cant": "it is about all byte strings; fuzzing meets the odd `unlock`s that name an existing record only by luck", "anchors": ["scutiger-lfs/src/processor.rs: process_commands, Processor::*, unlock", "scutiger-lfs/src/backend/local.rs: from_id, unlock, start_upload, finish_upload, create", "scutiger-core/src/pktline.rs: Reader::read, read_packet", "scutiger-lfs/src/bin/git-lfs-transfer.rs: main"]}
{"id": "C78", "title": "Any bytes at all, among other servers", "statement": "Let several servers work on one repository, each reading any input, scheduled in any order and killed at will, and let one of them have met no I/O error and not been killed so far. Whatever bytes its client sends, they have just one sense (C76: a list of requests, nonsense, and `unlock`s of what is no ID), and the server has printed a part of the greeting, or the greeting and the replies to this list, in order, up to some place. Each request is served as C57 says: answered as by the simple server at one moment, or excused because another process changed the same lock meanwhile. Nonsense is denied with the message of C72 and C75; it changes no object and no lock. An `unlock` of what is no ID is refused with 400, 404 or 500, or releases just one lock, that was held, at one moment, and reports what it has read in the file it names. When the server ends, it has answered the whole list and ends as C75 says, or it panicked with code 101 at an excused request or at an `unlock` of what is no ID, for which it changed nothing.", "quantifier": "every byte string, either mode, every execution (schedule, inputs and kills of the other processes), every configuration with a 32-byte hash and times that can be formatted, every moment", "why_tests_cant": "it is about all byte strings and all interleavings; a test sees few of either", "anchors": ["scutiger-lfs/src/processor.rs: process_commands, Processor::*, unlock", "scutiger-lfs/src/backend/local.rs: from_id, unlock, start_upload, finish_upload, create", "scutiger-core/src/pktline.rs: Reader::read, read_packet", "scutiger-lfs/src/bin/git-lfs-transfer.rs: main"]}
{"id": "C79", "title": "A build with overflow checks differs only by giving up", "statement": "The length of a packet is summed in 16 bits; a build with overflow checks panics where another wraps around. Whatever the input and whatever the OS answers, a server of a build with checks makes the same calls, in the same order, as one without and ends in the same way; or the input has four bytes that overflow when taken for a length, the server ends with code 101, and until then it has made the calls of the other, after which it at most removes the file of the upload it was receiving. If no four bytes of the input overflow, the two programs are equal. So, alone on the store, whatever bytes arrive and whenever the server ends or is killed, some of the requests these bytes mean have been done and the others have left no trace (C77), in either build.", "quantifier": "every input, every sequence of answers of the OS (for the store: every fault-free environment), either mode, every moment of a kill", "why_tests_cant": "a test sees one build, and few of the headers that overflow, at few places in a session", "anchors": ["scutiger-core/src/pktline.rs: parse_header, Reader::read_packet, Reader::read_one", "scutiger-lfs/src/processor.rs: put_object, process_commands", "scutiger-lfs/src/backend/local.rs: start_upload"]}
{"id": "C80", "title": "It makes no difference that files are read piece by piece", "statement": "Lock files and objects are read with many calls of `read`, between which other servers work and other programs change their own files. Whatever happens in such a system could have happened if each file were read in one call at the moment its reading ends: the same calls have the same results in the same order, and the files and processes are the same in the end. Whoever reads a file of the repository to its end has got its whole content as it is at that moment; an object, once it has its name, reads the same for ever.", "quantifier": "every number of processes, all programs, inputs and file systems, every interleaving of single reads with the steps of others, every size of the pieces, every failure and kill; also executions without end", "why_tests_cant": "a test cannot choose what other processes do between two reads of one file, nor go through all interleavings", "anchors": ["scutiger-lfs/src/backend/local.rs:364-390", "scutiger-lfs/src/processor.rs:167-170"]}
{"id": "C81", "title": "The store is safe whatever the servers are told about it", "statement": "Let every call of a server that changes nothing be answered in any way at all, whatever the files are: attributes and contents may be out of date or made up, listings incomplete, opened files others than those named, clocks wrong, output refused. Then still, with any number of servers: each object keeps its content or gets, by one rename, complete content with the right hash; all objects hash to their names; stored objects are never lost and their files never change; a lock file has the beginning of a record of its ID, and a complete record when requests for this lock do not overlap; and between two creations of a lock it was removed. Only calls that create, write, rename, link and remove files need to work as they should.", "quantifier": "every number of processes, every input, every interleaving, every kill and failure, every answer to every call that changes nothing", "why_tests_cant": "no test can put arbitrary answers in the mouth of the operating system at arbitrary calls, among arbitrary other processes", "anchors": ["scutiger-lfs/src/backend/local.rs: start_upload, finish_upload, LockFile, LocalBackendLock", "scutiger-lfs/src/processor.rs"]}
{"id": "C82", "title": "What a client has been told is stored is there, for everybody and for good; a push works", "statement": "Several servers work on one repository whose objects all have the right hash, each with any input, in any interleaving, with any failures and kills. Once any of them has told its client that an object is stored (a successful put-object, a noop line of a batch for an upload, or a successful verify-object), the object is stored with the right hash at every later moment, and every server asked for it from then on sends bytes with this hash. Hence pushing works: a client asks a server for some objects with batch and gets a line for each; if those not reported as present are then sent to some server, and both servers ended without an I/O error, all the objects are stored with the right hash from then on, whatever the others did.", "quantifier": "every number of processes, every input of the others, every interleaving, every kill and failure of the others, every list of objects, every two servers (or one)", "why_tests_cant": "the promise is about all later moments and all other servers; a client skips an upload because of what another client may be uploading at this moment", "anchors": ["scutiger-lfs/src/processor.rs: put_object, upload_batch, verify_object", "scutiger-lfs/src/backend/local.rs: finish_upload, batch, verify, download"]}
{"id": "C83", "title": "A standard error that does not take the message changes nothing but the end", "statement": "Standard error may be closed, full or broken, so that it takes only some first bytes of what the server writes to it. Then the server makes the same calls with the same effects, leaves the same files and prints the same output as otherwise. It ends with code 0 exactly when it would otherwise. It ends with one of its own error codes (1, 2, 4) only if the whole message has arrived; otherwise a proper beginning of the message has arrived, and the process is aborted by a panic.", "quantifier": "every configuration, input, answer of the OS, and number of bytes standard error takes", "why_tests_cant": "standard error that fails after any number of bytes, in every session, cannot be tried", "anchors": ["scutiger-lfs/src/bin/git-lfs-transfer.rs: main, repo, setup"]}
{"id": "C84", "title": "Listings show every lock that is held all the time, though listing a directory takes time and other files come and go", "statement": "A server lists all locks, while the OS may give any answers about other files; the names of a directory need not be those of one moment, provided a name that is there all the time is given. A lock whose file is there all the time and can be read is shown, with its path, time and owner, unless it is before the cursor, or the page is full, and then the next page does not start after it (unless a file is read as a lock that should have a later name). Hence a client that follows the cursors until there is none has seen every lock that was held all the time, whichever servers it asked.", "quantifier": "every listing, cursor and limit, every answer about other files, every number of pages and servers, every interleaving", "why_tests_cant": "the answers depend on when others create and remove files during the listing of a directory, which tests do not control", "anchors": ["scutiger-lfs/src/backend/local.rs: LocalLockBackend::iter, LockSetIterator", "scutiger-lfs/src/processor.rs: list_locks"]}
{"id": "C85", "title": "Locks and power failures", "statement": "A lock that a client was told it has is held after a power failure, and nobody else gets it, until it is removed; a lock that was released is not held again.", "quantifier": "every number of servers, interleaving, I/O error, kill, and power failure, each losing the ends of any files not written to disk (or also names)", "why_tests_cant": "what a power failure loses cannot be chosen in a test, and depends on the moment and on what the OS had written back", "anchors": ["scutiger-lfs/src/backend/local.rs:150-200", "scutiger-lfs/src/backend/local.rs: LocalLockBackend::create, LocalLockBackend::from_id, LocalBackendLock::unlock", "scutiger-lfs/src/processor.rs: lock, unlock, list_locks"]}
{"id": "C86", "title": "A server leaves at most one temporary upload file behind, and only if it is killed or the OS refuses the removal", "statement": "At every moment, each file in the directory of temporary files was there at the start, or the OS refused to remove it, or it was made by a server that is still running or was killed, and is the only such file of that server. So if no removal fails, there are at most as many temporary files as servers that are running or were killed.", "quantifier": "every number of servers, every input of each, every interleaving, I/O error and kill, any number of uploads per server", "why_tests_cant": "the kill can come between any two calls of any server, after any number of uploads of any contents", "anchors": ["scutiger-lfs/src/backend/local.rs: start_upload, finish_upload", "scutiger-lfs/src/processor.rs: put_object, process_commands"]}
{"id": "C87", "title": "A client whose lock was cut off by kills has to ask at most twice more", "statement": "A client asks for a lock; the server is killed at any moment, the client asks again, and this may happen any number of times. If the client then asks for this lock, and once more in case the server crashes without a word, it gets its reply and the path is locked; the rest of its session is served as usual, no other lock changes and no object. The server that crashes removes the file that the killed one has left, and changes nothing else; if the lock is held, nobody notices the file at all.", "quantifier": "every path, request for its lock and rest of the session, every store, any number of killed servers and every moment of death (number of system calls made); one server at a time, no I/O error", "why_tests_cant": "the moment of death, the store and the rest of the session are arbitrary; the crash happens only if the kill falls between two particular calls", "anchors": ["scutiger-lfs/src/processor.rs: lock (unreachable!)", "scutiger-lfs/src/backend/local.rs: LockFile::write, LockFile::persist, Drop for LockFile, LocalLockBackend::from_path"]}
{"id": "C88", "title": "A listing after a kill", "statement": "A listing shows exactly the locks that are held, each once, and paging through it ends, also after a server was killed while it took a lock. (False for the code: the file in which the killed server prepared the record is taken for a lock. What is true: whatever files are in the directory of the locks, a listing shows exactly the records in them, in the order of the names of the files; every lock that is held is among them.)", "quantifier": "every content of the directory of the locks, any number of listings with any cursor and limit, both modes, every environment without I/O errors", "why_tests_cant": "any number of files with any content; the errors appear only if a kill falls between two particular calls", "anchors": ["scutiger-lfs/src/backend/local.rs: LockFile, LockSetIterator, LocalLockBackend::from_id", "scutiger-lfs/src/processor.rs: list_locks"]}
{"id": "C89", "title": "What a killed lock leaves disturbs nobody else", "statement": "A server is killed while it takes a lock, and the file in which it prepared the record stays. Every request but a lock of the same path (C87) and a listing of all locks (C88) gets the reply that it would get if the file were not there, and has the same effect on objects and locks: uploads, downloads, verifications, batches, locks of other paths, releases of any lock, also of this one, listings of a single path. The file stays as it is.", "quantifier": "every store, path and content of the file, every session of such requests (any number, also nonsense), both modes; every session that is killed, at every moment (number of system calls made); one server at a time, no I/O error", "why_tests_cant": "any number of arbitrary requests over an arbitrary store; that a file makes no difference is a statement about all of them", "anchors": ["scutiger-lfs/src/backend/local.rs: LockFile, LocalLockBackend::from_id, from_path, unlock, LocalBackend", "scutiger-lfs/src/processor.rs: the commands"]}
{"id": "C90", "title": "Any number of killed servers, one after the other", "statement": "One server after the other is started over the same files, and each is killed at any moment. Then each has done some of its requests, from the first on, and the others have left no trace in the objects and locks; whatever it printed is a beginning of the greeting and the replies to those it had done. Whether a path is locked and what an object contains is what this store says, whatever temporary files the killed servers left. A later server that is asked neither to list all locks (C88) nor to lock a path that a killed one was asked to lock (C87) serves every request from this store. A client that asks for such a lock has to ask at most twice: the server serves it from this store, or crashes without a reply, and then the next server serves it.", "quantifier": "every store; any number of servers, every session for each of them (any number of requests, also nonsense; no listing of all locks and no lock of a path that an earlier one was to lock), both modes, every clock, every moment of each kill (number of system calls made); no I/O error", "why_tests_cant": "any number of kills, each at an arbitrary call in an arbitrary session; the files that stay accumulate", "anchors": ["scutiger-lfs/src/backend/local.rs: LockFile, LocalLockBackend, LocalBackend", "scutiger-lfs/src/processor.rs: the commands", "scutiger-lfs/src/bin/git-lfs-transfer.rs: main"]}
