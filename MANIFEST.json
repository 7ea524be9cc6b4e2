{"claims": [
{"property": "C01", "status": "proved", "theorems": ["Verif.C01_packet_roundtrip", "Verif.C01_read_any_frame", "Verif.C01_sequence", "Verif.C01_bound_needed"], "note": "Round trip for every packet up to 65531 bytes; the bound is shown necessary."},
{"property": "C02", "status": "proved", "theorems": ["Verif.C02_write_framing"], "note": "Every buffer."},
{"property": "C03", "status": "proved", "theorems": ["Verif.C03_stream_read"], "note": "Every packet sequence and read schedule."},
{"property": "C04", "status": "partial", "theorems": ["Verif.C04_zero_read_refuted", "Verif.C04_zero_read_eats_terminator", "Verif.C04_zero_read_partial", "Verif.C04_exact_partial", "Verif.C04_same_partial"], "note": "The property is false for the code: a zero-length read drops pending data or consumes a packet (refuted). Proved: for exactly which states of the reader it holds (nothing buffered, and data ahead, perhaps after empty packets)."},
{"property": "C05", "status": "partial", "theorems": ["Verif.C05_header_refuted", "Verif.C05_overflow", "Verif.C05_header_partial", "Verif.C05_exact_partial"], "note": "False for the code: ':' and 'g' are accepted and values overflow (refuted). Proved: lower-case hexadecimal headers get their value; and for every header exactly whether it is accepted, refused or makes the program panic, and with what value."},
{"property": "C06", "status": "proved", "theorems": ["Verif.C06_oversized_reserved", "Verif.C06_read_bounded"], "note": ""},
{"property": "C07", "status": "proved", "theorems": ["Verif.C07_truncation_detected"], "note": "Every truncation point and schedule."},
{"property": "C09", "status": "proved", "theorems": ["Verif.C09_args_exact", "Verif.C09_args_errors", "Verif.C09_exhaustive", "Verif.C09_no_panic"], "note": "Success and error cases, shown exhaustive."},
{"property": "C10", "status": "proved", "theorems": ["Verif.C10_integer_exact", "Verif.C10_decimal_roundtrip"], "note": "Against an inductive definition of decimal notation."},
{"property": "C11", "status": "proved", "theorems": ["Verif.C11_oid_validation", "Verif.C11_oid_paths"], "note": ""},
{"property": "C31", "status": "proved", "theorems": ["Verif.C31_record_roundtrip"], "note": ""},
{"property": "C51", "status": "proved", "theorems": ["Verif.C51_io_kind_kept"], "note": ""},
{"property": "C20", "status": "proved", "theorems": ["Verif.C20_download_readonly", "Verif.C20_effect"], "note": "Every input, every response of the OS."},
{"property": "C36", "status": "partial", "theorems": ["Verif.C36_refuted", "Verif.C36_replies_partial", "Verif.C36_cut_partial", "Verif.C36_prefix", "Verif.C36_one_reply"], "note": "False when reading an object's content fails half-way (refuted: the reply is cut). Proved: well-formed stream when no such read fails; in general at most the last flush of the last reply is missing; at every moment a prefix of a well-formed stream."},
{"property": "C39", "status": "proved", "theorems": ["Verif.C39_classification"], "note": "Status code, text, one reply, session continues."},
{"property": "C40", "status": "proved", "theorems": ["Verif.C40_turn_consumes", "Verif.C40_loop", "Verif.C40_terminates", "Verif.C40_eof", "Verif.C40_bad_header", "Verif.C40_quit"], "note": ""},
{"property": "C41", "status": "proved", "theorems": ["Verif.C41_refused", "Verif.C41_only_output", "Verif.C67_reply", "Verif.C67_untouched"], "note": "C67_reply and C67_untouched: the same for the whole turn, in terms of the packet received and the reply sent."},
{"property": "C43", "status": "proved", "theorems": ["Verif.C43_exit_codes", "Verif.C43_unknown_operation"], "note": ""},
{"property": "C21", "status": "proved", "theorems": ["Verif.C21_confined"], "note": "Every input, every response of the OS, every stopping point."},
{"property": "C53", "status": "proved", "theorems": ["Verif.C53_no_temp_left", "Verif.C53_directory_unchanged", "Verif.C53_order", "Verif.order_immaterial", "Verif.C12_order", "Verif.C14_order"], "note": "Every response of the OS; and in terms of the final directory. After a failed rename the code removes the temporary file only after the reply; C53_order is about that order, and order_immaterial shows that servers in the order of the code reach no other file systems than those of the model (so C12, C14 and the like carry over)."},
{"property": "C12", "status": "proved", "theorems": ["Verif.C12_integrity"], "note": "All interleavings of any number of processes, faults, kills."},
{"property": "C14", "status": "proved", "theorems": ["Verif.C14_store_unchanged", "Verif.C14_refused", "Verif.C14_only_rename"], "note": ""},
{"property": "C22", "status": "proved", "theorems": ["Verif.C22_never_deleted", "Verif.object_handle_stable"], "note": ""},
{"property": "C24", "status": "proved", "theorems": ["Verif.C24_atomic"], "note": "Every step of every reachable state."},
{"property": "C25", "status": "proved", "theorems": ["Verif.C25_mutual_exclusion", "Verif.C25_reply"], "note": ""},
{"property": "C37", "status": "proved", "theorems": ["Verif.C37_pipelined"], "note": "Every sequence of well-formed requests, initial store, clock, chunking and packetization, for a server running alone without I/O errors; against the abstract server Spec.answer."},
{"property": "C13", "status": "proved", "theorems": ["Verif.C13_put_exact"], "note": ""},
{"property": "C15", "status": "proved", "theorems": ["Verif.C15_independent"], "note": "Byte-for-byte the same reply and the same stored objects."},
{"property": "C16", "status": "proved", "theorems": ["Verif.C16_round_trip"], "note": "Any sessions in between; assumes none of them uploads other data with the same SHA-256. (Uploads and downloads are served by different modes, so always by different sessions.)"},
{"property": "C17", "status": "proved", "theorems": ["Verif.C17_get_exact"], "note": ""},
{"property": "C18", "status": "proved", "theorems": ["Verif.C18_verify_exact"], "note": ""},
{"property": "C19", "status": "proved", "theorems": ["Verif.C19_batch_exact"], "note": ""},
{"property": "C26", "status": "proved", "theorems": ["Verif.C26_lock_exact"], "note": "Every store and path; no other process interferes (concurrent case: C25)."},
{"property": "C30", "status": "proved", "theorems": ["Verif.C30_unlock_exact", "Verif.C30_history"], "note": "Single unlock, and any history of requests."},
{"property": "C32", "status": "proved", "theorems": ["Verif.C32_list_exact"], "note": "Any directory order."},
{"property": "C33", "status": "partial", "theorems": ["Verif.C33_refuted", "Verif.C33_page_partial"], "note": "False for the code: a page holds limit+1 locks when more remain (refuted). Proved: exactly which locks a page holds, so never more than limit+1 and never more than 101."},
{"property": "C34", "status": "proved", "theorems": ["Verif.C34_traversal"], "note": "Every limit from 1 up."},
{"property": "C35", "status": "proved", "theorems": ["Verif.C35_owner_flag"], "note": ""},
{"property": "C42", "status": "partial", "theorems": ["Verif.C42_refuted", "Verif.C42_time_partial", "Verif.C26_lock_exact"], "note": "False for the code: the clock is read twice (refuted); C26_lock_exact says which reading is recorded and which is reported. Proved when the clock shows the same time at both reads or a fixed time is configured."},
{"property": "C08", "status": "partial", "theorems": ["Verif.C08_refuted", "Verif.C08_put_partial", "Verif.C08_lock_partial", "Verif.C08_others_partial", "Verif.C08_exact_partial"], "note": "False for lock and unlock (refuted: a lock request cut off before its flush takes the lock, an unlock removes it). Proved for uploads at every truncation point and for every answer of the OS, for lock when path or refname is missing from the complete packets, and for all other commands. C08_exact_partial: every request with arguments that breaks off does exactly what its complete packets and a flush would do."},
{"property": "C38", "status": "partial", "theorems": ["Verif.C38_refuted", "Verif.C38_resync_partial", "Verif.C38_extent_partial", "Verif.C38_determined", "Verif.C38_total", "Verif.C38_split", "Verif.C38_split_unique", "Verif.C38_put_iff", "Verif.C38_batch_iff"], "note": "False for the code (refuted: the data of an upload with a bad object ID is executed). Proved for the requests whose packets the server reads to the end before judging them (Spec.Shaped), for every answer of the OS. And exactly, for whatever packets are sent (C38_extent_partial with C38_split, C38_split_unique): which packets are taken together as one request (Spec.Extent), each getting one reply; an upload or a batch is taken whole just if C38_put_iff, C38_batch_iff."},
{"property": "C52", "status": "partial", "theorems": ["Verif.C52_refuted", "Verif.C52_upload_partial", "Verif.C52_exact_partial"], "note": "False for the code (refuted: after a failing write the rest of a valid upload is executed). Proved when creating and writing the temporary file succeed, whatever else fails; and exactly then: otherwise at least the flush is left in the input."},
{"property": "C54", "status": "partial", "theorems": ["Verif.C54_refuted", "Verif.C54_fresh_partial", "Verif.C54_exact_partial"], "note": "False for the code (refuted: after a failing write, bytes of the failed upload are prepended to the next). Proved when no write to a temporary file failed before in the session; and, in every case, that an upload is judged by exactly the bytes left in the buffer followed by its own data."},
{"property": "C27", "status": "partial", "theorems": ["Verif.C27_refuted", "Verif.C27_race_refuted", "Verif.C27_lock_partial"], "note": "False for the code (refuted twice: after another server was killed while taking the lock; and, with no kill and no fault, when the lock is removed while another client asks for it). Proved: every lock request, whatever its arguments and whatever the OS answers, gets exactly one reply, unless the lock vanishes between two calls or a time has no RFC 3339 form."},
{"property": "C55", "status": "proved", "theorems": ["Verif.C55_crashes", "Verif.C55_no_crash"], "note": "Every input, every response of the OS; builds without overflow checks."},
{"property": "C23", "status": "partial", "theorems": ["Verif.C23_refuted", "Verif.C23_reads_partial", "Verif.C23_below_partial"], "note": "False for the code (refuted: unlock ../../../secret reads a file outside the lfs directory). Proved for every input, every response of the OS and every stopping point: all other names looked at are below the lfs directory, the only exception being the argument of an unlock command; and if those arguments have no slash and are not '..', every name is below it."},
{"property": "C29", "status": "partial", "theorems": ["Verif.C29_refuted", "Verif.C29_removes_partial", "Verif.C29_reply_partial", "Verif.C29_directory_partial"], "note": "False for the code (refuted: unlock ../locks/<id> removes the lock). Proved for every argument, state, response of the OS and stopping point: at most one call changes anything, it removes the lock of a path just read from the file named by the argument, and the reply is 200 exactly if it succeeded."},
{"property": "C28", "status": "partial", "theorems": ["Verif.C28_refuted", "Verif.C28_prefix_partial", "Verif.C28_complete_partial", "Verif.C28_alone_partial"], "note": "False for the code (refuted: three overlapping lock requests, no fault, no kill, leave an empty lock file). Proved for all interleavings, faults and kill points: a lock file always contains the beginning of a record with its ID; and a complete record unless two processes use the same temporary file at the same time with one of them having failed to create it (in particular for a single process)."},
{"property": "C44", "status": "proved", "theorems": ["Verif.C44", "Verif.C44_found", "Verif.C44_none", "Verif.C44_fails", "Verif.C44_norepo", "Verif.C44_show"], "note": "Every engine (any compile or match behaviour), every history (any errors in it), all options, any point at which standard output or error fails."},
{"property": "C45", "status": "proved", "theorems": ["Verif.C45", "Verif.C45_found"], "note": "For every engine that agrees with PCRE on the two fixed prefixes git-at builds (Spec.Faithful, on the modelled fragment)."},
{"property": "C46", "status": "partial", "theorems": ["Verif.GitAtDemo.C46_refuted", "Verif.C46_partial", "Verif.summary_matches"], "note": "False for the code (refuted: the pattern nope|This escapes the anchor). Proved for every pattern of the modelled PCRE fragment without a top level alternation; summary_matches says exactly what the built pattern matches for all others."},
{"property": "C47", "status": "partial", "theorems": ["Verif.RecentDemo.C47_refuted", "Verif.C47_partial", "Verif.C47_error", "Verif.C47_determined", "Verif.C47_seconds_partial"], "note": "False for the code (refuted: same second, different time zones are ordered by offset). Proved for every set of references otherwise."},
{"property": "C48", "status": "proved", "theorems": ["Verif.C48", "Verif.C48_terminates", "Verif.C48_diverges", "Verif.C48_cut", "Verif.C48_ends"], "note": "Fewer than 2^31 entries (the counter is an i32). Also: as long as it can write, the listing never ends exactly when every entry resolves; and lines are not held back, so that the program always ends when its reader goes away, having written the first bytes of the listing."},
{"property": "C49", "status": "proved", "theorems": ["Verif.C49", "Verif.C49_output", "Verif.pager_exists"], "note": "Every environment and configuration."},
{"property": "C50", "status": "partial", "theorems": ["Verif.C50_refuted", "Verif.C50_octal_refuted", "Verif.C50_partial", "Verif.C50_put", "Verif.C50_octal_intended"], "note": "False for the code (refuted: libgit2 reads an octal value as a boolean, so 0640 gives 0770; C50_octal_refuted: every octal value). Proved for every other value, every input and every response of the OS; also what the octal branch would do were it reached."},
{"property": "C56", "status": "proved", "theorems": ["Verif.C56_linearizable", "Verif.C56_finished", "Verif.C56_visible"], "note": "Every interleaving with any number of other servers (any input, faults and kills on their side); the process itself may be observed at any moment, whether it finishes, is still running, or is killed later. Lock requests are not covered (see C25-C29)."},
{"property": "C57", "status": "proved", "theorems": ["Verif.C57_linearizable", "Verif.C57_finished", "Verif.C57_excuse_needed"], "note": "Every interleaving with any number of other servers; the process itself may be observed at any moment. C57_excuse_needed: two servers that ask for the same lock in alternation get an internal error and a panic, so the exception cannot be dropped. A listing of all locks is described step by step (Listed), see C59."},
{"property": "C58", "status": "proved", "theorems": ["Verif.C58_flushed", "Verif.C58_request", "Verif.C58_session", "Verif.C58_waiting"], "note": "For every sequence of requests, sensible or not (Spec.Extent, see C38). Every answer of the OS except failing output and failing writes of uploads (after those the code itself goes on differently, see C52, C54). C58_session also gives: if the client sends nothing more, the server ends right there."},
{"property": "C59", "status": "proved", "theorems": ["Verif.C59_listing", "Verif.C59_sound", "Verif.C59_complete", "Verif.C59_pages", "Verif.C59_alone", "Verif.C59_phantom", "Verif.C59_twice"], "note": "C59_listing: what a server prints for a listing among other servers, in terms of what it read (Listed). The other theorems interpret Listed. C59_phantom and C59_twice are concrete schedules that show why temporary files are an exception: they are listed like locks."},
{"property": "C60", "status": "partial", "theorems": ["Verif.C60_batch_refuted", "Verif.C60_listing_refuted", "Verif.C60_request_partial", "Verif.C60_session_partial"], "note": "False for the code in two places: a batch takes any failure to look at an object for its absence (C60_batch_refuted), and a listing of all locks leaves out locks whose files cannot be read (C60_listing_refuted). Proved for every other request, and for these two when no such call fails other than with 'not found'. Sessions: up to an upload that could not be written (C52)."},
{"property": "C61", "status": "proved", "theorems": ["Verif.C61_refused", "Verif.C61_reply", "Verif.C61_looked_up", "Verif.C61_listed", "Verif.C61_lossy", "Verif.C61_time"], "note": "UTF-8 is specified by Lean's own encoding of characters (Spec/Utf8.lean)."},
{"property": "C62", "status": "proved", "theorems": ["Verif.C62_untouched", "Verif.C62_view", "Verif.C62_integrity", "Verif.C62_exclusion", "Verif.C62_execution", "Verif.C62_answers"], "note": "C62_view and C62_execution are the general statements; the others are instances. About changes, not about reading: that a server may look at files outside its repository is C23."},
{"property": "C63", "status": "proved", "theorems": ["Verif.C63_startup", "Verif.C63_stops_once", "Verif.C63_begins_once"], "note": "Which umask a value leads to, as far as it depends on how libgit2 reads booleans, is C50."},
{"property": "C64", "status": "partial", "theorems": ["Verif.C64_refuted", "Verif.C64_order_partial", "Verif.C64_complete_partial", "Verif.C64_all_read_partial", "Verif.C64_killed_partial"], "note": "Refuted for the code in its last part: nothing waits for the pager, so the program may exit (and the shell go on) while the pager has not read anything yet. The other parts are proved."},
{"property": "C65", "status": "proved", "theorems": ["Verif.C65_session", "Verif.C65_request"], "note": "Reading a file to its end is one operation (readAll), as is one write_all; the number of read(2) and write(2) calls behind these depends on sizes of files and is not bounded here."},
{"property": "C66", "status": "proved", "theorems": ["Verif.C66_session", "Verif.C66_request"], "note": "The hypotheses on clock readings say that they fit into 64 bits, as they do in the code (i64)."},
{"property": "C67", "status": "proved", "theorems": ["Verif.C67_table", "Verif.C67_reply", "Verif.C67_untouched"], "note": "The requests themselves (Opens) are the subject of the other properties."},
{"property": "C68", "status": "partial", "theorems": ["Verif.C68_kept_partial", "Verif.C68_prefix_partial", "Verif.C68_noticed_partial", "Verif.C68_repair_partial", "Verif.C68_unnoticed", "Verif.C68_lost", "Verif.C68_damaged", "Verif.C68_lock_lost", "Verif.rep_powerLoss", "Verif.C68_outage_kept_partial", "Verif.C68_outage_prefix_partial", "Verif.C68_outage_there_partial", "Verif.C68_outage_noticed_partial", "Verif.C68_vanished"], "note": "False for the code, which never calls fsync: C68_lost (an upload answered with 200 is an empty file after a power failure), C68_damaged (a synced object is damaged by its second upload), C68_lock_lost (a lock reported under another path and ID). Proved: objects not renamed to since the last sync are intact, all others are prefixes; verify-object notices, a new upload repairs, batch does not notice. The same when names are lost as well, each found as it was at any moment since the last sync (C68_outage_*); then an upload answered with 200 may have vanished (C68_vanished). Missing: objects uploaded since the last sync."},
{"property": "C69", "status": "proved", "theorems": ["Verif.C69_boundary", "Verif.C69_command", "Verif.C69_oversized", "Verif.C69_inside"], "note": "C69_oversized is proved for a first data packet that is too large, when the temporary file can be created."},
{"property": "C70", "status": "proved", "theorems": ["Verif.C70_listing", "Verif.C70_unique", "Verif.C70_no_shell", "Verif.C70_outside"], "note": "Every option, environment and repository. What clap does with other values of --sort is not modelled."},
{"property": "C71", "status": "partial", "theorems": ["Verif.C71_reply", "Verif.C71_prefix", "Verif.C71_stream", "Verif.C71_answer_partial", "Verif.C71_listing_partial", "Verif.C71_refuted"], "note": "Replies, streams of replies: proved without restriction. Answers and listings: proved for lines of at most 65516 bytes, that is lock paths of at most 65445 bytes. False beyond (C71_refuted): a client locks one path of 65515 bytes and every listing has two packets that announce a lock, the second with an ID of its choosing."},
{"property": "C72", "status": "partial", "theorems": ["Verif.C72_session_partial", "Verif.C72_same_partial", "Verif.C72_total", "Verif.C72_one_session", "Verif.C72_one_meaning", "Verif.C72_one_denial", "Verif.C72_not_both", "Verif.C72_reply", "Verif.C72_untouched", "Verif.C72_sensible", "Verif.C72_sessions", "Verif.C72_refuted"], "note": "Proved for every request except `unlock` with an argument that is no lock ID (OddUnlock). False for that (C72_refuted): `unlock ../../../secret` is answered differently in two repositories with the same objects and locks, since the server opens a file outside of the lfs directory. C72_reply and C72_untouched hold whatever the file system does; the others are for runs without faults."},
{"property": "C73", "status": "partial", "theorems": ["Verif.C73_stopped", "Verif.C73_read", "Verif.C73_again_partial", "Verif.C73_refuted"], "note": "C73_stopped and C73_read: every session and every moment. C73_again_partial: whenever no temporary file of a `lock` of the session is left (always so in sessions without `lock`, for which the final store is also exactly the same, including the times of locks). False otherwise (C73_refuted): a `lock` killed between creating and removing `<id>.lock` makes the next server crash at the same request. One server at a time, which is killed but not its machine (see C68 for that), and no call fails; an unlock with an argument that is no ID is excluded as in C72."},
{"property": "C74", "status": "proved", "theorems": ["Verif.C74_anywhere", "Verif.C74_cut", "Verif.C74_again", "Verif.C74_total", "Verif.C74_one_meaning", "Verif.C74_session", "Verif.C74_stopped"], "note": "C74_cut also allows nonsensical requests before the incomplete one, and says that an incomplete upload is not done. C74_total and C74_session: any packets and part of another. C74_denied_may_count shows why the incomplete request must be a sensible one: the beginning of a denied `lock` can be a `lock` that is done."},
{"property": "C75", "status": "proved", "theorems": ["Verif.C75_total", "Verif.C75_unique", "Verif.C75_same", "Verif.C75_extends", "Verif.C75_session", "Verif.C75_stopped", "Verif.C75_download"], "note": "C75_total, C75_unique: every byte string has one meaning. C75_same: so the answers depend on the bytes and the store alone. C75_session, C75_stopped: the server acts on it. C75_extends: strings in the format have the meaning of C72 and C74. C75_download: no exception there, and the store is kept."},
{"property": "C76", "status": "proved", "theorems": ["Verif.C76_session", "Verif.C76_sense", "Verif.C76_meant", "Verif.C76_crash"], "note": "C76_session: any bytes and any OS. C76_sense: all bytes have a sense, and one only, and it extends the meaning of C75 to odd unlocks. C76_meant: if all uploads can be written, the replies are to just the requests in this sense. C76_crash: the reasons for a panic, from C55. The exception for batches and listings is that of C60 (HonestReply)."},
{"property": "C77", "status": "proved", "theorems": ["Verif.C77_session", "Verif.C77_stopped", "Verif.C77_effects", "Verif.C77_objects"], "note": "C77_session: any bytes, no faults. C77_stopped: killed at any moment. C77_effects: what the requests done can have changed. C77_objects: the same about object files, at any moment. Examples show that an uploaded file can be used as the record of a lock, to release it with a false reply or to make the server panic."},
{"property": "C78", "status": "proved", "theorems": ["Verif.C78_any_bytes", "Verif.C78_finished"], "note": "C78_any_bytes: at every moment of every execution. C78_finished: when the server has ended. For a build without overflow checks, as C75 to C77. An example: one server takes a lock, another is sent nonsense, `unlock ./ID` (which releases it) and then bytes that are no header."},
{"property": "C79", "status": "proved", "theorems": ["Verif.C79_calls", "Verif.C79_so_far", "Verif.C79_same", "Verif.C79_run", "Verif.C79_killed", "Verif.C79_stopped", "Verif.C79_session"], "note": "C79_calls, C79_so_far: the calls of a finished and of an unfinished process, for any answers of the OS. C79_same: the programs are equal if nothing overflows. C79_run, C79_killed: running alone, in any environment. C79_stopped, C79_session: C77 for either build. An example: an upload ended by `fg00`, which is stored by one build and given up by the other."},
{"property": "C80", "status": "proved", "theorems": ["Verif.C80_pieces", "Verif.C80_execution", "Verif.C80_whole", "Verif.C80_object"], "note": "C80_pieces: finite runs. C80_execution: executions without end, each moment of which becomes three. C80_whole: a file of the repository that is read to its end. C80_object: objects do not change once opened. Examples: a file of others that changes while it is read; a file of the repository that grows while it is read."},
{"property": "C81", "status": "proved", "theorems": ["Verif.C81_atomic", "Verif.C81_integrity", "Verif.C81_kept", "Verif.C81_records", "Verif.C81_complete", "Verif.C81_exclusion"], "note": "As C24, C12, C22 with C14, C28 (two parts) and C25, but with any answers to calls that change nothing. In the example a server that sees no file stores an object and denies it."},
{"property": "C82", "status": "proved", "theorems": ["Verif.C82_known", "Verif.C82_pull", "Verif.C82_push"], "note": "What a reply says about an object holds for all servers at all later moments; a push of batch and uploads therefore leaves all objects stored."},
{"property": "C83", "status": "proved", "theorems": ["Verif.C83_calls", "Verif.C83_run", "Verif.C83_end"], "note": "C83_calls: the same calls, for any answers of the OS. C83_run: the same files and output. C83_end: the exit code and the part of the message that arrives."},
{"property": "C84", "status": "proved", "theorems": ["Verif.C84_shown", "Verif.C84_pages", "Verif.C84_held", "Verif.C84_execution"], "note": "C84_shown: one listing. C84_pages: all pages. C84_held: in an execution in which listings of directories take time, a process without I/O errors is answered steadily about a lock that is held. C84_execution: so the pages show it. Excepted are misnamed lock files. Example: a listing with a name too many, while another lock cannot be read."},
{"property": "C85", "status": "partial", "theorems": ["Verif.C85_lost", "Verif.C85_wrong_lock", "Verif.C85_vanished", "Verif.C85_back", "Verif.C85_exclusion_partial", "Verif.C85_prefix_partial", "Verif.C85_kept_partial", "Verif.C85_damaged_partial"], "note": "False for the code, which syncs nothing: a lock that was granted is invisible and stuck after a power failure (C85_lost), its release releases another lock (C85_wrong_lock), it is granted again (C85_vanished), or a released lock is back (C85_back). Proved: mutual exclusion over any number of power failures that lose no names; lock files are beginnings of records with their ID; a lock that was on disk and was not removed since is unharmed; about a lock whose file is no record the only replies are 400 and 500."},
{"property": "C86", "status": "proved", "theorems": ["Verif.C86_left", "Verif.C86_count"], "note": "C86_left: every temporary file is accounted for. C86_count: so there are at most as many as servers that are running or were killed."},
{"property": "C87", "status": "proved", "theorems": ["Verif.C87_crash", "Verif.C87_held", "Verif.C87_twice", "Verif.C87_killed", "Verif.C87_lock"], "note": "C87_crash and C87_held: what a server does while the file is there, for every session that begins with this lock request. C87_twice: so the second server, or the third, serves the whole session. C87_killed: what any number of killed servers leave. C87_lock: all together. This bounds the damage of C27_refuted and C73_refuted."},
{"property": "C88", "status": "partial", "theorems": ["Verif.C88_refuted", "Verif.C88_endless_refuted", "Verif.C88_exact_partial", "Verif.C88_store", "Verif.C88_left", "Verif.C88_killed", "Verif.C88_endless"], "note": "False for the code: the file of a killed `lock` is shown as a lock that nobody holds and nobody can release (C88_refuted); if the lock was taken, it is shown twice, and a client that asks for one lock per page gets the same page for ever (C88_endless_refuted, C88_endless). Proved: a listing shows exactly the records in the files, whatever these are (C88_exact_partial); these are the locks of the store (C88_store), and after a kill at any moment of any session at most one more, that of a `lock` that was under way (C88_left, C88_killed)."},
{"property": "C89", "status": "proved", "theorems": ["Verif.C89_aside", "Verif.C89_killed"], "note": "C89_aside: sessions over a store with such a file. C89_killed: together with C73, for a session killed at any moment. The two kinds of request left out are those of C87 and C88, where the file does make a difference."},
{"property": "C90", "status": "proved", "theorems": ["Verif.C90_kills", "Verif.C90_next", "Verif.C90_files", "Verif.C90_retry"], "note": "C90_kills: what any number of killed servers have done. C90_next: the server after them. C90_files: what the files themselves say. C90_retry: a lock that a killed server was to take has to be asked for at most twice. The other requests left out are those of C87 and C88, where a file that stays does make a difference."}
]}
