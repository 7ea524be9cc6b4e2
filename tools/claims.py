c("C01","proved",["C01_packet_roundtrip","C01_read_any_frame","C01_sequence","C01_bound_needed"],"Round trip for every packet up to 65531 bytes; the bound is shown necessary.")
c("C02","proved",["C02_write_framing"],"Every buffer.")
c("C03","proved",["C03_stream_read"],"Every packet sequence and read schedule.")
c("C04","partial",["C04_zero_read_refuted","C04_zero_read_eats_terminator","C04_zero_read_partial","C04_exact_partial","C04_same_partial"],"The property is false for the code: a zero-length read drops pending data or consumes a packet (refuted). Proved: for exactly which states of the reader it holds (nothing buffered, and data ahead, perhaps after empty packets).")
c("C05","partial",["C05_header_refuted","C05_overflow","C05_header_partial","C05_exact_partial"],"False for the code: ':' and 'g' are accepted and values overflow (refuted). Proved: lower-case hexadecimal headers get their value; and for every header exactly whether it is accepted, refused or makes the program panic, and with what value.")
c("C06","proved",["C06_oversized_reserved","C06_read_bounded"],"")
c("C07","proved",["C07_truncation_detected"],"Every truncation point and schedule.")
c("C09","proved",["C09_args_exact","C09_args_errors","C09_exhaustive","C09_no_panic"],"Success and error cases, shown exhaustive.")
c("C10","proved",["C10_integer_exact","C10_decimal_roundtrip"],"Against an inductive definition of decimal notation.")
c("C11","proved",["C11_oid_validation","C11_oid_paths"],"")
c("C31","proved",["C31_record_roundtrip"],"")
c("C51","proved",["C51_io_kind_kept"],"")
c("C20","proved",["C20_download_readonly","C20_effect"],"Every input, every response of the OS.")
c("C36","partial",["C36_refuted","C36_replies_partial","C36_cut_partial","C36_prefix","C36_one_reply"],"False when reading an object's content fails half-way (refuted: the reply is cut). Proved: well-formed stream when no such read fails; in general at most the last flush of the last reply is missing; at every moment a prefix of a well-formed stream.")
c("C39","proved",["C39_classification"],"Status code, text, one reply, session continues.")
c("C40","proved",["C40_turn_consumes","C40_loop","C40_terminates","C40_eof","C40_bad_header","C40_quit"],"")
c("C41","proved",["C41_refused","C41_only_output","C67_reply","C67_untouched"],"C67_reply and C67_untouched: the same for the whole turn, in terms of the packet received and the reply sent.")
c("C43","proved",["C43_exit_codes","C43_unknown_operation"],"")
c("C21","proved",["C21_confined"],"Every input, every response of the OS, every stopping point.")
c("C53","proved",["C53_no_temp_left","C53_directory_unchanged","C53_order","order_immaterial","C12_order","C14_order"],"Every response of the OS; and in terms of the final directory. After a failed rename the code removes the temporary file only after the reply; C53_order is about that order, and order_immaterial shows that servers in the order of the code reach no other file systems than those of the model (so C12, C14 and the like carry over).")
c("C12","proved",["C12_integrity"],"All interleavings of any number of processes, faults, kills.")
c("C14","proved",["C14_store_unchanged","C14_refused","C14_only_rename"],"")
c("C22","proved",["C22_never_deleted","object_handle_stable"],"")
c("C24","proved",["C24_atomic"],"Every step of every reachable state.")
c("C25","proved",["C25_mutual_exclusion","C25_reply"],"")
c("C37","proved",["C37_pipelined"],"Every sequence of well-formed requests, initial store, clock, chunking and packetization, for a server running alone without I/O errors; against the abstract server Spec.answer.")
c("C13","proved",["C13_put_exact"],"")
c("C15","proved",["C15_independent"],"Byte-for-byte the same reply and the same stored objects.")
c("C16","proved",["C16_round_trip"],"Any sessions in between; assumes none of them uploads other data with the same SHA-256. (Uploads and downloads are served by different modes, so always by different sessions.)")
c("C17","proved",["C17_get_exact"],"")
c("C18","proved",["C18_verify_exact"],"")
c("C19","proved",["C19_batch_exact"],"")
c("C26","proved",["C26_lock_exact"],"Every store and path; no other process interferes (concurrent case: C25).")
c("C30","proved",["C30_unlock_exact","C30_history"],"Single unlock, and any history of requests.")
c("C32","proved",["C32_list_exact"],"Any directory order.")
c("C33","partial",["C33_refuted","C33_page_partial"],"False for the code: a page holds limit+1 locks when more remain (refuted). Proved: exactly which locks a page holds, so never more than limit+1 and never more than 101.")
c("C34","proved",["C34_traversal"],"Every limit from 1 up.")
c("C35","proved",["C35_owner_flag"],"")
c("C42","partial",["C42_refuted","C42_time_partial","C26_lock_exact"],"False for the code: the clock is read twice (refuted); C26_lock_exact says which reading is recorded and which is reported. Proved when the clock shows the same time at both reads or a fixed time is configured.")
c("C08","partial",["C08_refuted","C08_put_partial","C08_lock_partial","C08_others_partial","C08_exact_partial"],"False for lock and unlock (refuted: a lock request cut off before its flush takes the lock, an unlock removes it). Proved for uploads at every truncation point and for every answer of the OS, for lock when path or refname is missing from the complete packets, and for all other commands. C08_exact_partial: every request with arguments that breaks off does exactly what its complete packets and a flush would do.")
c("C38","partial",["C38_refuted","C38_resync_partial","C38_extent_partial","C38_determined","C38_total","C38_split","C38_split_unique","C38_put_iff","C38_batch_iff"],"False for the code (refuted: the data of an upload with a bad object ID is executed). Proved for the requests whose packets the server reads to the end before judging them (Spec.Shaped), for every answer of the OS. And exactly, for whatever packets are sent (C38_extent_partial with C38_split, C38_split_unique): which packets are taken together as one request (Spec.Extent), each getting one reply; an upload or a batch is taken whole just if C38_put_iff, C38_batch_iff.")
c("C52","partial",["C52_refuted","C52_upload_partial","C52_exact_partial"],"False for the code (refuted: after a failing write the rest of a valid upload is executed). Proved when creating and writing the temporary file succeed, whatever else fails; and exactly then: otherwise at least the flush is left in the input.")
c("C54","partial",["C54_refuted","C54_fresh_partial","C54_exact_partial"],"False for the code (refuted: after a failing write, bytes of the failed upload are prepended to the next). Proved when no write to a temporary file failed before in the session; and, in every case, that an upload is judged by exactly the bytes left in the buffer followed by its own data.")
c("C27","partial",["C27_refuted","C27_race_refuted","C27_lock_partial"],"False for the code (refuted twice: after another server was killed while taking the lock; and, with no kill and no fault, when the lock is removed while another client asks for it). Proved: every lock request, whatever its arguments and whatever the OS answers, gets exactly one reply, unless the lock vanishes between two calls or a time has no RFC 3339 form.")
c("C55","proved",["C55_crashes","C55_no_crash"],"Every input, every response of the OS; builds without overflow checks.")
c("C23","partial",["C23_refuted","C23_reads_partial","C23_below_partial"],"False for the code (refuted: unlock ../../../secret reads a file outside the lfs directory). Proved for every input, every response of the OS and every stopping point: all other names looked at are below the lfs directory, the only exception being the argument of an unlock command; and if those arguments have no slash and are not '..', every name is below it.")
c("C29","partial",["C29_refuted","C29_removes_partial","C29_reply_partial","C29_directory_partial"],"False for the code (refuted: unlock ../locks/<id> removes the lock). Proved for every argument, state, response of the OS and stopping point: at most one call changes anything, it removes the lock of a path just read from the file named by the argument, and the reply is 200 exactly if it succeeded.")
c("C28","partial",["C28_refuted","C28_prefix_partial","C28_complete_partial","C28_alone_partial"],"False for the code (refuted: three overlapping lock requests, no fault, no kill, leave an empty lock file). Proved for all interleavings, faults and kill points: a lock file always contains the beginning of a record with its ID; and a complete record unless two processes use the same temporary file at the same time with one of them having failed to create it (in particular for a single process).")
c("C44","proved",["C44","C44_found","C44_none","C44_fails","C44_norepo","C44_show"],"Every engine (any compile or match behaviour), every history (any errors in it), all options, any point at which standard output or error fails.")
c("C45","proved",["C45","C45_found"],"For every engine that agrees with PCRE on the two fixed prefixes git-at builds (Spec.Faithful, on the modelled fragment).")
c("C46","partial",["GitAtDemo.C46_refuted","C46_partial","summary_matches"],"False for the code (refuted: the pattern nope|This escapes the anchor). Proved for every pattern of the modelled PCRE fragment without a top level alternation; summary_matches says exactly what the built pattern matches for all others.")
c("C47","partial",["RecentDemo.C47_refuted","C47_partial","C47_error","C47_determined","C47_seconds_partial"],"False for the code (refuted: same second, different time zones are ordered by offset). Proved for every set of references otherwise.")
c("C48","proved",["C48","C48_terminates","C48_diverges","C48_cut","C48_ends"],"Fewer than 2^31 entries (the counter is an i32). Also: as long as it can write, the listing never ends exactly when every entry resolves; and lines are not held back, so that the program always ends when its reader goes away, having written the first bytes of the listing.")
c("C49","proved",["C49","C49_output","pager_exists"],"Every environment and configuration.")
c("C50","partial",["C50_refuted","C50_octal_refuted","C50_partial","C50_put","C50_octal_intended"],"False for the code (refuted: libgit2 reads an octal value as a boolean, so 0640 gives 0770; C50_octal_refuted: every octal value). Proved for every other value, every input and every response of the OS; also what the octal branch would do were it reached.")
c("C56","proved",["C56_linearizable","C56_finished","C56_visible"],"Every interleaving with any number of other servers (any input, faults and kills on their side); the process itself may be observed at any moment, whether it finishes, is still running, or is killed later. Lock requests are not covered (see C25-C29).")
c("C57","proved",["C57_linearizable","C57_finished","C57_excuse_needed"],"Every interleaving with any number of other servers; the process itself may be observed at any moment. C57_excuse_needed: two servers that ask for the same lock in alternation get an internal error and a panic, so the exception cannot be dropped. A listing of all locks is described step by step (Listed), see C59.")
c("C58","proved",["C58_flushed","C58_request","C58_session","C58_waiting"],"For every sequence of requests, sensible or not (Spec.Extent, see C38). Every answer of the OS except failing output and failing writes of uploads (after those the code itself goes on differently, see C52, C54). C58_session also gives: if the client sends nothing more, the server ends right there.")
c("C59","proved",["C59_listing","C59_sound","C59_complete","C59_pages","C59_alone","C59_phantom","C59_twice"],"C59_listing: what a server prints for a listing among other servers, in terms of what it read (Listed). The other theorems interpret Listed. C59_phantom and C59_twice are concrete schedules that show why temporary files are an exception: they are listed like locks.")
c("C60","partial",["C60_batch_refuted","C60_listing_refuted","C60_request_partial","C60_session_partial"],"False for the code in two places: a batch takes any failure to look at an object for its absence (C60_batch_refuted), and a listing of all locks leaves out locks whose files cannot be read (C60_listing_refuted). Proved for every other request, and for these two when no such call fails other than with 'not found'. Sessions: up to an upload that could not be written (C52).")
c("C61","proved",["C61_refused","C61_reply","C61_looked_up","C61_listed","C61_lossy","C61_time"],"UTF-8 is specified by Lean's own encoding of characters (Spec/Utf8.lean).")
c("C62","proved",["C62_untouched","C62_view","C62_integrity","C62_exclusion","C62_execution","C62_answers"],"C62_view and C62_execution are the general statements; the others are instances. About changes, not about reading: that a server may look at files outside its repository is C23.")
c("C63","proved",["C63_startup","C63_stops_once","C63_begins_once"],"Which umask a value leads to, as far as it depends on how libgit2 reads booleans, is C50.")
c("C64","partial",["C64_refuted","C64_order_partial","C64_complete_partial","C64_all_read_partial","C64_killed_partial"],"Refuted for the code in its last part: nothing waits for the pager, so the program may exit (and the shell go on) while the pager has not read anything yet. The other parts are proved.")
c("C65","proved",["C65_session","C65_request"],"Reading a file to its end is one operation (readAll), as is one write_all; the number of read(2) and write(2) calls behind these depends on sizes of files and is not bounded here.")
c("C66","proved",["C66_session","C66_request"],"The hypotheses on clock readings say that they fit into 64 bits, as they do in the code (i64).")
c("C67","proved",["C67_table","C67_reply","C67_untouched"],"The requests themselves (Opens) are the subject of the other properties.")
c("C68","partial",["C68_kept_partial","C68_prefix_partial","C68_noticed_partial","C68_repair_partial","C68_unnoticed","C68_lost","C68_damaged","C68_lock_lost","rep_powerLoss","C68_outage_kept_partial","C68_outage_prefix_partial","C68_outage_there_partial","C68_outage_noticed_partial","C68_vanished"],"False for the code, which never calls fsync: C68_lost (an upload answered with 200 is an empty file after a power failure), C68_damaged (a synced object is damaged by its second upload), C68_lock_lost (a lock reported under another path and ID). Proved: objects not renamed to since the last sync are intact, all others are prefixes; verify-object notices, a new upload repairs, batch does not notice. The same when names are lost as well, each found as it was at any moment since the last sync (C68_outage_*); then an upload answered with 200 may have vanished (C68_vanished). Missing: objects uploaded since the last sync.")
c("C69","proved",["C69_boundary","C69_command","C69_oversized","C69_inside"],"C69_oversized is proved for a first data packet that is too large, when the temporary file can be created.")
c("C70","proved",["C70_listing","C70_unique","C70_no_shell","C70_outside"],"Every option, environment and repository. What clap does with other values of --sort is not modelled.")
c("C71","partial",["C71_reply","C71_prefix","C71_stream","C71_answer_partial","C71_listing_partial","C71_refuted"],"Replies, streams of replies: proved without restriction. Answers and listings: proved for lines of at most 65516 bytes, that is lock paths of at most 65445 bytes. False beyond (C71_refuted): a client locks one path of 65515 bytes and every listing has two packets that announce a lock, the second with an ID of its choosing.")
c("C72","partial",["C72_session_partial","C72_same_partial","C72_total","C72_one_session","C72_one_meaning","C72_one_denial","C72_not_both","C72_reply","C72_untouched","C72_sensible","C72_sessions","C72_refuted"],"Proved for every request except `unlock` with an argument that is no lock ID (OddUnlock). False for that (C72_refuted): `unlock ../../../secret` is answered differently in two repositories with the same objects and locks, since the server opens a file outside of the lfs directory. C72_reply and C72_untouched hold whatever the file system does; the others are for runs without faults.")
c("C73","partial",["C73_stopped","C73_read","C73_again_partial","C73_refuted"],"C73_stopped and C73_read: every session and every moment. C73_again_partial: whenever no temporary file of a `lock` of the session is left (always so in sessions without `lock`, for which the final store is also exactly the same, including the times of locks). False otherwise (C73_refuted): a `lock` killed between creating and removing `<id>.lock` makes the next server crash at the same request. One server at a time, which is killed but not its machine (see C68 for that), and no call fails; an unlock with an argument that is no ID is excluded as in C72.")
c("C74","proved",["C74_anywhere","C74_cut","C74_again","C74_total","C74_one_meaning","C74_session","C74_stopped"],"C74_cut also allows nonsensical requests before the incomplete one, and says that an incomplete upload is not done. C74_total and C74_session: any packets and part of another. C74_denied_may_count shows why the incomplete request must be a sensible one: the beginning of a denied `lock` can be a `lock` that is done.")
c("C75","proved",["C75_total","C75_unique","C75_same","C75_extends","C75_session","C75_stopped","C75_download"],"C75_total, C75_unique: every byte string has one meaning. C75_same: so the answers depend on the bytes and the store alone. C75_session, C75_stopped: the server acts on it. C75_extends: strings in the format have the meaning of C72 and C74. C75_download: no exception there, and the store is kept.")
c("C76","proved",["C76_session","C76_sense","C76_meant","C76_crash"],"C76_session: any bytes and any OS. C76_sense: all bytes have a sense, and one only, and it extends the meaning of C75 to odd unlocks. C76_meant: if all uploads can be written, the replies are to just the requests in this sense. C76_crash: the reasons for a panic, from C55. The exception for batches and listings is that of C60 (HonestReply).")
c("C77","proved",["C77_session","C77_stopped","C77_effects","C77_objects"],"C77_session: any bytes, no faults. C77_stopped: killed at any moment. C77_effects: what the requests done can have changed. C77_objects: the same about object files, at any moment. Examples show that an uploaded file can be used as the record of a lock, to release it with a false reply or to make the server panic.")
c("C78","proved",["C78_any_bytes","C78_finished"],"C78_any_bytes: at every moment of every execution. C78_finished: when the server has ended. For a build without overflow checks, as C75 to C77. An example: one server takes a lock, another is sent nonsense, `unlock ./ID` (which releases it) and then bytes that are no header.")
c("C79","proved",["C79_calls","C79_so_far","C79_same","C79_run","C79_killed","C79_stopped","C79_session"],"C79_calls, C79_so_far: the calls of a finished and of an unfinished process, for any answers of the OS. C79_same: the programs are equal if nothing overflows. C79_run, C79_killed: running alone, in any environment. C79_stopped, C79_session: C77 for either build. An example: an upload ended by `fg00`, which is stored by one build and given up by the other.")
c("C80","proved",["C80_pieces","C80_execution","C80_whole","C80_object"],"C80_pieces: finite runs. C80_execution: executions without end, each moment of which becomes three. C80_whole: a file of the repository that is read to its end. C80_object: objects do not change once opened. Examples: a file of others that changes while it is read; a file of the repository that grows while it is read.")
c("C81","proved",["C81_atomic","C81_integrity","C81_kept","C81_records","C81_complete","C81_exclusion"],"As C24, C12, C22 with C14, C28 (two parts) and C25, but with any answers to calls that change nothing. In the example a server that sees no file stores an object and denies it.")
c("C82","proved",["C82_known","C82_pull","C82_push"],"What a reply says about an object holds for all servers at all later moments; a push of batch and uploads therefore leaves all objects stored.")
c("C83","proved",["C83_calls","C83_run","C83_end"],"C83_calls: the same calls, for any answers of the OS. C83_run: the same files and output. C83_end: the exit code and the part of the message that arrives.")
c("C84","proved",["C84_shown","C84_pages","C84_held","C84_execution"],"C84_shown: one listing. C84_pages: all pages. C84_held: in an execution in which listings of directories take time, a process without I/O errors is answered steadily about a lock that is held. C84_execution: so the pages show it. Excepted are misnamed lock files. Example: a listing with a name too many, while another lock cannot be read.")
c("C85","partial",["C85_lost","C85_wrong_lock","C85_vanished","C85_back","C85_exclusion_partial","C85_prefix_partial","C85_kept_partial","C85_damaged_partial"],"False for the code, which syncs nothing: a lock that was granted is invisible and stuck after a power failure (C85_lost), its release releases another lock (C85_wrong_lock), it is granted again (C85_vanished), or a released lock is back (C85_back). Proved: mutual exclusion over any number of power failures that lose no names; lock files are beginnings of records with their ID; a lock that was on disk and was not removed since is unharmed; about a lock whose file is no record the only replies are 400 and 500.")
c("C86","proved",["C86_left","C86_count"],"C86_left: every temporary file is accounted for. C86_count: so there are at most as many as servers that are running or were killed.")
c("C87","proved",["C87_crash","C87_held","C87_twice","C87_killed","C87_lock"],"C87_crash and C87_held: what a server does while the file is there, for every session that begins with this lock request. C87_twice: so the second server, or the third, serves the whole session. C87_killed: what any number of killed servers leave. C87_lock: all together. This bounds the damage of C27_refuted and C73_refuted.")
c("C88","partial",["C88_refuted","C88_endless_refuted","C88_exact_partial","C88_store","C88_left","C88_killed","C88_endless"],"False for the code: the file of a killed `lock` is shown as a lock that nobody holds and nobody can release (C88_refuted); if the lock was taken, it is shown twice, and a client that asks for one lock per page gets the same page for ever (C88_endless_refuted, C88_endless). Proved: a listing shows exactly the records in the files, whatever these are (C88_exact_partial); these are the locks of the store (C88_store), and after a kill at any moment of any session at most one more, that of a `lock` that was under way (C88_left, C88_killed).")
c("C89","proved",["C89_aside","C89_killed"],"C89_aside: sessions over a store with such a file. C89_killed: together with C73, for a session killed at any moment. The two kinds of request left out are those of C87 and C88, where the file does make a difference.")
c("C90","proved",["C90_kills","C90_next","C90_files","C90_retry"],"C90_kills: what any number of killed servers have done. C90_next: the server after them. C90_files: what the files themselves say. C90_retry: a lock that a killed server was to take has to be asked for at most twice. The other requests left out are those of C87 and C88, where a file that stays does make a difference.")
