#!/usr/bin/env python3
"""Generates MANIFEST.json; keep in step with the Lean sources (tools/check.sh verifies the names)."""
import json
C = []
def c(prop, status, theorems, note):
    C.append({"property": prop, "status": status, "theorems": ["Puck." + t for t in theorems], "note": note})

c("C01", "proved", ["C01_send_decoded"], "all messages with payload < 2^64 bytes, all suffixes, all sinks")
c("C02", "proved", ["C02_prefix_under_failure", "C02_history_decoded"], "all histories and all crash points (byte budgets)")
c("C03", "partial", ["C03_minimal_partial", "C03_minimal_refuted"], "false at length 65535 (refuted); proved for every other length")
c("C04", "proved", ["C04_client_frame_decoded"], "hypothesis: payload fits the target's isize::MAX")
c("C05", "partial", ["C05_segmentation_refuted", "C05_segmentation_partial", "C05_same_bytes_partial"], "false as stated (refuted); the exact set of harmful read boundaries is proved")
c("C06", "partial", ["C06_sound_64", "C06_sound_partial", "C06_exact_partial", "C06_sound_refuted"], "proved for usize >= 64 bits; on any target a delivered frame is backed by the bytes if and only if the announced length is < 2^W; false on 32-bit targets for larger announced lengths (refuted)")
c("C07", "proved", ["C07_unmasked_refused"], "MaskNotSet, or InsufficientData if the two header bytes are split")
c("C08", "partial", ["C08_truncated_partial", "C08_truncated_error_partial", "C08_exact_partial", "C08_truncated_refuted"], "proved for announced lengths <= isize::MAX, and the exact result for every announced length; false on 32-bit targets for announced lengths >= 2^32 (refuted)")
c("C09", "partial", ["C09_no_panic_refuted", "C09_panic_iff_partial"], "false (refuted); exact panic condition proved for all streams; allocation failure not modelled, and the growth of the payload vector is exact in the model (std doubles it, which matters below 64 bits only)")
c("C10", "partial", ["C10_back_to_back_refuted", "C10_aligned_partial", "C10_exact_partial", "C10_in_place_partial"], "false (refuted for every pair of frames arriving in one read); proved when reads are aligned with frames, and for reads of at most 8 KiB this is the exact condition: of all frames being delivered where the payloads are not empty (C10_exact_partial), of being read frame by frame in place in general (C10_in_place_partial; the mask key of an empty frame left behind can by chance look like the next empty frame)")
c("C11", "partial", ["C11_empty_masked_refuted", "C11_empty_leaves_key_partial", "C11_single_read_partial", "C11_exact_partial"], "false (refuted); exact leftovers proved, and that the frame is consumed completely if and only if it comes in a read of its own (reads of at most 8 KiB)")
c("C12", "proved", ["C12_first_byte", "C12_every_opcode_accepted", "C12_opcode_table", "C12_format"], "")
c("C13", "proved", ["C13_reassembled"], "every message kind and fragment list; frames arriving in reads of their own (see C10 for why that is needed)")
c("C14", "partial", ["C14_interleaved_refuted", "C14_between_partial"], "false between fragments in every case (refuted); proved for control frames between messages")
c("C15", "proved", ["C15_message_sound", "C15_text_exact"], "every stream, segmentation and error schedule")
c("C16", "proved", ["C16_close_anywhere"], "")
c("C17", "proved", ["C17_client_message"], "up to Some(empty) = None for ping and pong")
c("C18", "proved", ["C18_ping_ponged"], "")
c("C19", "proved", ["C19_stays_closed"], "")
c("C20", "proved", ["C20_one_close", "C20_any", "C20_make_copy_refuted"], "C20_any: every history on one socket value, with failing writes and panics; a copy made with make_copy is another value with its own state, and the two together may send two (C20_make_copy_refuted)")
c("C21", "partial", ["C21_eof_refuted", "C21_closed_means_close_frame_partial", "C21_exact_partial", "C21_case"], "false (refuted): ClientError forever; proved exactly: on every stream, after finitely many calls, either a call has crashed, or a close frame has come and ConnectionClosed is reported for ever, or ClientError is returned for ever")
c("C22", "proved", ["C22_history", "C22_silent", "C22_any"], "C22_any: with failing writes and panics; fewer than 2^64 bytes of input and payload")
c("C23", "partial", ["C23_send_after_close_refuted", "C23_after_close_only_sends_partial","C23_after_close_exact_partial"], "false (refuted); exactly: after ConnectionClosed the socket writes what a history of the same sends writes without it, on working and on breaking connections")

c("C24", "partial", ["C24_decision_partial", "C24_name_case_refuted"], "exact test proved for headers named Upgrade and Connection; false for any other spelling of the names (refuted)")
c("C25", "proved", ["C25_switching", "C25_client_view"], "sha1 is a parameter")
c("C26", "proved", ["C26_base64", "C26_rfc_example"], "the RFC example is evaluated by the kernel with a SHA-1 written from RFC 3174")
c("C27", "proved", ["C27_upgrade", "C27_broken"], "on a connection that breaks during the answer it crashes after the beginning of that answer (C27_broken)")
c("C28", "proved", ["C28_bounded"], "all readers, lengths and read sequences")
c("C29", "proved", ["C29_into_bytes", "C29_into_string"], "all readers and standard-library buffer schedules; into_string for declared lengths up to isize::MAX (above: C111)")
c("C30", "proved", ["C30_string_body"], "")
c("C31", "proved", ["C31_head_and_body"], "")
c("C32", "proved", ["C32_incomplete_head"], "")
c("C33", "proved", ["C33_decision"], "httparse and url are parameters: the table is proved for every behaviour of both")
c("C34", "proved", ["C34_last_wins"], "")
c("C35", "partial", ["C35_order_independent_partial", "C35_order_refuted", "C35_exact_partial"], "false with Host and host both present (refuted); proved when no two spellings of Host or Content-Length are present; and exactly: independent of the order iff all spellings of Host give the same URL and all spellings of Content-Length the same length")
c("C36", "partial", ["C36_method_roundtrip_partial", "C36_head_refuted"], "false for HEAD (refuted); the exact set of methods that round-trip is proved")
c("C37", "proved", ["C37_request_roundtrip", "hpReq_contract"], "under a contract on httparse and url; an executable parser meeting it is exhibited")
c("C38", "partial", ["C38_query_dropped_refuted", "C38_no_query_partial"], "false for every URL with a query (refuted); proved for URLs without one")
c("C39", "proved", ["C39_deterministic"], "every valid iteration order of the header map")
c("C40", "proved", ["C40_client_reads_back"], "for well-formed header names and values (see C41)")
c("C41", "partial", ["C41_injection_refuted", "C41_one_line_each_partial", "C41_exact_partial"], "false (refuted); the exact number of line ends in the head is proved: each header is on one line iff the reason and the names and values contain no line end (CR LF)")
c("C42", "partial", ["C42_content_length_refuted", "C42_prefix_partial", "C42_exact_partial"], "false (refuted); exact: the body is what follows the head, cut off after n bytes if the Content-Type is the number n")
c("C43", "proved", ["C43_response_roundtrip", "hpRes_contract"], "under a contract on httparse; an executable parser meeting it is exhibited")
c("C44", "proved", ["C44_response_builder", "C44_request_builder"], "")
c("C45", "proved", ["C45_take_body"], "")
c("C46", "proved", ["C46_mime_params", "C46_constants"], "")
c("C47", "proved", ["C47_canned_errors"], "")
c("C48", "proved", ["C48_matches", "C48_edge_cases"], "")
c("C49", "proved", ["C49_int_segment"], "")
c("C50", "proved", ["C50_first_match"], "")
c("C51", "proved", ["C51_ints_roundtrip"], "given that a function pointer survives the cast to an integer and back")
c("C52", "partial", ["C52_answered_partial", "C52_unanswered_refuted", "C52_history_partial"], "false (refuted): the exact set of unanswered requests is proved")
c("C53", "proved", ["C53_isolated"], "processes share no memory (Lunatic) is a modelling assumption")
c("C54", "proved", ["C54_ids"], "overflow of usize not modelled")
c("C55", "partial", ["C55_preserved_partial", "C55_tag_lost_refuted"], "false for select and noscript, whose tag becomes div, and for nodes that drop listeners or children (refuted); everything else is proved kept")
c("C56", "proved", ["C56_unchanged"], "distinct sibling keys and distinct attribute names")
c("C57", "partial", ["C57_apply_partial", "C57_aligned_partial", "C57_shrinking_partial", "C57_views_partial", "C57_exact_partial", "C57_views_exact_partial", "C57_apply_refuted"], "false in general (refuted on views of a component); the pairs of views between which it holds are characterised exactly (if and only if), and same-shape renders and shrinking renders are shown to be among them")
c("C58", "partial", ["C58_reorder_refuted", "C58_insert_refuted", "C58_removal_partial", "C58_exact_partial"], "false for every reordering and every insertion (refuted); proved for removals, and that of all changes of the list of keyed children it is exactly the removals")
c("C59", "partial", ["C59_crash_refuted", "C59_unkeyed_partial"], "false with keys (refuted, with the exact condition under which diffing crashes); proved without keys")
c("C60", "proved", ["C60_attributes"], "")
c("C61", "partial", ["C61_wire_partial", "C61_plus_refuted", "C61_ignored_refuted", "C61_distinct_partial", "C61_confused_refuted"], "false for names and values with + (refuted; two instructions can even look alike); the exact condition is proved, and that instructions whose first part has no + are never confused")
c("C62", "partial", ["C62_first_paint_partial", "C62_no_exception_partial", "C62_id_refuted", "C62_exact_partial"], "false with an id attribute (refuted) or + in a value; proved for trees whose names and values survive the trip, and on pages without ids that is exact: no other view without an attribute id is shown, and of the others the same conditions are necessary")
c("C63", "partial", ["C63_update_partial", "C63_views_partial", "C63_exact_partial", "C63_followable_partial", "C63_views_exact_partial", "C63_update_refuted"], "false (refuted four ways); proved under a condition on the two trees, which same-shape renders with gentle differences meet; for unkeyed views of any structure (in a browser whose innerHTML copies children faithfully wherever a tag changes), the exact condition under which the browser processes the whole changeset without an exception and then shows the new view")
c("C64", "proved", ["C64_in_step"], "")
c("C65", "proved", ["C65_events", "C65_ignored"], "JSON parsing of browser messages is a parameter")
c("C66", "proved", ["C66_trace", "C66_unkeyed"], "up to a panic in diff, which C66_unkeyed excludes for components without keys")
c("C67", "proved", ["C67_closed"], "")
c("C68", "proved", ["C68_processes"], "")
c("C69", "partial", ["C69_reader_refuted", "C69_only_closed_partial"], "false (refuted): the reader loops forever; proved: it sends no client message any more")
c("C70", "partial", ["C70_distinct_partial", "C70_escape_refuted"], "false: nothing is escaped (refuted for every tree with children and every pair of attributes); proved for trees without special characters")
c("C71", "proved", ["Chat.C71_ids"], "overflow of u64 not modelled")
c("C72", "proved", ["Chat.C72_broadcast"], "")
c("C73", "proved", ["Chat.C73_no_panic"], "every schedule; a failed write in the middle of a session has no effect on the component (the code ignores it), only the first one is unwrapped")
c("C74", "proved", ["C74_all_items"], "")
c("C75", "partial", ["C75_lastN_partial", "C75_lastN_refuted"], "false when fewer than n items exist (refuted); exact behaviour proved")
c("C76", "partial", ["C76_read_partial", "C76_negative_refuted"], "false for negative numbers (refuted); proved otherwise")
c("C77", "proved", ["C77_content_length"], "")
c("C78", "partial", ["C78_pipelined_refuted", "C78_nothing_follows_partial", "C78_exact_partial"], "false (refuted for every continuation and segmentation); proved when nothing follows the head, and that this is exact")
c("C79", "partial", ["C79_framing_refuted", "C79_declared_partial", "C79_exact_partial"], "false (refuted); proved for responses to which the application itself gives the right Content-Length, and that these (and bodiless ones with a status that says so) are exactly those whose end a client following RFC 9112 finds")
c("C80", "partial", ["C80_version_ignored_refuted", "C80_headers_partial", "C80_exact_partial"], "false (refuted); proved: the three headers are required, and on a working connection they are enough")
c("C81", "partial", ["C81_leak_refuted", "C81_close_frame_partial", "C81_exact_partial", "C81_case"], "false (refuted): the component is never dropped; proved for connections closed with a close frame; and exactly, for fair executions, whatever the client sends: dropped if a close frame comes and never otherwise")
c("C82", "partial", ["C82_sequential_partial", "C82_whole_frames_partial", "C82_interleaved_refuted"], "false (refuted); proved when the sends do not overlap")
c("C83", "proved", ["C83_event_delivered"], "")
c("C84", "partial", ["C84_sync_partial", "C84_reachable_partial", "C84_fixed_layout", "C84_free_layout", "C84_sync_refuted", "C84_insertion_refuted"], "false (refuted: one update that takes a text away; a list with something after it, to which two entries are added); proved for components which are browser-friendly in the states they can reach, and the exact condition on all reachable updates is proved for components with a fixed layout, and, with messages processed without exceptions, for components whose structure and tags may change")
c("C85", "partial", ["Chat.C85_shown_partial", "Chat.C85_exact_partial", "Chat.C85_plus_refuted"], "false once a user types a + (refuted); proved exactly: in every reachable state the page shows the current view with the field cut at its first +, hence the current view iff the field has no +")
c("C86", "proved", ["C86_read_submitted"], "")
c("C87", "partial", ["C87_submit_partial", "C87_submit_refuted"], "false for unreadable or non-UTF-8 bodies (refuted) and for declared lengths above isize::MAX (C111); exact behaviour proved")
c("C88", "partial", ["C88_typed_partial", "C88_typed_refuted"], "false for texts which form encoding changes (refuted); exact condition proved")
c("C89", "partial", ["Chat.C89_order_partial", "Chat.C89_order_refuted", "Chat.C89_exact_partial", "Chat.C89_agree_partial"], "false (refuted); proved: own messages in order, the others' in the coordinator's order, none lost or duplicated; exactly: a page is the coordinator's order with own messages moved forward, and that order itself iff the user never sent while something was on its way to it; two users agree on the messages both got iff both see them in the coordinator's order (messages distinct)")
c("C90", "proved", ["Chat.C90_leave"], "")
c("C91", "partial", ["C91_read_back_partial", "C91_attributes_refuted", "C91_exact_partial"], "false for every element with an attribute (refuted); tags, nesting, text and attribute values proved for trees without special characters; of those, exactly the trees without attributes are read back")
c("C92", "proved", ["Json.C92_changeset_json", "Json.C92_injective"], "the JSON grammar is an independent specification (Spec/Json.lean); the reader is proved to implement it (parse_iff); serde_json's writer is modelled from its documented output")
c("C93", "proved", ["Json.C93_event_json"], "strings in the browser are taken to be Unicode strings (no lone surrogates)")
c("C94", "proved", ["Json.C94_accepted", "Json.parse_iff"], "")
c("C95","partial",["Json.C95_exact_partial","Json.C95_bytes_to_page_partial","Json.C95_in_step_partial","Json.C95_bytes_to_page_refuted","Json.C95_event_to_update"],"browser to server proved; server to browser false where the instructions themselves are wrong (C84; refuted on bytes: a label that is switched off). Proved for every component that the browser runs exactly the instructions sent (C95_exact_partial), hence shows the current render for every component whose messages keep the page in step (C84; browser-friendly ones among them), with all writes succeeding; C106 adds the pongs of the reader process in between, failures and every moment before the end")
c("C96", "proved", ["C96_page_and_script", "C96_broken_connection"], "the script is any string (its behaviour is Model/Client.lean)")
c("C97", "partial", ["C97_mount_refuted", "C97_directory_partial", "C97_exact_partial", "C97_names_partial"], "false for every mount pattern as documented (refuted); proved for pages whose URL ends in a slash, with script and socket in the same directory; and exactly, for all patterns, where the browser looks for script and socket")
c("C98", "proved", ["C98_chat_loads", "C98_broken"], "requests as parsed (C31-C34); the spawned processes are C68, C71-C73")
c("C99", "proved", ["C99_eventually_received", "fair_exists"], "weak fairness of each process; fair executions exist for every component (fair_exists)")
c("C100", "proved", ["C100_client_messages", "C100_dropped"], "messages as in C14_between_partial (control frames not inside a fragmented message), reads aligned with frames (C05, C10); C100_client_messages allows for a crashed loop (C59), C100_dropped covers views without keys")

c("C101", "partial", ["Json.C101_read_back_partial", "Json.C101_read_back_refuted", "Json.C101_members", "Json.C101_unit_instructions", "Json.C101_positional", "Json.C101_without_analogue"], "false for every first paint and for removed attributes (refuted); the exact set of changesets that can be read back is proved, and they are read back unchanged")
c("C102", "proved", ["C102_build"], "the generated builder is modelled from derive_builder's documentation")

c("C103", "proved", ["C103_in_step_iff", "C103_trees"], "tags equal (the content of a retagged element depends on the browser's HTML parser, C63), unkeyed renders numbered from the same start as the component loop does")

c("C104", "proved", ["Chat.C104_atomic", "Chat.C104_no_deadlock", "Chat.C104_no_panic", "Chat.C104_order", "Chat.C104_shown", "Chat.C104_case"], "lunatic's request is a message with a reply that can be received out of order (tag); C104_order and C104_shown carry C89 and C85 over to the model with messages")

c("C105", "proved", ["Chat.C105_delivered", "Chat.C105_answered", "Chat.C105_taken", "Chat.C105_accepted", "Chat.C105_registered", "Chat.C105_on_page", "Chat.C105_fair_exists", "Chat.C105_case"], "weak fairness of the coordinator and of each connection's managing and component processes; fair executions exist through every reachable state (C105_fair_exists); delivery of bytes into the mailbox is C100")

c("C106", "proved", ["Json.C106_any_moment", "Json.C106_failure", "Json.C106_components", "Json.C106_processes", "Chat.C106_chat"], "for every component whose messages keep the page in step (C84), which C106_components says for three classes of components; whole frames in any order (C82: frames may mix otherwise); chat users who type no plus sign (C85)")

c("C107", "partial", ["C107_waiting_partial", "C107_exact", "C107_pipelined_refuted"], "false when bytes come in the same read as the end of the head: the BufReader of Request::parse keeps them; exactly those are lost (C107_exact)")

c("C108", "proved", ["C108_session", "Json.C108_page"], "assumes the contract of httparse (C37), a read ending where the head ends (C107), frames in their own reads (C14), and the reader process not dying")

c("C109", "proved", ["C109_exchange", "C109_puck_client"], "assumes the contracts of httparse (met by hpReq, hpRes); handlers that answer with respond(..).unwrap(); a connection that takes the bytes")

c("C110", "proved", ["C110_read_over_bytes"], "connections in the order in which their processes reach the list process; the HTML text of the pages is not modelled")

c("C111", "partial", ["C111_text_partial", "C111_text_refuted"], "false: String::with_capacity of the declared length panics above isize::MAX (on wasm32 a Content-Length of 2147483648), exactly then; allocation failure below that is not modelled")

c("C112", "partial", ["C112_readers_partial", "C112_readers_refuted"], "false for readers whose clone copies the position: each frame is parsed from the beginning again; exact behaviour on bytes that begin with a valid client frame")

c("C113", "partial", ["C113_stale_partial", "C113_stale_iff", "C113_stale_refuted"], "false: a listener name is looked up in the listeners of the current render; exact condition on the component's views where no event runs two listeners; for every component whose updates take the browser from one view to the next (InStepFrom: browser-friendly ones, and fixed or free layouts whose reachable updates can be followed, C84), queues of whole messages")

c("C114", "partial", ["C114_lost_partial", "C114_lost_iff", "C114_lost_refuted"], "false: an event whose listener is gone from the current render is ignored; exact condition as for C113")

c("C115", "partial", ["C115_bubbling_partial", "C115_exact_partial", "C115_bubbling_refuted"], "false where handling one of the listeners changes what the next one asks for; proved otherwise, and that this is exact (for components whose updates the browser can follow)")

c("C116", "partial", ["C116_fields_partial", "C116_fields_refuted"], "false: a field shows what the user typed last and the attribute value only before that, whatever the component renders (exact, for components with a fixed layout whose updates the browser can follow)")

c("C117", "proved", ["C117_builder", "C117_fails"], "tags and listeners as C55 says (select and noscript appear as div, br and noscript lose listeners)")

c("C118", "proved", ["C118_contents", "C118_create", "C118_insert", "C118_setId", "C118_delete", "C118_refused"], "an element inserted next to another gets the other's id, as the instruction carries only one id")

c("C119", "partial", ["C119_send_exact_partial", "C119_send_refuted", "C119_history_partial"], "false for ping and pong payloads above 125 bytes (sent by the application, or echoed from an illegally long ping) and for payloads of exactly 65535 bytes (eight-byte length); exact condition on each message, and every other history is accepted")

c("C120", "partial", ["C120_verdicts_partial", "C120_accepted_refuted", "C120_reports", "C120_exact_partial", "receives_unique", "receives_total", "reports_unique", "reports_total"], "false: reserved bits, non-minimal lengths, long and fragmented control frames are accepted (every such frame), and pings between fragments are refused (C14). Proved for frames whose only violations are of order, opcode or text; reads aligned with frames (C05, C10). The reference receiver is total and deterministic. For any frames the reports are those of a lenient receiver (Spec/Lenient, C120_reports), and they are RFC 6455's iff the two receivers agree (C120_exact_partial)")

c("C121", "partial", ["C121_length_partial", "C121_chunked_refuted", "C121_no_length_refuted", "C121_conflict_refuted", "C121_exact_partial"], "proved for requests with a Content-Length in one spelling, and exactly, without Transfer-Encoding: iff there is a Content-Length or nothing follows the head; false with Transfer-Encoding chunked (the coding is read as the body), with neither header (the body lasts to the end of the connection) and with Content-Lengths that disagree (the last counts); contract of httparse as in C37")

c("C122", "proved", ["C122_views", "C122_any", "C122_exact", "C122_size_partial", "C122_first_paint", "C122_size_refuted"], "exact contents for all views (C122_views) and for any two trees, with and without keys (C122_any); the instructions for a tag and for new listeners name the new id, as in the code (see C57). The bound on the length holds for views, and for hand-made trees with distinct keys among siblings; with repeated keys no multiple of the sizes bounds it")

c("C123", "proved", ["Chat.C123_what_was_shown", "Chat.C123_witness"], "by an invariant over the page with the typed texts, the queues in both directions and the component; C123_witness runs it for any text")
c("C124", "partial", ["C124_exact_partial", "C124_refuted"], "false: only a new first child is inserted where it belongs; every other one before the child it follows, or after itself (exact, for all pairs of trees). The browser ignores these instructions in any case (C61), and applying them panics (C58)")

c("C125", "partial", ["C125_exact_partial", "C125_form_refuted", "C125_lost_refuted", "C125_chat"], "false: the script never prevents the browser's default action, so a button or field in a form, or a link, takes the user to a new page and a new component (refuted; C125_lost_refuted for every component with such a view); exact condition on the component's views; the chat's views keep it in every state. Validation of fields and the attribute form are not modelled")

c("C126", "proved", ["C126_outcome", "C126_witness"], "for headers with distinct names (as the header map has) and bodies as the constructors make them")

c("C127", "proved", ["C127_request", "C127_response"], "")
c("C128", "proved", ["C128_outcome", "C128_witness"], "for bodies as the constructors make them")

c("C129", "proved", ["C129_head", "C129_body", "C129_request"], "heads: exactly when a blank line or an I/O error has arrived")
c("C130", "partial", ["C130_exact_partial", "C130_get_refuted", "C130_response_refuted"], "false: without a Content-Length (a plain GET) reading the body waits for the end of the connection, and for responses the length is taken from Content-Type; exact condition for requests with at most one spelling of Content-Length")

c("C131", "proved", ["C131_linearizable"], "usize of 31 bits or more")
c("C132", "proved", ["C132_clients_agree"], "the HTML text of the pages (crate malvolio) is a parameter; connections that do not break")
c("C133", "proved", ["C133_every_client_served"], "each client has sent its request or closed (a process blocked on its socket is one not yet scheduled); weak fairness of every process")

c("C134", "partial", ["C134_first_only_partial", "C134_persistent_refuted"], "false: at most the first request on a connection is answered; exactly what is sent")
c("C135", "partial", ["C135_exact_partial", "C135_head_refuted"], "false: HEAD is answered as GET is, with the body; the body sent is exactly the handler's")
c("C136", "partial", ["C136_exact_partial", "C136_repeated_refuted"], "false for repeated names: exactly the last value of each name is sent")
c("C137", "partial", ["C137_read_ahead_partial", "C137_unbounded_refuted"], "false for heads and messages; what is read ahead of a request's head is bounded")

c("C138", "proved", ["Chat.C138_faithful"], "at every moment at which the component is between two messages; a case is C140_case")
c("C139", "proved", ["Chat.C139_log"], "a case is C140_case")
c("C140", "proved", ["Chat.C140_heeded", "Chat.C140_delivered", "Chat.C140_on_page", "Chat.C140_case"], "weak fairness as in C105; on the page: if the recipient's browser never sends a + (C85)")

c("C141", "proved", ["C141_incomplete_head"], "")
c("C142", "partial", ["C142_broken_partial", "C142_again_refuted"], "false: true if the connection breaks within the head; within the body at least one byte (at most 8192) that was not sent is lost, always; for bodies that can be read to their end")

c("C143","proved",["C143_structure","Chat.C143_chat","Chat.C143_case"],"For views whose names contain no `+` and no capital letters. The contract on `innerHTML` (Browser.Keeps) is met by browsers when no tag's contents are left unescaped; values such as script URLs are covered to the extent the vocabulary restricts values.")
c("C144","proved",["Chat.C144_drafts_private","Chat.chatStep_iff","Chat.C144_case"],"Two-run noninterference: the relation SameBut (equal everywhere but in the text of one field) is kept by every step, as long as what is published agrees. About contents, not timing: the same things happen in the same order in both courses.")
c("C145","partial",["C145_settled_partial","C145_history_partial","C145_not_early_partial","C145_settled_refuted"],"false on 32-bit targets, where an announced length is truncated to usize; proved for a usize of at least 64 bits, for all streams")
c("C146","proved",["Chat.C146_bytes_to_bytes","Chat.C146_case"],"weak fairness as in C105; each frame in its own reads (C12, C107 say why); the reader process passes on what the iterator gives it; the recipient's browser never sends a + (C85)")
c("C147","partial",["C147_no_more_partial","C147_factor","C147_no_more_refuted"],"false for pings of exactly 65535 bytes, which are answered with two bytes more than they took (the boundary of C03); proved for all histories without such a ping; with any histories the excess is at most 1/32768")
c("C148","partial",["C148_same_page_partial","C148_same_page_refuted","Chat.C148_chat"],"false when a text is taken away, which no client branch does (refuted); proved for any two browser-friendly components and any two histories, and for any two users of the chat in any two runs of it (fields cut at the first +, as in C85)")
c("C149","proved",["C149_any_order","C149_overlap","C149_patterns_any_order","C149_order"],"URLs with any path (a fixed text that no parsed URL contains, like one with a space, counts as matchable)")
c("C150","proved",["C150_dead_route","C150_covered"],"URLs with any path, as for C149")
c("C151","proved",["Chat.C151_grows","Chat.C151_page"],"on the page the text in the message field is cut at its first + (C85)")
c("C152","partial",["C152_ids_partial","Chat.C152_chat","C152_ids_refuted"],"false of the code in general: when one part of a view shrinks while another grows, a delete can hit a new element and a rename another one, after which two elements have the same id (C152_ids_refuted, plain views of divs); proved for browser-friendly components (as C84) and for the chat in all reachable states")
c("C153","partial",["Chat.C153_author_partial","Chat.C153_authors","Chat.C153_author_refuted"],"false of the code: the id of a user who has left is given to the next one, who may choose the same name (C153_author_refuted); proved: one user's messages bear one name and id, and two users' messages different ids unless one of the two has gone")
c("C154","partial",["C154_split_refuted","C154_exact_partial"],"false of the code: a header's value can hold a whole second request (C154_split_refuted, for any two requests); exactly: one line end per header and two more, plus those inside the method, the path, the names and the values (C154_exact_partial)")
c("C155","proved",["Chat.C155_newcomer","Chat.C155_page"],"that everything accepted afterwards is shown once delivered is C89 and C140")
c("C156","partial",["C156_agree_exact_partial","C156_changeset_partial","C156_absent_partial","C156_views_partial","C156_agree_refuted"],"false of the code for RemoveText, the three insertions, texts of elements with children, and tags and listeners of elements that contain listeners; exactly these (C156_agree_exact_partial; for a tag change in a browser that copies children faithfully); where an element is missing both fail; between two views of a component apply follows wherever the browser does, not conversely")
c("C157","proved",["Chat.C157_ids","Chat.C157_pages"],"ids are unbounded naturals here, u64 in the code")
c("C158","partial",["C158_request","C158_response","C158_body","C158_frame_exact_partial","C158_frame_partial","C158_lost_partial","C158_retry_partial","C158_write","C158_write_calm","C158_send","C158_interrupt_refuted"],"false of the code for frames: two of the parser's reads are not repeated, and a text message interrupted between header and mask can be read as a close frame (C158_interrupt_refuted); exactly: only before the first byte and between header and mask (C158_frame_exact_partial); proved in full for requests, responses, bodies and everything written")
c("C159","partial",["C159_exact_partial","C159_possible_partial","C159_decoded_partial","C159_recover_refuted"],"false of the code: the beginning of a frame stays on the connection and swallows the next message (C159_recover_refuted); exactly what can be left on the connection (C159_exact_partial, C159_possible_partial); true when a failed send has left nothing (C159_decoded_partial); on connections that never recover it is C02")
c("C160","partial",["C160_frame_partial","C160_frame_exact_partial","C160_message_partial","C160_socket_partial","C160_client","C160_request_exact_partial","C160_request_partial","C160_response_exact_partial","C160_text_exact_partial","C160_list_partial","C160_word_refuted","C160_http_refuted"],"false of the code: five of 2^32+5 announced bytes are a message on 32 bits and an error on 64, and 2^31 announced bytes a panic (C160_word_refuted); a declared body of 2^31 bytes panics on 32 bits only, one of 2^32 is undeclared there (C160_http_refuted). Exactly for frames with an announced length beyond the smaller machine (C160_frame_exact_partial), for requests, responses and bodies read as text; the same for everything below, in particular for conforming clients with frames under 2 GiB (C160_client)")

c("C161","partial",["Json.C161_page_partial","Json.C161_returned_partial","Json.C161_texts_iff_partial","Json.C161_made_up_refuted"],"false of the code: perform_diff moves old_dom ahead although the message was lost, and the page then shows what is no view in any state, for a component whose changes the browser can all follow (C161_made_up_refuted, over the bytes).  Proved, over the bytes: the page is exactly the one that the changesets which were sent lead to, and it shows the current render if the view after the loss is the one before it; and where only texts change, exactly if every text which the lost changes left different has been changed again since (C161_texts_iff_partial).")
if __name__ == "__main__":
    json.dump({"claims": C}, open("/verif/MANIFEST.json", "w"), indent=1)
    open("/tmp/axioms.lean", "w").write("import Verif\n" + "\n".join(f"#print axioms {t}" for x in C for t in x["theorems"]) + "\n")
