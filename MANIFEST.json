{
 "claims": [
  {
   "property": "C01",
   "status": "proved",
   "theorems": [
    "Puck.C01_send_decoded"
   ],
   "note": "all messages with payload < 2^64 bytes, all suffixes, all sinks"
  },
  {
   "property": "C02",
   "status": "proved",
   "theorems": [
    "Puck.C02_prefix_under_failure",
    "Puck.C02_history_decoded"
   ],
   "note": "all histories and all crash points (byte budgets)"
  },
  {
   "property": "C03",
   "status": "partial",
   "theorems": [
    "Puck.C03_minimal_partial",
    "Puck.C03_minimal_refuted"
   ],
   "note": "false at length 65535 (refuted); proved for every other length"
  },
  {
   "property": "C04",
   "status": "proved",
   "theorems": [
    "Puck.C04_client_frame_decoded"
   ],
   "note": "hypothesis: payload fits the target's isize::MAX"
  },
  {
   "property": "C05",
   "status": "partial",
   "theorems": [
    "Puck.C05_segmentation_refuted",
    "Puck.C05_segmentation_partial",
    "Puck.C05_same_bytes_partial"
   ],
   "note": "false as stated (refuted); the exact set of harmful read boundaries is proved"
  },
  {
   "property": "C06",
   "status": "partial",
   "theorems": [
    "Puck.C06_sound_64",
    "Puck.C06_sound_partial",
    "Puck.C06_exact_partial",
    "Puck.C06_sound_refuted"
   ],
   "note": "proved for usize >= 64 bits; on any target a delivered frame is backed by the bytes if and only if the announced length is < 2^W; false on 32-bit targets for larger announced lengths (refuted)"
  },
  {
   "property": "C07",
   "status": "proved",
   "theorems": [
    "Puck.C07_unmasked_refused"
   ],
   "note": "MaskNotSet, or InsufficientData if the two header bytes are split"
  },
  {
   "property": "C08",
   "status": "partial",
   "theorems": [
    "Puck.C08_truncated_partial",
    "Puck.C08_truncated_error_partial",
    "Puck.C08_exact_partial",
    "Puck.C08_truncated_refuted"
   ],
   "note": "proved for announced lengths <= isize::MAX, and the exact result for every announced length; false on 32-bit targets for announced lengths >= 2^32 (refuted)"
  },
  {
   "property": "C09",
   "status": "partial",
   "theorems": [
    "Puck.C09_no_panic_refuted",
    "Puck.C09_panic_iff_partial"
   ],
   "note": "false (refuted); exact panic condition proved for all streams; allocation failure not modelled, and the growth of the payload vector is exact in the model (std doubles it, which matters below 64 bits only)"
  },
  {
   "property": "C10",
   "status": "partial",
   "theorems": [
    "Puck.C10_back_to_back_refuted",
    "Puck.C10_aligned_partial",
    "Puck.C10_exact_partial",
    "Puck.C10_in_place_partial"
   ],
   "note": "false (refuted for every pair of frames arriving in one read); proved when reads are aligned with frames, and for reads of at most 8 KiB this is the exact condition: of all frames being delivered where the payloads are not empty (C10_exact_partial), of being read frame by frame in place in general (C10_in_place_partial; the mask key of an empty frame left behind can by chance look like the next empty frame)"
  },
  {
   "property": "C11",
   "status": "partial",
   "theorems": [
    "Puck.C11_empty_masked_refuted",
    "Puck.C11_empty_leaves_key_partial",
    "Puck.C11_single_read_partial",
    "Puck.C11_exact_partial"
   ],
   "note": "false (refuted); exact leftovers proved, and that the frame is consumed completely if and only if it comes in a read of its own (reads of at most 8 KiB)"
  },
  {
   "property": "C12",
   "status": "proved",
   "theorems": [
    "Puck.C12_first_byte",
    "Puck.C12_every_opcode_accepted",
    "Puck.C12_opcode_table",
    "Puck.C12_format"
   ],
   "note": ""
  },
  {
   "property": "C13",
   "status": "proved",
   "theorems": [
    "Puck.C13_reassembled"
   ],
   "note": "every message kind and fragment list; frames arriving in reads of their own (see C10 for why that is needed)"
  },
  {
   "property": "C14",
   "status": "partial",
   "theorems": [
    "Puck.C14_interleaved_refuted",
    "Puck.C14_between_partial"
   ],
   "note": "false between fragments in every case (refuted); proved for control frames between messages"
  },
  {
   "property": "C15",
   "status": "proved",
   "theorems": [
    "Puck.C15_message_sound",
    "Puck.C15_text_exact"
   ],
   "note": "every stream, segmentation and error schedule"
  },
  {
   "property": "C16",
   "status": "proved",
   "theorems": [
    "Puck.C16_close_anywhere"
   ],
   "note": ""
  },
  {
   "property": "C17",
   "status": "proved",
   "theorems": [
    "Puck.C17_client_message"
   ],
   "note": "up to Some(empty) = None for ping and pong"
  },
  {
   "property": "C18",
   "status": "proved",
   "theorems": [
    "Puck.C18_ping_ponged"
   ],
   "note": ""
  },
  {
   "property": "C19",
   "status": "proved",
   "theorems": [
    "Puck.C19_stays_closed"
   ],
   "note": ""
  },
  {
   "property": "C20",
   "status": "proved",
   "theorems": [
    "Puck.C20_one_close",
    "Puck.C20_any",
    "Puck.C20_make_copy_refuted"
   ],
   "note": "C20_any: every history on one socket value, with failing writes and panics; a copy made with make_copy is another value with its own state, and the two together may send two (C20_make_copy_refuted)"
  },
  {
   "property": "C21",
   "status": "partial",
   "theorems": [
    "Puck.C21_eof_refuted",
    "Puck.C21_closed_means_close_frame_partial",
    "Puck.C21_exact_partial",
    "Puck.C21_case"
   ],
   "note": "false (refuted): ClientError forever; proved exactly: on every stream, after finitely many calls, either a call has crashed, or a close frame has come and ConnectionClosed is reported for ever, or ClientError is returned for ever"
  },
  {
   "property": "C22",
   "status": "proved",
   "theorems": [
    "Puck.C22_history",
    "Puck.C22_silent",
    "Puck.C22_any"
   ],
   "note": "C22_any: with failing writes and panics; fewer than 2^64 bytes of input and payload"
  },
  {
   "property": "C23",
   "status": "partial",
   "theorems": [
    "Puck.C23_send_after_close_refuted",
    "Puck.C23_after_close_only_sends_partial",
    "Puck.C23_after_close_exact_partial"
   ],
   "note": "false (refuted); exactly: after ConnectionClosed the socket writes what a history of the same sends writes without it, on working and on breaking connections"
  },
  {
   "property": "C24",
   "status": "partial",
   "theorems": [
    "Puck.C24_decision_partial",
    "Puck.C24_name_case_refuted"
   ],
   "note": "exact test proved for headers named Upgrade and Connection; false for any other spelling of the names (refuted)"
  },
  {
   "property": "C25",
   "status": "proved",
   "theorems": [
    "Puck.C25_switching",
    "Puck.C25_client_view"
   ],
   "note": "sha1 is a parameter"
  },
  {
   "property": "C26",
   "status": "proved",
   "theorems": [
    "Puck.C26_base64",
    "Puck.C26_rfc_example"
   ],
   "note": "the RFC example is evaluated by the kernel with a SHA-1 written from RFC 3174"
  },
  {
   "property": "C27",
   "status": "proved",
   "theorems": [
    "Puck.C27_upgrade",
    "Puck.C27_broken"
   ],
   "note": "on a connection that breaks during the answer it crashes after the beginning of that answer (C27_broken)"
  },
  {
   "property": "C28",
   "status": "proved",
   "theorems": [
    "Puck.C28_bounded"
   ],
   "note": "all readers, lengths and read sequences"
  },
  {
   "property": "C29",
   "status": "proved",
   "theorems": [
    "Puck.C29_into_bytes",
    "Puck.C29_into_string"
   ],
   "note": "all readers and standard-library buffer schedules; into_string for declared lengths up to isize::MAX (above: C111)"
  },
  {
   "property": "C30",
   "status": "proved",
   "theorems": [
    "Puck.C30_string_body"
   ],
   "note": ""
  },
  {
   "property": "C31",
   "status": "proved",
   "theorems": [
    "Puck.C31_head_and_body"
   ],
   "note": ""
  },
  {
   "property": "C32",
   "status": "proved",
   "theorems": [
    "Puck.C32_incomplete_head"
   ],
   "note": ""
  },
  {
   "property": "C33",
   "status": "proved",
   "theorems": [
    "Puck.C33_decision"
   ],
   "note": "httparse and url are parameters: the table is proved for every behaviour of both"
  },
  {
   "property": "C34",
   "status": "proved",
   "theorems": [
    "Puck.C34_last_wins"
   ],
   "note": ""
  },
  {
   "property": "C35",
   "status": "partial",
   "theorems": [
    "Puck.C35_order_independent_partial",
    "Puck.C35_order_refuted",
    "Puck.C35_exact_partial"
   ],
   "note": "false with Host and host both present (refuted); proved when no two spellings of Host or Content-Length are present; and exactly: independent of the order iff all spellings of Host give the same URL and all spellings of Content-Length the same length"
  },
  {
   "property": "C36",
   "status": "partial",
   "theorems": [
    "Puck.C36_method_roundtrip_partial",
    "Puck.C36_head_refuted"
   ],
   "note": "false for HEAD (refuted); the exact set of methods that round-trip is proved"
  },
  {
   "property": "C37",
   "status": "proved",
   "theorems": [
    "Puck.C37_request_roundtrip",
    "Puck.hpReq_contract"
   ],
   "note": "under a contract on httparse and url; an executable parser meeting it is exhibited"
  },
  {
   "property": "C38",
   "status": "partial",
   "theorems": [
    "Puck.C38_query_dropped_refuted",
    "Puck.C38_no_query_partial"
   ],
   "note": "false for every URL with a query (refuted); proved for URLs without one"
  },
  {
   "property": "C39",
   "status": "proved",
   "theorems": [
    "Puck.C39_deterministic"
   ],
   "note": "every valid iteration order of the header map"
  },
  {
   "property": "C40",
   "status": "proved",
   "theorems": [
    "Puck.C40_client_reads_back"
   ],
   "note": "for well-formed header names and values (see C41)"
  },
  {
   "property": "C41",
   "status": "partial",
   "theorems": [
    "Puck.C41_injection_refuted",
    "Puck.C41_one_line_each_partial",
    "Puck.C41_exact_partial"
   ],
   "note": "false (refuted); the exact number of line ends in the head is proved: each header is on one line iff the reason and the names and values contain no line end (CR LF)"
  },
  {
   "property": "C42",
   "status": "partial",
   "theorems": [
    "Puck.C42_content_length_refuted",
    "Puck.C42_prefix_partial",
    "Puck.C42_exact_partial"
   ],
   "note": "false (refuted); exact: the body is what follows the head, cut off after n bytes if the Content-Type is the number n"
  },
  {
   "property": "C43",
   "status": "proved",
   "theorems": [
    "Puck.C43_response_roundtrip",
    "Puck.hpRes_contract"
   ],
   "note": "under a contract on httparse; an executable parser meeting it is exhibited"
  },
  {
   "property": "C44",
   "status": "proved",
   "theorems": [
    "Puck.C44_response_builder",
    "Puck.C44_request_builder"
   ],
   "note": ""
  },
  {
   "property": "C45",
   "status": "proved",
   "theorems": [
    "Puck.C45_take_body"
   ],
   "note": ""
  },
  {
   "property": "C46",
   "status": "proved",
   "theorems": [
    "Puck.C46_mime_params",
    "Puck.C46_constants"
   ],
   "note": ""
  },
  {
   "property": "C47",
   "status": "proved",
   "theorems": [
    "Puck.C47_canned_errors"
   ],
   "note": ""
  },
  {
   "property": "C48",
   "status": "proved",
   "theorems": [
    "Puck.C48_matches",
    "Puck.C48_edge_cases"
   ],
   "note": ""
  },
  {
   "property": "C49",
   "status": "proved",
   "theorems": [
    "Puck.C49_int_segment"
   ],
   "note": ""
  },
  {
   "property": "C50",
   "status": "proved",
   "theorems": [
    "Puck.C50_first_match"
   ],
   "note": ""
  },
  {
   "property": "C51",
   "status": "proved",
   "theorems": [
    "Puck.C51_ints_roundtrip"
   ],
   "note": "given that a function pointer survives the cast to an integer and back"
  },
  {
   "property": "C52",
   "status": "partial",
   "theorems": [
    "Puck.C52_answered_partial",
    "Puck.C52_unanswered_refuted",
    "Puck.C52_history_partial"
   ],
   "note": "false (refuted): the exact set of unanswered requests is proved"
  },
  {
   "property": "C53",
   "status": "proved",
   "theorems": [
    "Puck.C53_isolated"
   ],
   "note": "processes share no memory (Lunatic) is a modelling assumption"
  },
  {
   "property": "C54",
   "status": "proved",
   "theorems": [
    "Puck.C54_ids"
   ],
   "note": "overflow of usize not modelled"
  },
  {
   "property": "C55",
   "status": "partial",
   "theorems": [
    "Puck.C55_preserved_partial",
    "Puck.C55_tag_lost_refuted"
   ],
   "note": "false for select and noscript, whose tag becomes div, and for nodes that drop listeners or children (refuted); everything else is proved kept"
  },
  {
   "property": "C56",
   "status": "proved",
   "theorems": [
    "Puck.C56_unchanged"
   ],
   "note": "distinct sibling keys and distinct attribute names"
  },
  {
   "property": "C57",
   "status": "partial",
   "theorems": [
    "Puck.C57_apply_partial",
    "Puck.C57_aligned_partial",
    "Puck.C57_shrinking_partial",
    "Puck.C57_views_partial",
    "Puck.C57_exact_partial",
    "Puck.C57_views_exact_partial",
    "Puck.C57_apply_refuted"
   ],
   "note": "false in general (refuted on views of a component); the pairs of views between which it holds are characterised exactly (if and only if), and same-shape renders and shrinking renders are shown to be among them"
  },
  {
   "property": "C58",
   "status": "partial",
   "theorems": [
    "Puck.C58_reorder_refuted",
    "Puck.C58_insert_refuted",
    "Puck.C58_removal_partial",
    "Puck.C58_exact_partial"
   ],
   "note": "false for every reordering and every insertion (refuted); proved for removals, and that of all changes of the list of keyed children it is exactly the removals"
  },
  {
   "property": "C59",
   "status": "partial",
   "theorems": [
    "Puck.C59_crash_refuted",
    "Puck.C59_unkeyed_partial"
   ],
   "note": "false with keys (refuted, with the exact condition under which diffing crashes); proved without keys"
  },
  {
   "property": "C60",
   "status": "proved",
   "theorems": [
    "Puck.C60_attributes"
   ],
   "note": ""
  },
  {
   "property": "C61",
   "status": "partial",
   "theorems": [
    "Puck.C61_wire_partial",
    "Puck.C61_plus_refuted",
    "Puck.C61_ignored_refuted",
    "Puck.C61_distinct_partial",
    "Puck.C61_confused_refuted"
   ],
   "note": "false for names and values with + (refuted; two instructions can even look alike); the exact condition is proved, and that instructions whose first part has no + are never confused"
  },
  {
   "property": "C62",
   "status": "partial",
   "theorems": [
    "Puck.C62_first_paint_partial",
    "Puck.C62_no_exception_partial",
    "Puck.C62_id_refuted",
    "Puck.C62_exact_partial"
   ],
   "note": "false with an id attribute (refuted) or + in a value; proved for trees whose names and values survive the trip, and on pages without ids that is exact: no other view without an attribute id is shown, and of the others the same conditions are necessary"
  },
  {
   "property": "C63",
   "status": "partial",
   "theorems": [
    "Puck.C63_update_partial",
    "Puck.C63_views_partial",
    "Puck.C63_exact_partial",
    "Puck.C63_followable_partial",
    "Puck.C63_views_exact_partial",
    "Puck.C63_update_refuted"
   ],
   "note": "false (refuted four ways); proved under a condition on the two trees, which same-shape renders with gentle differences meet; for unkeyed views of any structure (in a browser whose innerHTML copies children faithfully wherever a tag changes), the exact condition under which the browser processes the whole changeset without an exception and then shows the new view"
  },
  {
   "property": "C64",
   "status": "proved",
   "theorems": [
    "Puck.C64_in_step"
   ],
   "note": ""
  },
  {
   "property": "C65",
   "status": "proved",
   "theorems": [
    "Puck.C65_events",
    "Puck.C65_ignored"
   ],
   "note": "JSON parsing of browser messages is a parameter"
  },
  {
   "property": "C66",
   "status": "proved",
   "theorems": [
    "Puck.C66_trace",
    "Puck.C66_unkeyed"
   ],
   "note": "up to a panic in diff, which C66_unkeyed excludes for components without keys"
  },
  {
   "property": "C67",
   "status": "proved",
   "theorems": [
    "Puck.C67_closed"
   ],
   "note": ""
  },
  {
   "property": "C68",
   "status": "proved",
   "theorems": [
    "Puck.C68_processes"
   ],
   "note": ""
  },
  {
   "property": "C69",
   "status": "partial",
   "theorems": [
    "Puck.C69_reader_refuted",
    "Puck.C69_only_closed_partial"
   ],
   "note": "false (refuted): the reader loops forever; proved: it sends no client message any more"
  },
  {
   "property": "C70",
   "status": "partial",
   "theorems": [
    "Puck.C70_distinct_partial",
    "Puck.C70_escape_refuted"
   ],
   "note": "false: nothing is escaped (refuted for every tree with children and every pair of attributes); proved for trees without special characters"
  },
  {
   "property": "C71",
   "status": "proved",
   "theorems": [
    "Puck.Chat.C71_ids"
   ],
   "note": "overflow of u64 not modelled"
  },
  {
   "property": "C72",
   "status": "proved",
   "theorems": [
    "Puck.Chat.C72_broadcast"
   ],
   "note": ""
  },
  {
   "property": "C73",
   "status": "proved",
   "theorems": [
    "Puck.Chat.C73_no_panic"
   ],
   "note": "every schedule; a failed write in the middle of a session has no effect on the component (the code ignores it), only the first one is unwrapped"
  },
  {
   "property": "C74",
   "status": "proved",
   "theorems": [
    "Puck.C74_all_items"
   ],
   "note": ""
  },
  {
   "property": "C75",
   "status": "partial",
   "theorems": [
    "Puck.C75_lastN_partial",
    "Puck.C75_lastN_refuted"
   ],
   "note": "false when fewer than n items exist (refuted); exact behaviour proved"
  },
  {
   "property": "C76",
   "status": "partial",
   "theorems": [
    "Puck.C76_read_partial",
    "Puck.C76_negative_refuted"
   ],
   "note": "false for negative numbers (refuted); proved otherwise"
  },
  {
   "property": "C77",
   "status": "proved",
   "theorems": [
    "Puck.C77_content_length"
   ],
   "note": ""
  },
  {
   "property": "C78",
   "status": "partial",
   "theorems": [
    "Puck.C78_pipelined_refuted",
    "Puck.C78_nothing_follows_partial",
    "Puck.C78_exact_partial"
   ],
   "note": "false (refuted for every continuation and segmentation); proved when nothing follows the head, and that this is exact"
  },
  {
   "property": "C79",
   "status": "partial",
   "theorems": [
    "Puck.C79_framing_refuted",
    "Puck.C79_declared_partial",
    "Puck.C79_exact_partial"
   ],
   "note": "false (refuted); proved for responses to which the application itself gives the right Content-Length, and that these (and bodiless ones with a status that says so) are exactly those whose end a client following RFC 9112 finds"
  },
  {
   "property": "C80",
   "status": "partial",
   "theorems": [
    "Puck.C80_version_ignored_refuted",
    "Puck.C80_headers_partial",
    "Puck.C80_exact_partial"
   ],
   "note": "false (refuted); proved: the three headers are required, and on a working connection they are enough"
  },
  {
   "property": "C81",
   "status": "partial",
   "theorems": [
    "Puck.C81_leak_refuted",
    "Puck.C81_close_frame_partial",
    "Puck.C81_exact_partial",
    "Puck.C81_case"
   ],
   "note": "false (refuted): the component is never dropped; proved for connections closed with a close frame; and exactly, for fair executions, whatever the client sends: dropped if a close frame comes and never otherwise"
  },
  {
   "property": "C82",
   "status": "partial",
   "theorems": [
    "Puck.C82_sequential_partial",
    "Puck.C82_whole_frames_partial",
    "Puck.C82_interleaved_refuted"
   ],
   "note": "false (refuted); proved when the sends do not overlap"
  },
  {
   "property": "C83",
   "status": "proved",
   "theorems": [
    "Puck.C83_event_delivered"
   ],
   "note": ""
  },
  {
   "property": "C84",
   "status": "partial",
   "theorems": [
    "Puck.C84_sync_partial",
    "Puck.C84_reachable_partial",
    "Puck.C84_fixed_layout",
    "Puck.C84_free_layout",
    "Puck.C84_sync_refuted",
    "Puck.C84_insertion_refuted"
   ],
   "note": "false (refuted: one update that takes a text away; a list with something after it, to which two entries are added); proved for components which are browser-friendly in the states they can reach, and the exact condition on all reachable updates is proved for components with a fixed layout, and, with messages processed without exceptions, for components whose structure and tags may change"
  },
  {
   "property": "C85",
   "status": "partial",
   "theorems": [
    "Puck.Chat.C85_shown_partial",
    "Puck.Chat.C85_exact_partial",
    "Puck.Chat.C85_plus_refuted"
   ],
   "note": "false once a user types a + (refuted); proved exactly: in every reachable state the page shows the current view with the field cut at its first +, hence the current view iff the field has no +"
  },
  {
   "property": "C86",
   "status": "proved",
   "theorems": [
    "Puck.C86_read_submitted"
   ],
   "note": ""
  },
  {
   "property": "C87",
   "status": "partial",
   "theorems": [
    "Puck.C87_submit_partial",
    "Puck.C87_submit_refuted"
   ],
   "note": "false for unreadable or non-UTF-8 bodies (refuted) and for declared lengths above isize::MAX (C111); exact behaviour proved"
  },
  {
   "property": "C88",
   "status": "partial",
   "theorems": [
    "Puck.C88_typed_partial",
    "Puck.C88_typed_refuted"
   ],
   "note": "false for texts which form encoding changes (refuted); exact condition proved"
  },
  {
   "property": "C89",
   "status": "partial",
   "theorems": [
    "Puck.Chat.C89_order_partial",
    "Puck.Chat.C89_order_refuted",
    "Puck.Chat.C89_exact_partial",
    "Puck.Chat.C89_agree_partial"
   ],
   "note": "false (refuted); proved: own messages in order, the others' in the coordinator's order, none lost or duplicated; exactly: a page is the coordinator's order with own messages moved forward, and that order itself iff the user never sent while something was on its way to it; two users agree on the messages both got iff both see them in the coordinator's order (messages distinct)"
  },
  {
   "property": "C90",
   "status": "proved",
   "theorems": [
    "Puck.Chat.C90_leave"
   ],
   "note": ""
  },
  {
   "property": "C91",
   "status": "partial",
   "theorems": [
    "Puck.C91_read_back_partial",
    "Puck.C91_attributes_refuted",
    "Puck.C91_exact_partial"
   ],
   "note": "false for every element with an attribute (refuted); tags, nesting, text and attribute values proved for trees without special characters; of those, exactly the trees without attributes are read back"
  },
  {
   "property": "C92",
   "status": "proved",
   "theorems": [
    "Puck.Json.C92_changeset_json",
    "Puck.Json.C92_injective"
   ],
   "note": "the JSON grammar is an independent specification (Spec/Json.lean); the reader is proved to implement it (parse_iff); serde_json's writer is modelled from its documented output"
  },
  {
   "property": "C93",
   "status": "proved",
   "theorems": [
    "Puck.Json.C93_event_json"
   ],
   "note": "strings in the browser are taken to be Unicode strings (no lone surrogates)"
  },
  {
   "property": "C94",
   "status": "proved",
   "theorems": [
    "Puck.Json.C94_accepted",
    "Puck.Json.parse_iff"
   ],
   "note": ""
  },
  {
   "property": "C95",
   "status": "partial",
   "theorems": [
    "Puck.Json.C95_exact_partial",
    "Puck.Json.C95_bytes_to_page_partial",
    "Puck.Json.C95_in_step_partial",
    "Puck.Json.C95_bytes_to_page_refuted",
    "Puck.Json.C95_event_to_update"
   ],
   "note": "browser to server proved; server to browser false where the instructions themselves are wrong (C84; refuted on bytes: a label that is switched off). Proved for every component that the browser runs exactly the instructions sent (C95_exact_partial), hence shows the current render for every component whose messages keep the page in step (C84; browser-friendly ones among them), with all writes succeeding; C106 adds the pongs of the reader process in between, failures and every moment before the end"
  },
  {
   "property": "C96",
   "status": "proved",
   "theorems": [
    "Puck.C96_page_and_script",
    "Puck.C96_broken_connection"
   ],
   "note": "the script is any string (its behaviour is Model/Client.lean)"
  },
  {
   "property": "C97",
   "status": "partial",
   "theorems": [
    "Puck.C97_mount_refuted",
    "Puck.C97_directory_partial",
    "Puck.C97_exact_partial",
    "Puck.C97_names_partial"
   ],
   "note": "false for every mount pattern as documented (refuted); proved for pages whose URL ends in a slash, with script and socket in the same directory; and exactly, for all patterns, where the browser looks for script and socket"
  },
  {
   "property": "C98",
   "status": "proved",
   "theorems": [
    "Puck.C98_chat_loads",
    "Puck.C98_broken"
   ],
   "note": "requests as parsed (C31-C34); the spawned processes are C68, C71-C73"
  },
  {
   "property": "C99",
   "status": "proved",
   "theorems": [
    "Puck.C99_eventually_received",
    "Puck.fair_exists"
   ],
   "note": "weak fairness of each process; fair executions exist for every component (fair_exists)"
  },
  {
   "property": "C100",
   "status": "proved",
   "theorems": [
    "Puck.C100_client_messages",
    "Puck.C100_dropped"
   ],
   "note": "messages as in C14_between_partial (control frames not inside a fragmented message), reads aligned with frames (C05, C10); C100_client_messages allows for a crashed loop (C59), C100_dropped covers views without keys"
  },
  {
   "property": "C101",
   "status": "partial",
   "theorems": [
    "Puck.Json.C101_read_back_partial",
    "Puck.Json.C101_read_back_refuted",
    "Puck.Json.C101_members",
    "Puck.Json.C101_unit_instructions",
    "Puck.Json.C101_positional",
    "Puck.Json.C101_without_analogue"
   ],
   "note": "false for every first paint and for removed attributes (refuted); the exact set of changesets that can be read back is proved, and they are read back unchanged"
  },
  {
   "property": "C102",
   "status": "proved",
   "theorems": [
    "Puck.C102_build"
   ],
   "note": "the generated builder is modelled from derive_builder's documentation"
  },
  {
   "property": "C103",
   "status": "proved",
   "theorems": [
    "Puck.C103_in_step_iff",
    "Puck.C103_trees"
   ],
   "note": "tags equal (the content of a retagged element depends on the browser's HTML parser, C63), unkeyed renders numbered from the same start as the component loop does"
  },
  {
   "property": "C104",
   "status": "proved",
   "theorems": [
    "Puck.Chat.C104_atomic",
    "Puck.Chat.C104_no_deadlock",
    "Puck.Chat.C104_no_panic",
    "Puck.Chat.C104_order",
    "Puck.Chat.C104_shown",
    "Puck.Chat.C104_case"
   ],
   "note": "lunatic's request is a message with a reply that can be received out of order (tag); C104_order and C104_shown carry C89 and C85 over to the model with messages"
  },
  {
   "property": "C105",
   "status": "proved",
   "theorems": [
    "Puck.Chat.C105_delivered",
    "Puck.Chat.C105_answered",
    "Puck.Chat.C105_taken",
    "Puck.Chat.C105_accepted",
    "Puck.Chat.C105_registered",
    "Puck.Chat.C105_on_page",
    "Puck.Chat.C105_fair_exists",
    "Puck.Chat.C105_case"
   ],
   "note": "weak fairness of the coordinator and of each connection's managing and component processes; fair executions exist through every reachable state (C105_fair_exists); delivery of bytes into the mailbox is C100"
  },
  {
   "property": "C106",
   "status": "proved",
   "theorems": [
    "Puck.Json.C106_any_moment",
    "Puck.Json.C106_failure",
    "Puck.Json.C106_components",
    "Puck.Json.C106_processes",
    "Puck.Chat.C106_chat"
   ],
   "note": "for every component whose messages keep the page in step (C84), which C106_components says for three classes of components; whole frames in any order (C82: frames may mix otherwise); chat users who type no plus sign (C85)"
  },
  {
   "property": "C107",
   "status": "partial",
   "theorems": [
    "Puck.C107_waiting_partial",
    "Puck.C107_exact",
    "Puck.C107_pipelined_refuted"
   ],
   "note": "false when bytes come in the same read as the end of the head: the BufReader of Request::parse keeps them; exactly those are lost (C107_exact)"
  },
  {
   "property": "C108",
   "status": "proved",
   "theorems": [
    "Puck.C108_session",
    "Puck.Json.C108_page"
   ],
   "note": "assumes the contract of httparse (C37), a read ending where the head ends (C107), frames in their own reads (C14), and the reader process not dying"
  },
  {
   "property": "C109",
   "status": "proved",
   "theorems": [
    "Puck.C109_exchange",
    "Puck.C109_puck_client"
   ],
   "note": "assumes the contracts of httparse (met by hpReq, hpRes); handlers that answer with respond(..).unwrap(); a connection that takes the bytes"
  },
  {
   "property": "C110",
   "status": "proved",
   "theorems": [
    "Puck.C110_read_over_bytes"
   ],
   "note": "connections in the order in which their processes reach the list process; the HTML text of the pages is not modelled"
  },
  {
   "property": "C111",
   "status": "partial",
   "theorems": [
    "Puck.C111_text_partial",
    "Puck.C111_text_refuted"
   ],
   "note": "false: String::with_capacity of the declared length panics above isize::MAX (on wasm32 a Content-Length of 2147483648), exactly then; allocation failure below that is not modelled"
  },
  {
   "property": "C112",
   "status": "partial",
   "theorems": [
    "Puck.C112_readers_partial",
    "Puck.C112_readers_refuted"
   ],
   "note": "false for readers whose clone copies the position: each frame is parsed from the beginning again; exact behaviour on bytes that begin with a valid client frame"
  },
  {
   "property": "C113",
   "status": "partial",
   "theorems": [
    "Puck.C113_stale_partial",
    "Puck.C113_stale_iff",
    "Puck.C113_stale_refuted"
   ],
   "note": "false: a listener name is looked up in the listeners of the current render; exact condition on the component's views where no event runs two listeners; for every component whose updates take the browser from one view to the next (InStepFrom: browser-friendly ones, and fixed or free layouts whose reachable updates can be followed, C84), queues of whole messages"
  },
  {
   "property": "C114",
   "status": "partial",
   "theorems": [
    "Puck.C114_lost_partial",
    "Puck.C114_lost_iff",
    "Puck.C114_lost_refuted"
   ],
   "note": "false: an event whose listener is gone from the current render is ignored; exact condition as for C113"
  },
  {
   "property": "C115",
   "status": "partial",
   "theorems": [
    "Puck.C115_bubbling_partial",
    "Puck.C115_exact_partial",
    "Puck.C115_bubbling_refuted"
   ],
   "note": "false where handling one of the listeners changes what the next one asks for; proved otherwise, and that this is exact (for components whose updates the browser can follow)"
  },
  {
   "property": "C116",
   "status": "partial",
   "theorems": [
    "Puck.C116_fields_partial",
    "Puck.C116_fields_refuted"
   ],
   "note": "false: a field shows what the user typed last and the attribute value only before that, whatever the component renders (exact, for components with a fixed layout whose updates the browser can follow)"
  },
  {
   "property": "C117",
   "status": "proved",
   "theorems": [
    "Puck.C117_builder",
    "Puck.C117_fails"
   ],
   "note": "tags and listeners as C55 says (select and noscript appear as div, br and noscript lose listeners)"
  },
  {
   "property": "C118",
   "status": "proved",
   "theorems": [
    "Puck.C118_contents",
    "Puck.C118_create",
    "Puck.C118_insert",
    "Puck.C118_setId",
    "Puck.C118_delete",
    "Puck.C118_refused"
   ],
   "note": "an element inserted next to another gets the other's id, as the instruction carries only one id"
  },
  {
   "property": "C119",
   "status": "partial",
   "theorems": [
    "Puck.C119_send_exact_partial",
    "Puck.C119_send_refuted",
    "Puck.C119_history_partial"
   ],
   "note": "false for ping and pong payloads above 125 bytes (sent by the application, or echoed from an illegally long ping) and for payloads of exactly 65535 bytes (eight-byte length); exact condition on each message, and every other history is accepted"
  },
  {
   "property": "C120",
   "status": "partial",
   "theorems": [
    "Puck.C120_verdicts_partial",
    "Puck.C120_accepted_refuted",
    "Puck.C120_reports",
    "Puck.C120_exact_partial",
    "Puck.receives_unique",
    "Puck.receives_total",
    "Puck.reports_unique",
    "Puck.reports_total"
   ],
   "note": "false: reserved bits, non-minimal lengths, long and fragmented control frames are accepted (every such frame), and pings between fragments are refused (C14). Proved for frames whose only violations are of order, opcode or text; reads aligned with frames (C05, C10). The reference receiver is total and deterministic. For any frames the reports are those of a lenient receiver (Spec/Lenient, C120_reports), and they are RFC 6455's iff the two receivers agree (C120_exact_partial)"
  },
  {
   "property": "C121",
   "status": "partial",
   "theorems": [
    "Puck.C121_length_partial",
    "Puck.C121_chunked_refuted",
    "Puck.C121_no_length_refuted",
    "Puck.C121_conflict_refuted",
    "Puck.C121_exact_partial"
   ],
   "note": "proved for requests with a Content-Length in one spelling, and exactly, without Transfer-Encoding: iff there is a Content-Length or nothing follows the head; false with Transfer-Encoding chunked (the coding is read as the body), with neither header (the body lasts to the end of the connection) and with Content-Lengths that disagree (the last counts); contract of httparse as in C37"
  },
  {
   "property": "C122",
   "status": "proved",
   "theorems": [
    "Puck.C122_views",
    "Puck.C122_any",
    "Puck.C122_exact",
    "Puck.C122_size_partial",
    "Puck.C122_first_paint",
    "Puck.C122_size_refuted"
   ],
   "note": "exact contents for all views (C122_views) and for any two trees, with and without keys (C122_any); the instructions for a tag and for new listeners name the new id, as in the code (see C57). The bound on the length holds for views, and for hand-made trees with distinct keys among siblings; with repeated keys no multiple of the sizes bounds it"
  },
  {
   "property": "C123",
   "status": "proved",
   "theorems": [
    "Puck.Chat.C123_what_was_shown",
    "Puck.Chat.C123_witness"
   ],
   "note": "by an invariant over the page with the typed texts, the queues in both directions and the component; C123_witness runs it for any text"
  },
  {
   "property": "C124",
   "status": "partial",
   "theorems": [
    "Puck.C124_exact_partial",
    "Puck.C124_refuted"
   ],
   "note": "false: only a new first child is inserted where it belongs; every other one before the child it follows, or after itself (exact, for all pairs of trees). The browser ignores these instructions in any case (C61), and applying them panics (C58)"
  },
  {
   "property": "C125",
   "status": "partial",
   "theorems": [
    "Puck.C125_exact_partial",
    "Puck.C125_form_refuted",
    "Puck.C125_lost_refuted",
    "Puck.C125_chat"
   ],
   "note": "false: the script never prevents the browser's default action, so a button or field in a form, or a link, takes the user to a new page and a new component (refuted; C125_lost_refuted for every component with such a view); exact condition on the component's views; the chat's views keep it in every state. Validation of fields and the attribute form are not modelled"
  },
  {
   "property": "C126",
   "status": "proved",
   "theorems": [
    "Puck.C126_outcome",
    "Puck.C126_witness"
   ],
   "note": "for headers with distinct names (as the header map has) and bodies as the constructors make them"
  },
  {
   "property": "C127",
   "status": "proved",
   "theorems": [
    "Puck.C127_request",
    "Puck.C127_response"
   ],
   "note": ""
  },
  {
   "property": "C128",
   "status": "proved",
   "theorems": [
    "Puck.C128_outcome",
    "Puck.C128_witness"
   ],
   "note": "for bodies as the constructors make them"
  },
  {
   "property": "C129",
   "status": "proved",
   "theorems": [
    "Puck.C129_head",
    "Puck.C129_body",
    "Puck.C129_request"
   ],
   "note": "heads: exactly when a blank line or an I/O error has arrived"
  },
  {
   "property": "C130",
   "status": "partial",
   "theorems": [
    "Puck.C130_exact_partial",
    "Puck.C130_get_refuted",
    "Puck.C130_response_refuted"
   ],
   "note": "false: without a Content-Length (a plain GET) reading the body waits for the end of the connection, and for responses the length is taken from Content-Type; exact condition for requests with at most one spelling of Content-Length"
  },
  {
   "property": "C131",
   "status": "proved",
   "theorems": [
    "Puck.C131_linearizable"
   ],
   "note": "usize of 31 bits or more"
  },
  {
   "property": "C132",
   "status": "proved",
   "theorems": [
    "Puck.C132_clients_agree"
   ],
   "note": "the HTML text of the pages (crate malvolio) is a parameter; connections that do not break"
  },
  {
   "property": "C133",
   "status": "proved",
   "theorems": [
    "Puck.C133_every_client_served"
   ],
   "note": "each client has sent its request or closed (a process blocked on its socket is one not yet scheduled); weak fairness of every process"
  },
  {
   "property": "C134",
   "status": "partial",
   "theorems": [
    "Puck.C134_first_only_partial",
    "Puck.C134_persistent_refuted"
   ],
   "note": "false: at most the first request on a connection is answered; exactly what is sent"
  },
  {
   "property": "C135",
   "status": "partial",
   "theorems": [
    "Puck.C135_exact_partial",
    "Puck.C135_head_refuted"
   ],
   "note": "false: HEAD is answered as GET is, with the body; the body sent is exactly the handler's"
  },
  {
   "property": "C136",
   "status": "partial",
   "theorems": [
    "Puck.C136_exact_partial",
    "Puck.C136_repeated_refuted"
   ],
   "note": "false for repeated names: exactly the last value of each name is sent"
  },
  {
   "property": "C137",
   "status": "partial",
   "theorems": [
    "Puck.C137_read_ahead_partial",
    "Puck.C137_unbounded_refuted"
   ],
   "note": "false for heads and messages; what is read ahead of a request's head is bounded"
  },
  {
   "property": "C138",
   "status": "proved",
   "theorems": [
    "Puck.Chat.C138_faithful"
   ],
   "note": "at every moment at which the component is between two messages; a case is C140_case"
  },
  {
   "property": "C139",
   "status": "proved",
   "theorems": [
    "Puck.Chat.C139_log"
   ],
   "note": "a case is C140_case"
  },
  {
   "property": "C140",
   "status": "proved",
   "theorems": [
    "Puck.Chat.C140_heeded",
    "Puck.Chat.C140_delivered",
    "Puck.Chat.C140_on_page",
    "Puck.Chat.C140_case"
   ],
   "note": "weak fairness as in C105; on the page: if the recipient's browser never sends a + (C85)"
  },
  {
   "property": "C141",
   "status": "proved",
   "theorems": [
    "Puck.C141_incomplete_head"
   ],
   "note": ""
  },
  {
   "property": "C142",
   "status": "partial",
   "theorems": [
    "Puck.C142_broken_partial",
    "Puck.C142_again_refuted"
   ],
   "note": "false: true if the connection breaks within the head; within the body at least one byte (at most 8192) that was not sent is lost, always; for bodies that can be read to their end"
  },
  {
   "property": "C143",
   "status": "proved",
   "theorems": [
    "Puck.C143_structure",
    "Puck.Chat.C143_chat",
    "Puck.Chat.C143_case"
   ],
   "note": "For views whose names contain no `+` and no capital letters. The contract on `innerHTML` (Browser.Keeps) is met by browsers when no tag's contents are left unescaped; values such as script URLs are covered to the extent the vocabulary restricts values."
  },
  {
   "property": "C144",
   "status": "proved",
   "theorems": [
    "Puck.Chat.C144_drafts_private",
    "Puck.Chat.chatStep_iff",
    "Puck.Chat.C144_case"
   ],
   "note": "Two-run noninterference: the relation SameBut (equal everywhere but in the text of one field) is kept by every step, as long as what is published agrees. About contents, not timing: the same things happen in the same order in both courses."
  },
  {
   "property": "C145",
   "status": "partial",
   "theorems": [
    "Puck.C145_settled_partial",
    "Puck.C145_history_partial",
    "Puck.C145_not_early_partial",
    "Puck.C145_settled_refuted"
   ],
   "note": "false on 32-bit targets, where an announced length is truncated to usize; proved for a usize of at least 64 bits, for all streams"
  },
  {
   "property": "C146",
   "status": "proved",
   "theorems": [
    "Puck.Chat.C146_bytes_to_bytes",
    "Puck.Chat.C146_case"
   ],
   "note": "weak fairness as in C105; each frame in its own reads (C12, C107 say why); the reader process passes on what the iterator gives it; the recipient's browser never sends a + (C85)"
  },
  {
   "property": "C147",
   "status": "partial",
   "theorems": [
    "Puck.C147_no_more_partial",
    "Puck.C147_factor",
    "Puck.C147_no_more_refuted"
   ],
   "note": "false for pings of exactly 65535 bytes, which are answered with two bytes more than they took (the boundary of C03); proved for all histories without such a ping; with any histories the excess is at most 1/32768"
  },
  {
   "property": "C148",
   "status": "partial",
   "theorems": [
    "Puck.C148_same_page_partial",
    "Puck.C148_same_page_refuted",
    "Puck.Chat.C148_chat"
   ],
   "note": "false when a text is taken away, which no client branch does (refuted); proved for any two browser-friendly components and any two histories, and for any two users of the chat in any two runs of it (fields cut at the first +, as in C85)"
  },
  {
   "property": "C149",
   "status": "proved",
   "theorems": [
    "Puck.C149_any_order",
    "Puck.C149_overlap",
    "Puck.C149_patterns_any_order",
    "Puck.C149_order"
   ],
   "note": "URLs with any path (a fixed text that no parsed URL contains, like one with a space, counts as matchable)"
  },
  {
   "property": "C150",
   "status": "proved",
   "theorems": [
    "Puck.C150_dead_route",
    "Puck.C150_covered"
   ],
   "note": "URLs with any path, as for C149"
  },
  {
   "property": "C151",
   "status": "proved",
   "theorems": [
    "Puck.Chat.C151_grows",
    "Puck.Chat.C151_page"
   ],
   "note": "on the page the text in the message field is cut at its first + (C85)"
  },
  {
   "property": "C152",
   "status": "partial",
   "theorems": [
    "Puck.C152_ids_partial",
    "Puck.Chat.C152_chat",
    "Puck.C152_ids_refuted"
   ],
   "note": "false of the code in general: when one part of a view shrinks while another grows, a delete can hit a new element and a rename another one, after which two elements have the same id (C152_ids_refuted, plain views of divs); proved for browser-friendly components (as C84) and for the chat in all reachable states"
  },
  {
   "property": "C153",
   "status": "partial",
   "theorems": [
    "Puck.Chat.C153_author_partial",
    "Puck.Chat.C153_authors",
    "Puck.Chat.C153_author_refuted"
   ],
   "note": "false of the code: the id of a user who has left is given to the next one, who may choose the same name (C153_author_refuted); proved: one user's messages bear one name and id, and two users' messages different ids unless one of the two has gone"
  },
  {
   "property": "C154",
   "status": "partial",
   "theorems": [
    "Puck.C154_split_refuted",
    "Puck.C154_exact_partial"
   ],
   "note": "false of the code: a header's value can hold a whole second request (C154_split_refuted, for any two requests); exactly: one line end per header and two more, plus those inside the method, the path, the names and the values (C154_exact_partial)"
  },
  {
   "property": "C155",
   "status": "proved",
   "theorems": [
    "Puck.Chat.C155_newcomer",
    "Puck.Chat.C155_page"
   ],
   "note": "that everything accepted afterwards is shown once delivered is C89 and C140"
  },
  {
   "property": "C156",
   "status": "partial",
   "theorems": [
    "Puck.C156_agree_exact_partial",
    "Puck.C156_changeset_partial",
    "Puck.C156_absent_partial",
    "Puck.C156_views_partial",
    "Puck.C156_agree_refuted"
   ],
   "note": "false of the code for RemoveText, the three insertions, texts of elements with children, and tags and listeners of elements that contain listeners; exactly these (C156_agree_exact_partial; for a tag change in a browser that copies children faithfully); where an element is missing both fail; between two views of a component apply follows wherever the browser does, not conversely"
  },
  {
   "property": "C157",
   "status": "proved",
   "theorems": [
    "Puck.Chat.C157_ids",
    "Puck.Chat.C157_pages"
   ],
   "note": "ids are unbounded naturals here, u64 in the code"
  },
  {
   "property": "C158",
   "status": "partial",
   "theorems": [
    "Puck.C158_request",
    "Puck.C158_response",
    "Puck.C158_body",
    "Puck.C158_frame_exact_partial",
    "Puck.C158_frame_partial",
    "Puck.C158_lost_partial",
    "Puck.C158_retry_partial",
    "Puck.C158_write",
    "Puck.C158_write_calm",
    "Puck.C158_send",
    "Puck.C158_interrupt_refuted"
   ],
   "note": "false of the code for frames: two of the parser's reads are not repeated, and a text message interrupted between header and mask can be read as a close frame (C158_interrupt_refuted); exactly: only before the first byte and between header and mask (C158_frame_exact_partial); proved in full for requests, responses, bodies and everything written"
  },
  {
   "property": "C159",
   "status": "partial",
   "theorems": [
    "Puck.C159_exact_partial",
    "Puck.C159_possible_partial",
    "Puck.C159_decoded_partial",
    "Puck.C159_recover_refuted"
   ],
   "note": "false of the code: the beginning of a frame stays on the connection and swallows the next message (C159_recover_refuted); exactly what can be left on the connection (C159_exact_partial, C159_possible_partial); true when a failed send has left nothing (C159_decoded_partial); on connections that never recover it is C02"
  },
  {
   "property": "C160",
   "status": "partial",
   "theorems": [
    "Puck.C160_frame_partial",
    "Puck.C160_frame_exact_partial",
    "Puck.C160_message_partial",
    "Puck.C160_socket_partial",
    "Puck.C160_client",
    "Puck.C160_request_exact_partial",
    "Puck.C160_request_partial",
    "Puck.C160_response_exact_partial",
    "Puck.C160_text_exact_partial",
    "Puck.C160_list_partial",
    "Puck.C160_word_refuted",
    "Puck.C160_http_refuted"
   ],
   "note": "false of the code: five of 2^32+5 announced bytes are a message on 32 bits and an error on 64, and 2^31 announced bytes a panic (C160_word_refuted); a declared body of 2^31 bytes panics on 32 bits only, one of 2^32 is undeclared there (C160_http_refuted). Exactly for frames with an announced length beyond the smaller machine (C160_frame_exact_partial), for requests, responses and bodies read as text; the same for everything below, in particular for conforming clients with frames under 2 GiB (C160_client)"
  },
  {
   "property": "C161",
   "status": "partial",
   "theorems": [
    "Puck.Json.C161_page_partial",
    "Puck.Json.C161_returned_partial",
    "Puck.Json.C161_texts_iff_partial",
    "Puck.Json.C161_made_up_refuted"
   ],
   "note": "false of the code: perform_diff moves old_dom ahead although the message was lost, and the page then shows what is no view in any state, for a component whose changes the browser can all follow (C161_made_up_refuted, over the bytes).  Proved, over the bytes: the page is exactly the one that the changesets which were sent lead to, and it shows the current render if the view after the loss is the one before it; and where only texts change, exactly if every text which the lost changes left different has been changed again since (C161_texts_iff_partial)."
  }
 ]
}