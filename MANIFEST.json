{
 "claims": [
  {
   "property": "C01",
   "status": "proved",
   "theorems": [
    "Xi.C01_history",
    "Xi.C01_apply_delta",
    "Xi.C01_delete_from"
   ],
   "note": "All histories of from_str, concat, +, slice, edit and tree-builder operations (RopeExpr), with ranges in bounds and on character boundaries; also Delta::apply and Subset::delete_from on trees."
  },
  {
   "property": "C02",
   "status": "proved",
   "theorems": [
    "Xi.C02_push_leaves",
    "Xi.C02_empty",
    "Xi.C02_balanced",
    "Xi.C02_caches"
   ],
   "note": "Same histories as C01: no panic, balanced, leaf sizes, logarithmic height, correct caches."
  },
  {
   "property": "C03",
   "status": "proved",
   "theorems": [
    "Xi.C03_leaves_utf8",
    "Xi.C03_bulk_split",
    "Xi.C03_merge_split"
   ],
   "note": "All leaves of all histories; both split functions."
  },
  {
   "property": "C04",
   "status": "proved",
   "theorems": [
    "Xi.C04_line_of_offset",
    "Xi.C04_offset_of_line",
    "Xi.C04_offset_of_line_end",
    "Xi.C04_out_of_range"
   ],
   "note": "All balanced ropes (every history yields one, C02); offsets on character boundaries. C04_out_of_range shows that the documented panic beyond the end does not happen on ropes of several leaves."
  },
  {
   "property": "C05",
   "status": "proved",
   "theorems": [
    "Xi.C05_line_of_start",
    "Xi.C05_offset_in_line"
   ],
   "note": "All balanced ropes. LogicalLines in line_offset.rs forwards to these functions."
  },
  {
   "property": "C06",
   "status": "proved",
   "theorems": [
    "Xi.C06_chunks",
    "Xi.C06_lines_raw",
    "Xi.C06_lines_shape",
    "Xi.C06_lines",
    "Xi.C06_slice_to_cow",
    "Xi.C06_to_string",
    "Xi.C06_byte_at"
   ],
   "note": "All balanced ropes and ranges on character boundaries; chunks, raw lines, lines, slice_to_cow, String::from, byte_at."
  },
  {
   "property": "C07",
   "status": "proved",
   "theorems": [
    "Xi.C07_subset_equality_is_pointwise"
   ],
   "note": "Structural equality of reachable subsets is pointwise equality."
  },
  {
   "property": "C08",
   "status": "proved",
   "theorems": [
    "Xi.C08_subset_algebra_pointwise",
    "Xi.C08_delete_and_counts"
   ],
   "note": "Algebra of subsets, deletion and counts."
  },
  {
   "property": "C09",
   "status": "proved",
   "theorems": [
    "Xi.C09_transform_roundtrip",
    "Xi.C09_expand_deletes"
   ],
   "note": "Transform round trips."
  },
  {
   "property": "C10",
   "status": "proved",
   "theorems": [
    "Xi.C10_mapper_counts",
    "Xi.C10_mapper_monotone_only"
   ],
   "note": "Mapper answers for monotone query sequences; panics otherwise."
  },
  {
   "property": "C11",
   "status": "proved",
   "theorems": [
    "Xi.C11_factor_apply"
   ],
   "note": "factor / apply of all well-formed deltas."
  },
  {
   "property": "C12",
   "status": "proved",
   "theorems": [
    "Xi.C12_synthesize"
   ],
   "note": "synthesize for all union texts and pairs of subsets."
  },
  {
   "property": "C13",
   "status": "proved",
   "theorems": [
    "Xi.C13_builder",
    "Xi.C13_simple_edit",
    "Xi.C13_summary",
    "Xi.C13_classification",
    "Xi.C13_inserts_len",
    "Xi.C13_inserts_nothing"
   ],
   "note": "Builder, simple edits, summary and classification."
  },
  {
   "property": "C14",
   "status": "proved",
   "theorems": [
    "Xi.C14_transform_monotone",
    "Xi.C14_transform_tracks_characters",
    "Xi.C14_untouched_is_unchanged"
   ],
   "note": "Transformer; offsets with after=true follow the character at the offset, with after=false the character before it."
  },
  {
   "property": "C15",
   "status": "proved",
   "theorems": [
    "Xi.C15_transform_expand",
    "Xi.C15_order",
    "Xi.C15_transform_shrink",
    "Xi.C15_expand_shrink"
   ],
   "note": "transform_expand and transform_shrink of insertion edits, with order."
  },
  {
   "property": "C16",
   "status": "proved",
   "theorems": [
    "Xi.C16_concurrent_insertions_converge"
   ],
   "note": "Diamond property of concurrent insertions."
  },
  {
   "property": "C17",
   "status": "partial",
   "theorems": [
    "Xi.C17_deletions_refuted",
    "Xi.C17_regions_partial"
   ],
   "note": "Refuted for edits that replace text (C17_deletions_refuted); inserted regions hold for all edits, deleted regions for edits that do not delete where they insert."
  },
  {
   "property": "C18",
   "status": "proved",
   "theorems": [
    "Xi.C18_head_edit"
   ],
   "note": "All reachable states (edits, stale edits, undos, garbage collections under the editor's condition), all well-formed edits; an edit in an undone group leaves the text unchanged."
  },
  {
   "property": "C19",
   "status": "partial",
   "theorems": [
    "Xi.C19_consistent",
    "Xi.C19_no_panic",
    "Xi.C19_gc_panics_without_condition",
    "Xi.C19_replicas",
    "Xi.C19_network"
   ],
   "note": "Consistency and absence of panics in all reachable states, with gc restricted to the condition stated in editor.rs:106-107. Without that condition the engine panics (C19_gc_panics_without_condition). Also in all states of replicas that edit and merge (C19_replicas for two, C19_network for any number with priorities of their own); merge panics on Undo revisions, so undo and merge are not mixed."
  },
  {
   "property": "C20",
   "status": "proved",
   "theorems": [
    "Xi.C20_revisions_read_back"
   ],
   "note": "Over all later edits and undos; revisions with equal tokens are excluded by hypothesis. Garbage collection is treated in C25."
  },
  {
   "property": "C21",
   "status": "proved",
   "theorems": [
    "Xi.C21_delta_to_head"
   ],
   "note": "All reachable states and retained revisions."
  },
  {
   "property": "C22",
   "status": "proved",
   "theorems": [
    "Xi.C22_stale_edit"
   ],
   "note": "All reachable states, retained base revisions and well-formed edits."
  },
  {
   "property": "C23",
   "status": "proved",
   "theorems": [
    "Xi.C23_account",
    "Xi.C23_undo_since"
   ],
   "note": "Character-by-character account of all reachable states, and the corollary that undoing everything since a state restores it."
  },
  {
   "property": "C24",
   "status": "proved",
   "theorems": [
    "Xi.C24_order_independent",
    "Xi.C24_redo_restores"
   ],
   "note": "Text depends only on the set of undone groups; redo restores."
  },
  {
   "property": "C25",
   "status": "partial",
   "theorems": [
    "Xi.C25_revisions_not_kept",
    "Xi.C25_gc_invisible_partial"
   ],
   "note": "Current text, head revision and later undos are unaffected; the clause on older revisions is refuted by a concrete history (C25_revisions_not_kept)."
  },
  {
   "property": "C26",
   "status": "proved",
   "theorems": [
    "Xi.C26_bad_base_rejected"
   ],
   "note": "All reachable states; for lengths, all well-formed edits."
  },
  {
   "property": "C27",
   "status": "proved",
   "theorems": [
    "Xi.C27_same_edits_same_text",
    "Xi.C27_merge_converges",
    "Xi.Editor.C27_merge_new_state"
   ],
   "note": "All states that two replicas can reach by edits (also against old revisions) and merges in any order. Histories with undo are outside: merge panics on Undo revisions."
  },
  {
   "property": "C28",
   "status": "proved",
   "theorems": [
    "Xi.C28_merge_adds_missing",
    "Xi.C28_nothing_new"
   ],
   "note": "Same histories as C27; merge never panics there."
  },
  {
   "property": "C29",
   "status": "proved",
   "theorems": [
    "Xi.C29_bounded",
    "Xi.C29_one_place",
    "Xi.C29_undone_groups",
    "Xi.C29_undo_step",
    "Xi.C29_redo_step",
    "Xi.C29_new_branch",
    "Xi.Editor.C29_active_group",
    "Xi.Editor.C29_in_flight"
   ],
   "note": "For all sequences of inputs (commands, recordings, undo, redo, plugin edits with any group, acknowledgements, saves, reloads) that do not panic; what the texts are, and where it panics, is C71. merge_new_state (remote peers) is not among the inputs."
  },
  {
   "property": "C30",
   "status": "partial",
   "theorems": [
    "Xi.C30_pristine_partial",
    "Xi.C30_refuted",
    "Xi.C30_saved",
    "Xi.C30_save_sets",
    "Xi.C30_load_sets",
    "Xi.C30_equivalent_same_text",
    "Xi.C30_unknown_revision"
   ],
   "note": "Flag truthful as long as no group has been collected since the save, and set right after a save; refuted after a collection, by a history of ordinary commands (C30_refuted). C30_equivalent_same_text and C30_unknown_revision are the engine part."
  },
  {
   "property": "C31",
   "status": "partial",
   "theorems": [
    "Xi.IndexSet.C31_add",
    "Xi.IndexSet.C31_delete",
    "Xi.IndexSet.C31_minus",
    "Xi.IndexSet.C31_next",
    "Xi.IndexSet.C31_next_back_partial",
    "Xi.IndexSet.C31_next_back_refuted",
    "Xi.IndexSet.C31_edit",
    "Xi.IndexSet.C31_sorted"
   ],
   "note": "All sets (Reachable) and non-empty added ranges: add, delete, missing ranges forwards, mapping through edits. C31_next_back_refuted: backwards iteration reports indices beyond the interval when a stored range begins beyond its end; it is right otherwise."
  },
  {
   "property": "C32",
   "status": "partial",
   "theorems": [
    "Xi.Selection.C32_add",
    "Xi.Selection.C32_add_bytes",
    "Xi.Selection.C32_add_within",
    "Xi.Selection.C32_range_partial",
    "Xi.Selection.C32_range_refuted",
    "Xi.Selection.C32_delete_partial",
    "Xi.Selection.C32_delete_refuted",
    "Xi.Selection.C32_delete_adjacent_partial",
    "Xi.Selection.C32_distinct_partial",
    "Xi.Selection.C32_distinct_refuted",
    "Xi.Selection.C32_distinct_invariant_refuted",
    "Xi.Selection.C32_edit",
    "Xi.Selection.C32_drift",
    "Xi.Selection.C32_sorted"
   ],
   "note": "All selections: add_region (merging, bytes, nothing lost), mapping through edits with any drift, sortedness for every history without add_range_distinct. Refuted: regions_in_range misses a region that begins at the end of the range; delete_range panics on an empty range at a caret; add_range_distinct panics on an existing caret and breaks the invariant when a caret follows a region. Each has a partial theorem saying when it is right."
  },
  {
   "property": "C33",
   "status": "proved",
   "theorems": [
    "Xi.C33_edit",
    "Xi.C33_invalidate"
   ],
   "note": "All shadows (partial invalidation: without empty spans, which the builder never makes) and all ranges with start at or before end."
  },
  {
   "property": "C34",
   "status": "partial",
   "theorems": [
    "Xi.C34_create",
    "Xi.C34_request_partial",
    "Xi.C34_request_refuted"
   ],
   "note": "All heights, scroll positions and window sizes; requests with start at or before end. C34_request_refuted: a request with its ends the wrong way round, which nothing checks, crashes the core."
  },
  {
   "property": "C35",
   "status": "proved",
   "theorems": [
    "Xi.C35_history",
    "Xi.C35_count",
    "Xi.C35_offset_of_break",
    "Xi.C35_inverse",
    "Xi.C35_iter",
    "Xi.C35_prev"
   ],
   "note": "All histories of new_no_break, BreakBuilder, concat, slice and edit (BreaksExpr) with ranges in bounds and lines that are not empty: count, count_base_units, their inverse relation, cursor iteration and prev."
  },
  {
   "property": "C36",
   "status": "proved",
   "theorems": [
    "Xi.C36_spans",
    "Xi.C36_merge",
    "Xi.C36_build",
    "Xi.C36_edit",
    "Xi.C36_delete_after",
    "Xi.C36_delete_after_refuted",
    "Xi.C36_transform",
    "Xi.C36_overlap_refuted"
   ],
   "note": "All spans made by any nesting of the operations, all merge functions, transform and delete_after. The very list of spans after build, delete_after, and edit of an interval that cuts no span: C36_build, C36_delete_after, C36_edit. Refuted on the side: C36_delete_after_refuted (the comment of delete_after promises more than it does) and C36_overlap_refuted (spans that overlap satisfy the documented precondition of add_span but make merge panic)."
  },
  {
   "property": "C37",
   "status": "partial",
   "theorems": [
    "Xi.C37_apply",
    "Xi.C37_apply_partial",
    "Xi.C37_panic_refuted",
    "Xi.C37_commit_partial",
    "Xi.C37_commit_refuted"
   ],
   "note": "Apply: all pairs of balanced ropes for which compute_delta does not panic, and it does not under LastBytesApart. Commit: if the copies ascend. Refuted: C37_panic_refuted (compute_delta panics on \"é\" and \"Щ\") and C37_commit_refuted (a repeated long line is copied twice and the second copy is lost when the delta is committed, as Editor::reload does)."
  },
  {
   "property": "C38",
   "status": "proved",
   "theorems": [
    "Xi.C38_find",
    "Xi.C38_new",
    "Xi.C38_progress",
    "Xi.C38_resume",
    "Xi.C38_chunking"
   ],
   "note": "All ropes, patterns, cursors reached by earlier searches, and step counts. find needs a text shorter than 2^64-1 bytes (its step limit)."
  },
  {
   "property": "C39",
   "status": "partial",
   "theorems": [
    "Xi.C39_net_partial",
    "Xi.C39_undo_refuted",
    "Xi.C39_clean",
    "Xi.C39_merge",
    "Xi.C39_history"
   ],
   "note": "Proved: no undo/redo in a recording, order, merging of insertions, starting/stopping/switching for all command histories. Net effect only where undo and redo come in turn; C39_undo_refuted: two undos in a row drop only one edit."
  },
  {
   "property": "C40",
   "status": "partial",
   "theorems": [
    "Xi.C40_widths_partial",
    "Xi.C40_once_partial",
    "Xi.C40_error_refuted",
    "Xi.C40_short_refuted",
    "Xi.C40_dropped_refuted"
   ],
   "note": "All batches, if the front-end answers every string. Refuted: C40_error_refuted (failed measurement leaves width 0 in the cache), C40_short_refuted, C40_dropped_refuted."
  },
  {
   "property": "C41",
   "status": "proved",
   "theorems": [
    "Xi.C41_split_off",
    "Xi.C41_step",
    "Xi.C41_history",
    "Xi.C41_insertions"
   ],
   "note": "All sequences of operations and limits; every operation against its meaning on lists."
  },
  {
   "property": "C42",
   "status": "proved",
   "theorems": [
    "Xi.C42_new",
    "Xi.C42_update",
    "Xi.C42_update_none",
    "Xi.C42_update_keeps",
    "Xi.C42_source",
    "Xi.C42_get_line",
    "Xi.C42_get_region",
    "Xi.C42_get_document",
    "Xi.C42_offset_of_line",
    "Xi.C42_line_of_offset",
    "Xi.C42_history",
    "Xi.C42_get_region_beyond"
   ],
   "note": "All histories of edits (any well-formed edit that keeps characters whole, or an unknown edit) and reads, with a peer that may fail to answer. Chunks have room for a character. Regions end within the document and at character boundaries; C42_get_region_beyond: a region that ends after the document makes get_region loop for ever."
  },
  {
   "property": "C43",
   "status": "partial",
   "theorems": [
    "Xi.C43_utf8",
    "Xi.C43_insert",
    "Xi.C43_newline",
    "Xi.C43_surround",
    "Xi.C43_transform",
    "Xi.C43_delete",
    "Xi.C43_extract",
    "Xi.C43_delete_by_movement_partial",
    "Xi.C43_indent",
    "Xi.C43_outdent",
    "Xi.C43_outdent_whitespace",
    "Xi.C43_backspace_partial",
    "Xi.C43_tab_partial",
    "Xi.C43_tab",
    "Xi.C43_tab_stop",
    "Xi.C43_number_partial",
    "Xi.C43_number_roundtrip",
    "Xi.C43_duplicate_partial",
    "Xi.C43_transpose_regions",
    "Xi.C43_transpose_caret_partial",
    "Xi.C43_backspace_single",
    "Xi.C43_number_single",
    "Xi.C43_tab_single",
    "Xi.C43_backspace_refuted",
    "Xi.C43_backspace_crlf_refuted",
    "Xi.C43_tab_refuted",
    "Xi.C43_number_refuted",
    "Xi.C43_duplicate_last_refuted",
    "Xi.C43_duplicate_newline_refuted",
    "Xi.C43_transpose_newline_refuted",
    "Xi.C43_transpose_last_refuted",
    "Xi.C43_transpose_carets_refuted",
    "Xi.C43_transpose_mixed_refuted",
    "Xi.C43_capitalize_next_refuted",
    "Xi.C43_capitalize_beyond_refuted",
    "Xi.C43_capitalize_end_refuted",
    "Xi.C43_capitalize_regions_refuted",
    "Xi.C43_capitalize_char_refuted",
    "Xi.C43_tab_backwards_refuted"
   ],
   "note": "Typing, newline, surrounding, transforming, deleting, copying, deleting by movement, indenting and outdenting: all texts and valid selections, any number of regions. Backspace, tab, number change and duplication: exact results, and for backspace, tab and numbers a panic exactly when the replacements for the regions are out of order (never with one region). Transposition: selections without carets, and single carets. Refuted by witnesses: several carets with backspace, tab, numbers, transposition and capitalization; the end of a line with transposition; the last line with duplication; the words after the region with capitalization (C43_..._refuted)."
  },
  {
   "property": "C44",
   "status": "partial",
   "theorems": [
    "Xi.C44_lf",
    "Xi.C44_unknown",
    "Xi.C44_crlf_partial",
    "Xi.C44_crlf_refuted",
    "Xi.C44_chunking_refuted",
    "Xi.C44_gcd",
    "Xi.C44_indent_shape",
    "Xi.C44_indent_tabs",
    "Xi.C44_indent_spaces",
    "Xi.C44_indent_mixed"
   ],
   "note": "LF documents, unknown, and indentation: all ropes. CRLF only if no chunk ends between the two characters; C44_crlf_refuted: a loaded document with one CRLF is reported as mixed."
  },
  {
   "property": "C45",
   "status": "proved",
   "theorems": [
    "Xi.C45_prev_start",
    "Xi.C45_next_end",
    "Xi.C45_prev",
    "Xi.C45_next",
    "Xi.C45_select",
    "Xi.C45_visits_ends",
    "Xi.C45_visits_starts",
    "Xi.C45_select_word"
   ],
   "note": "All texts and offsets on character boundaries: the stops of prev_boundary and next_boundary are exactly the word starts and ends, select_word exactly the run around the cursor."
  },
  {
   "property": "C46",
   "status": "proved",
   "theorems": [
    "Xi.C46_backspace",
    "Xi.C46_start",
    "Xi.C46_selection",
    "Xi.C46_tab_size_needed",
    "Xi.C46_flags",
    "Xi.C46_ordinary",
    "Xi.C46_tab_size"
   ],
   "note": "All texts, carets on character boundaries, all selections and tab sizes above 0: the stretch removed is one unit of an independent grammar, or the run of spaces back to the tab stop. The configuration never gives a tab size of 0 (C46_tab_size: whatever is done to it); C46_tab_size_needed says what would happen."
  },
  {
   "property": "C47",
   "status": "partial",
   "theorems": [
    "Xi.C47_fresh",
    "Xi.C47_accounted",
    "Xi.C47_once",
    "Xi.C47_written",
    "Xi.C47_truthful",
    "Xi.C47_response",
    "Xi.C47_unmatched",
    "Xi.C47_reader",
    "Xi.C47_disconnect",
    "Xi.C47_awaiting_partial",
    "Xi.C47_order",
    "Xi.C47_replies",
    "Xi.C47_classified",
    "Xi.C47_lines",
    "Xi.C47_into_response",
    "Xi.C47_reader_crash_partial",
    "Xi.C47_main_crash_partial",
    "Xi.C47_end",
    "Xi.C47_exit",
    "Xi.C47_timers",
    "Xi.C47_messages_first",
    "Xi.C47_timers_first",
    "Xi.C47_error_roundtrip_partial",
    "Xi.C47_crash_refuted",
    "Xi.C47_stuck_refuted",
    "Xi.C47_race_refuted",
    "Xi.C47_request_id_refuted",
    "Xi.C47_error_roundtrip_refuted"
   ],
   "note": "For all schedules of reader, main loop and senders, and all messages: fresh numbers (until the counter wraps), every request in exactly one place and answered at most once by its own handler, every answer with its reason, unmatched responses ignored, the table emptied on disconnect, messages and replies in order, timers. Refuted: malformed messages never crash (C47_crash_refuted: an id that is not a number without a method), disconnect fails all outstanding requests (C47_stuck_refuted, C47_race_refuted: the caller waits for ever), requests with a non-numeric id (C47_request_id_refuted), round trip of some errors (C47_error_roundtrip_refuted). The parts that hold are the _partial theorems."
  },
  {
   "property": "C48",
   "status": "partial",
   "theorems": [
    "Xi.C48_needs_wrap",
    "Xi.C48_add_task",
    "Xi.C48_after_wrap",
    "Xi.C48_next_task",
    "Xi.C48_after_edit",
    "Xi.C48_after_edit_exact_partial",
    "Xi.C48_after_edit_refuted"
   ],
   "note": "All task lists: adding a task and finishing a wrap change the pending set exactly as required; after an edit no pending place is ever forgotten, and the pending set is exact when tasks are in order. C48_after_edit_refuted: with tasks out of order places that need no work become pending."
  },
  {
   "property": "C49",
   "status": "proved",
   "theorems": [
    "Xi.C49_membership",
    "Xi.C49_intersect_prefix_suffix",
    "Xi.C49_union",
    "Xi.C49_translate"
   ],
   "note": "All intervals."
  },
  {
   "property": "C50",
   "status": "partial",
   "theorems": [
    "Xi.C50_three_replicas_refuted",
    "Xi.C50_same_edits_same_text_partial",
    "Xi.C50_one_document_partial",
    "Xi.C50_merge_order_partial"
   ],
   "note": "Refuted: three replicas with equal priorities end with three different texts (C50_three_replicas_refuted). For two replicas it holds (C27), and for any number of replicas if each has priorities of its own: same state for the same edits, one document of which every replica shows the part it knows, no panic (the _partial theorems)."
  },
  {
   "property": "C51",
   "status": "proved",
   "theorems": [
    "Xi.C51_utf16_count",
    "Xi.C51_utf16_offset",
    "Xi.C51_utf16_inverse"
   ],
   "note": "All balanced ropes."
  },
  {
   "property": "C52",
   "status": "partial",
   "theorems": [
    "Xi.C52_cursor_calls",
    "Xi.C52_step_total",
    "Xi.C52_is_codepoint_boundary",
    "Xi.C52_prev_codepoint_offset",
    "Xi.C52_next_codepoint_offset",
    "Xi.C52_at_or_prev_codepoint",
    "Xi.C52_at_or_next_refuted",
    "Xi.C52_at_or_next_partial",
    "Xi.C52_iter_lines"
   ],
   "note": "All sequences of calls on cursors over balanced ropes (moving forward by characters only from a character boundary). at_or_next_codepoint_boundary is refuted for offsets inside a character: it returns a place beyond the end or inside another character."
  },
  {
   "property": "C53",
   "status": "proved",
   "theorems": [
    "Xi.C53_line_of_offset",
    "Xi.C53_offset_of_line",
    "Xi.C53_line_unique",
    "Xi.C53_inverse",
    "Xi.C53_iter_lines"
   ],
   "note": "All balanced ropes and break trees of the same length whose breaks are on character boundaries and never at a newline (Agree); iter_lines for start lines that exist and no soft break at the very end of the text."
  },
  {
   "property": "C54",
   "status": "partial",
   "theorems": [
    "Xi.C54_converged_partial",
    "Xi.C54_done_partial",
    "Xi.C54_plain_partial",
    "Xi.C54_agree_partial",
    "Xi.C54_chunk_safe_partial",
    "Xi.C54_edit_safe_partial",
    "Xi.C54_history_partial",
    "Xi.C54_ends_partial",
    "Xi.C54_width_order_partial",
    "Xi.C54_chunk_order_partial",
    "Xi.C54_edit_order_partial",
    "Xi.C54_order_refuted"
   ],
   "note": "All wrapping rules and histories in which edits happen while the tasks are in order (always so when no work is pending; setting the width and background work keep the order). C54_order_refuted: a reachable state with tasks out of order in which an edit panics (debug assertion). Where to break a single logical line is an arbitrary rule; C68 shows which one the code uses."
  },
  {
   "property": "C55",
   "status": "partial",
   "theorems": [
    "Xi.C55_chunk_partial",
    "Xi.C55_edit_partial",
    "Xi.C55_edit_refuted"
   ],
   "note": "rewrap_chunk always reports correctly; after_edit does when no work was pending or there is no wrapping. C55_edit_refuted: an edit inside text not wrapped yet gets a wrong report."
  },
  {
   "property": "C56",
   "status": "partial",
   "theorems": [
    "Xi.C56_find_partial",
    "Xi.C56_progress_partial",
    "Xi.C56_upper_refuted",
    "Xi.C56_sigma_refuted"
   ],
   "note": "Patterns without a capital sigma whose first character is its own lower case or has an ASCII lower case, for all case tables that satisfy CaseTable.Ok. Refuted otherwise: C56_upper_refuted (the scanner looks for the first character of the pattern as given, find.rs:140, so \"É\" is not found in \"É\") and C56_sigma_refuted (final sigma only in the pattern)."
  },
  {
   "property": "C57",
   "status": "partial",
   "theorems": [
    "Xi.C57_render_partial",
    "Xi.C57_request_partial",
    "Xi.C57_ghost_refuted",
    "Xi.C57_clean_refuted",
    "Xi.C57_empty_refuted"
   ],
   "note": "All histories of edits, invalidations, set_dirty, renderings and requests from the first set_dirty on: no crash, applicable updates, right number of lines, right window, no stale text or styles. Refuted: C57_ghost_refuted (with the documented meaning of a missing cursor property a moved caret stays on screen), C57_clean_refuted (cursors outside the window are not kept up to date although the shadow is clean), C57_empty_refuted (an empty request sends an operation with n = 0). That the edits of the shadow match the edits of the lines is C55."
  },
  {
   "property": "C58",
   "status": "partial",
   "theorems": [
    "Xi.C58_layers_partial",
    "Xi.C58_last_wins",
    "Xi.C58_length_refuted",
    "Xi.C58_panic_refuted"
   ],
   "note": "All histories in which no edit has its range, in the old text, end beyond the end of the new text. Refuted otherwise: C58_length_refuted (deleting the end of the text leaves merged styles of the old length) and C58_panic_refuted (with two plugins it can crash), because update_all uses the old range after the spans have been changed."
  },
  {
   "property": "C59",
   "status": "partial",
   "theorems": [
    "Xi.C59_styles_partial",
    "Xi.C59_orphan_refuted",
    "Xi.C59_root_refuted",
    "Xi.C59_stale_refuted",
    "Xi.C59_empty_refuted"
   ],
   "note": "Stacks defined after their parents, themes that say nothing about root scopes alone. Refuted: C59_root_refuted and C59_orphan_refuted (a stack with no cached prefix is never given to the theme), C59_stale_refuted (the cache survives a change of theme), C59_empty_refuted (an empty stack crashes)."
  },
  {
   "property": "C60",
   "status": "proved",
   "theorems": [
    "Xi.C60_forward",
    "Xi.C60_forward_agree",
    "Xi.C60_backward"
   ],
   "note": "All byte strings and all bytes behind them. That reading them is undefined behaviour in Rust is outside the model."
  },
  {
   "property": "C61",
   "status": "partial",
   "theorems": [
    "Xi.C61_forward",
    "Xi.C61_backward_partial",
    "Xi.C61_new",
    "Xi.C61_min_diff_range",
    "Xi.C61_backward_refuted"
   ],
   "note": "Forwards exactly, for all ropes, offsets and limits. Backwards under LastBytesApart; C61_backward_refuted: without it the run may begin inside a character (\"é\" and \"Щ\")."
  },
  {
   "property": "C62",
   "status": "proved",
   "theorems": [
    "Xi.C62_longest",
    "Xi.C62_empty_refuted"
   ],
   "note": "All non-empty lists of matches. C62_empty_refuted: on no matches it would panic, but it is not called then."
  },
  {
   "property": "C63",
   "status": "proved",
   "theorems": [
    "Xi.C63_search",
    "Xi.C63_emoji",
    "Xi.C63_modifier_base",
    "Xi.C63_base_is_emoji"
   ],
   "note": "All characters; the search for all ascending lists."
  },
  {
   "property": "C64",
   "status": "proved",
   "theorems": [
    "Xi.C64_class",
    "Xi.C64_in_text"
   ],
   "note": "All characters and all texts."
  },
  {
   "property": "C65",
   "status": "proved",
   "theorems": [
    "Xi.C65_breaks",
    "Xi.C65_end",
    "Xi.C65_hard"
   ],
   "note": "All texts; hard breaks characterised exactly."
  },
  {
   "property": "C66",
   "status": "partial",
   "theorems": [
    "Xi.C66_rules_partial",
    "Xi.C66_text_partial",
    "Xi.C66_refuted",
    "Xi.C66_refuted_close",
    "Xi.C66_refuted_open",
    "Xi.C66_refuted_hebrew"
   ],
   "note": "Refuted in general by concrete texts (C66_refuted: an emoji joined by a zero width joiner is broken; C66_refuted_close, C66_refuted_open, C66_refuted_hebrew). Proved for every position that is not one of three odd pairs and whose history has none of the spaces that confuse the machine, and for whole texts without these."
  },
  {
   "property": "C67",
   "status": "partial",
   "theorems": [
    "Xi.C67_leaves",
    "Xi.C67_whole",
    "Xi.C67_resume_partial",
    "Xi.C67_resume_refuted"
   ],
   "note": "First part in full (C67_leaves, C67_whole). Resuming at a break is proved unless a zero width joiner follows the break; C67_resume_refuted gives a text where a cursor started at a line finds other breaks than one started before it."
  },
  {
   "property": "C68",
   "status": "partial",
   "theorems": [
    "Xi.C68_longest",
    "Xi.C68_rest",
    "Xi.C68_rule",
    "Xi.C68_run_partial",
    "Xi.C68_converged_partial",
    "Xi.C68_chunk_safe_partial",
    "Xi.C68_edit_safe_partial",
    "Xi.C68_joiner_refuted"
   ],
   "note": "What filling means (C68_longest, C68_rest, C68_rule) is proved in full. That the code does it is proved for texts without a zero width joiner at the start of a line, and edits with tasks in order as in C54. C68_joiner_refuted: with such a joiner the final breaks depend on the history."
  },
  {
   "property": "C69",
   "status": "partial",
   "theorems": [
    "Xi.C69_lines",
    "Xi.C69_offset_to_line_col",
    "Xi.C69_line_col_to_offset",
    "Xi.C69_line_col_beyond",
    "Xi.C69_place_on_line",
    "Xi.C69_line_col_roundtrip",
    "Xi.C69_region_partial",
    "Xi.C69_right_left",
    "Xi.C69_down_up",
    "Xi.C69_selection_partial",
    "Xi.C69_exact_refuted",
    "Xi.C69_exact_last_refuted",
    "Xi.C69_kill_refuted",
    "Xi.C69_start_of_paragraph_refuted",
    "Xi.C69_paragraph_inside"
   ],
   "note": "All movements, with the assumptions on grapheme clusters in Graphemes.Ok (the crate that finds them is not modelled); the exact vertical movements where movement.rs:114 does not underflow. Four descriptions are refuted by witnesses: C69_exact_refuted (underflow), C69_exact_last_refuted (a last line that is just long enough is passed over), C69_kill_refuted (nothing is killed on a last line without newline), C69_start_of_paragraph_refuted (from the start of a line it goes to the line before)."
  },
  {
   "property": "C70",
   "status": "partial",
   "theorems": [
    "Xi.C70_new",
    "Xi.C70_update_places",
    "Xi.C70_unknown_places",
    "Xi.C70_set",
    "Xi.C70_get_prev",
    "Xi.C70_reset",
    "Xi.C70_before_pending",
    "Xi.C70_done",
    "Xi.C70_highlight",
    "Xi.C70_finishes",
    "Xi.C70_update_partial",
    "Xi.C70_unknown",
    "Xi.C70_safe_when_done",
    "Xi.C70_safe_one",
    "Xi.C70_safe_after",
    "Xi.C70_places",
    "Xi.C70_history_partial",
    "Xi.C70_refuted",
    "Xi.C70_newline_refuted",
    "Xi.C70_no_answer_refuted",
    "Xi.C70_frontier_refuted",
    "Xi.C70_idle_refuted"
   ],
   "note": "Places and offsets of the cached states, set, get and get_prev, and that highlighting neither crashes nor misplaces a state: for all histories, with a peer that may fail. That no wrong state is left when nothing is pending: for edits that do not lose a pending line (C70_history_partial with SafeDelta; C70_safe_when_done, C70_safe_one and C70_safe_after give cases), and a peer that answers. In general the claim is false: C70_refuted (patchup_frontier drops a pending line after two edits before it), C70_newline_refuted (one pending line and a new line before it), C70_no_answer_refuted, C70_frontier_refuted (pending lines out of order or beyond the document), C70_idle_refuted (idle stops with a line still pending)."
  },
  {
   "property": "C71",
   "status": "partial",
   "theorems": [
    "Xi.C71_stack_partial",
    "Xi.C71_no_panic_partial",
    "Xi.C71_open",
    "Xi.C71_stack_bounded",
    "Xi.C71_undo_restores_partial",
    "Xi.C71_plugin_group_refuted",
    "Xi.C71_empty_recordings_refuted",
    "Xi.C71_undone_plugin_edit_refuted",
    "Xi.C71_undo_in_recording_refuted"
   ],
   "note": "For all histories as described by Legal: plugin edits without a group of their own naming, recordings without undo or redo that edit something. Outside it is refuted: plugin edits that name an older group, and recordings that edit nothing, lead to a panic; edits in an undone group vanish."
  },
  {
   "property": "C72",
   "status": "partial",
   "theorems": [
    "Xi.C72_exact_unique",
    "Xi.C72_exact_complete",
    "Xi.C72_search_sound",
    "Xi.C72_search_exact",
    "Xi.C72_find_all",
    "Xi.C72_new_query",
    "Xi.C72_edit_sound_partial",
    "Xi.C72_edit_missed_refuted",
    "Xi.C72_edit_lost_refuted",
    "Xi.C72_edit_bogus_refuted",
    "Xi.C72_edit_caret_refuted",
    "Xi.C72_whole_words_refuted",
    "Xi.C72_whole_words_stale_refuted",
    "Xi.C72_whole_words_panic_refuted",
    "Xi.C72_debug_refuted"
   ],
   "note": "For plain searches (Regular: all that regard case; those that ignore it if the pattern has no sigma and begins with a lower-case letter or one with an ASCII lower case, as for C56): soundness of every search, end and exactness of the incremental search, soundness after edits that delete nothing where they insert, or are not close to the end of the text. Refuted: matches missed or lost after an edit (C72_edit_missed_refuted, C72_edit_lost_refuted), bogus highlights after a replacement at the end (C72_edit_bogus_refuted, C72_edit_caret_refuted), whole words (missed, stale, and a panic for words that begin or end with a character outside ASCII), and a failing debug assertion (C72_debug_refuted). Regular expressions are not modelled."
  },
  {
   "property": "C73",
   "status": "partial",
   "theorems": [
    "Xi.C73_next",
    "Xi.C73_next_around",
    "Xi.C73_next_turn",
    "Xi.C73_next_first",
    "Xi.C73_prev_partial",
    "Xi.C73_prev_turn_partial",
    "Xi.C73_prev_last",
    "Xi.C73_wrap_refuted",
    "Xi.C73_closest",
    "Xi.C73_closest_prev",
    "Xi.C73_cycle",
    "Xi.C73_add",
    "Xi.C73_add_removing",
    "Xi.C73_find_all",
    "Xi.C73_find_all_queries",
    "Xi.C73_closest_refuted",
    "Xi.C73_prev_refuted",
    "Xi.C73_next_refuted",
    "Xi.C73_caret_refuted"
   ],
   "note": "For all occurrences and selections: what find next gives, in turn and around (C73_next, C73_next_around, C73_next_turn, C73_next_first, C73_cycle), adding to the selection (C73_add), find all, and the closest of what several queries give. Find previous except next to an occurrence of one byte that touches both neighbours (C73_prev_partial, C73_prev_turn_partial, C73_prev_refuted). Refuted: the wrap_around flag has no effect (C73_wrap_refuted), no way around if the first and last occurrence touch (C73_next_refuted), a caret at the end of an occurrence (C73_caret_refuted), the closest occurrence of several queries (C73_closest_refuted)."
  },
  {
   "property": "C74",
   "status": "partial",
   "theorems": [
    "Xi.Lsp.C74_position",
    "Xi.Lsp.C74_position_beyond",
    "Xi.Lsp.C74_offset",
    "Xi.Lsp.C74_locate_partial",
    "Xi.Lsp.C74_insert_partial",
    "Xi.Lsp.C74_other",
    "Xi.Lsp.C74_delete_beyond",
    "Xi.Lsp.C74_delete_partial",
    "Xi.Lsp.C74_full",
    "Xi.Lsp.C74_none",
    "Xi.Lsp.C74_incremental",
    "Xi.Lsp.C74_incremental_error",
    "Xi.Lsp.C74_delete_refuted",
    "Xi.Lsp.C74_delete_units_refuted",
    "Xi.Lsp.C74_delete_newline_refuted",
    "Xi.Lsp.C74_panic_refuted",
    "Xi.Lsp.C74_insert_refuted",
    "Xi.Lsp.C74_offset_refuted",
    "Xi.Lsp.C74_unanswered_refuted"
   ],
   "note": "Positions and offsets of all places (C74_position, C74_offset, C74_locate_partial), insertions at one place (C74_insert_partial, unless a carriage return without a newline comes before), all edits that are neither an insertion nor a deletion at one place (C74_other), deletions longer than the text after them (C74_delete_beyond), and whole documents (C74_full). Deletions only if the text after them has the same shape (C74_delete_partial), because the end of the range is looked up in the text after the edit: C74_delete_refuted, C74_delete_units_refuted, C74_delete_newline_refuted, and a panic in C74_panic_refuted. Also refuted: carriage returns (C74_insert_refuted), positions beyond the end of a line (C74_offset_refuted), a core that does not answer (C74_unanswered_refuted)."
  },
  {
   "property": "C75",
   "status": "partial",
   "theorems": [
    "Xi.C75_new",
    "Xi.C75_value",
    "Xi.C75_set_partial",
    "Xi.C75_modify_partial",
    "Xi.C75_add",
    "Xi.C75_path_partial",
    "Xi.C75_language_partial",
    "Xi.C75_remove",
    "Xi.C75_languages",
    "Xi.C75_set_no_panic",
    "Xi.C75_modify_no_panic",
    "Xi.C75_buffer_no_panic",
    "Xi.C75_languages_no_panic_partial",
    "Xi.C75_single",
    "Xi.C75_run",
    "Xi.C75_defaults_valid",
    "Xi.C75_from_start",
    "Xi.C75_gone_refuted",
    "Xi.C75_language_default_refuted",
    "Xi.C75_null_refuted",
    "Xi.C75_plain_text_refuted",
    "Xi.C75_always_good"
   ],
   "note": "The stored settings of every buffer are those of the layers after every sequence of operations (C75_new, C75_value, C75_add, C75_remove, C75_languages, C75_run, C75_from_start with the real fields and defaults), at most one buffer is touched by an override (C75_single), no panic for what the client sends (C75_modify_no_panic, C75_set_no_panic, C75_buffer_no_panic). As long as there was no panic the settings of a buffer are complete and acceptable, with no assumption on the operations (C75_always_good). Reports have all keys with a new value (C75_set_partial, C75_modify_partial, C75_path_partial, C75_language_partial) but not the keys that are gone (C75_gone_refuted), and new languages are not reported. Panics: the defaults that come with the plugin of a language are not checked (C75_language_default_refuted; without that C75_languages_no_panic_partial), null in a table that is set as a whole (C75_null_refuted; it can come from a file, C100_nan_refuted). C75_plain_text_refuted: an unknown extension is Plain Text for an opened file and no language for a saved one."
  },
  {
   "property": "C76",
   "status": "partial",
   "theorems": [
    "Xi.C76_told_partial",
    "Xi.C76_stale_refuted",
    "Xi.C76_close_refuted",
    "Xi.C76_gone_refuted"
   ],
   "note": "After every sequence of operations in which settings are not changed while a view waits for its setup, nor a waiting view is saved, closed or given a language, nothing has panicked and every other view knows the value of every setting (C76_told_partial, with the real fields and defaults). Otherwise: settings changed before the idle time are overwritten at the client by the older ones that were put aside (C76_stale_refuted), a view closed before the idle time makes the core panic (C76_close_refuted), and settings that are gone are never reported (C76_gone_refuted)."
  },
  {
   "property": "C77",
   "status": "partial",
   "theorems": [
    "Xi.Files.C77_fail",
    "Xi.Files.C77_save",
    "Xi.Files.C77_works",
    "Xi.Files.C77_load_save",
    "Xi.Files.C77_save_load_partial",
    "Xi.Files.C77_loads",
    "Xi.Files.C77_mark_refuted",
    "Xi.Files.C77_no_panic",
    "Xi.Files.C77_event_keeps",
    "Xi.Files.C77_overwrite_partial",
    "Xi.Files.C77_pristine_partial",
    "Xi.Files.C77_race_refuted",
    "Xi.Files.C77_twice_refuted",
    "Xi.Files.C77_new_refuted",
    "Xi.Files.C77_time_refuted",
    "Xi.Files.C77_swap_refuted",
    "Xi.Files.C77_removed_refuted",
    "Xi.Files.C77_text_for_save",
    "Xi.Files.C77_text_for_save_twice",
    "Xi.Files.C77_text_for_save_bytes"
   ],
   "note": "Loading and saving are inverse (C77_load_save, C77_loads; C77_save_load_partial: not for a new text that begins with the mark, C77_mark_refuted). The text saved is the buffer with the line ending added once (C77_text_for_save, C77_text_for_save_twice, C77_text_for_save_bytes, on ropes). A failed save leaves the file alone (C77_fail), one that works has the text and changes no other file but the temporary one (C77_save, C77_works). No panic (C77_no_panic), edits are kept (C77_event_keeps), both for all runs. If a file is open in one buffer, changes by other programs have new times, their events have come, and the temporary file is not open: nothing unseen is overwritten (C77_overwrite_partial) and unmodified buffers have the text of the file, up to a line ending (C77_pristine_partial). Otherwise contents are lost: C77_race_refuted, C77_twice_refuted, C77_new_refuted, C77_time_refuted, C77_swap_refuted, C77_removed_refuted."
  },
  {
   "property": "C78",
   "status": "partial",
   "theorems": [
    "Xi.Gesture.C78_unit",
    "Xi.Gesture.C78_click",
    "Xi.Gesture.C78_click_multi",
    "Xi.Gesture.C78_deselect_partial",
    "Xi.Gesture.C78_toggle",
    "Xi.Gesture.C78_drag",
    "Xi.Gesture.C78_drags",
    "Xi.Gesture.C78_extend",
    "Xi.Gesture.C78_extend_twice",
    "Xi.Gesture.C78_split_partial",
    "Xi.Gesture.C78_select_all",
    "Xi.Gesture.C78_collapse",
    "Xi.Gesture.C78_gesture_place",
    "Xi.Gesture.C78_goto_line",
    "Xi.Gesture.C78_move",
    "Xi.Gesture.C78_add_selection",
    "Xi.Gesture.C78_keeps_partial",
    "Xi.Gesture.C78_session_partial",
    "Xi.Gesture.C78_split_loses_refuted",
    "Xi.Gesture.C78_split_grows_refuted",
    "Xi.Gesture.C78_split_panics_refuted",
    "Xi.Gesture.C78_scroll_refuted",
    "Xi.Gesture.C78_height_refuted",
    "Xi.Gesture.C78_click_refuted",
    "Xi.Gesture.C78_shift_click",
    "Xi.Gesture.C78_translate",
    "Xi.Gesture.C78_deselect_refuted",
    "Xi.Gesture.C78_drag_refuted",
    "Xi.Gesture.C78_stale_drag_refuted",
    "Xi.Gesture.C78_for_edit"
   ],
   "note": "From a new view on, every sequence of events keeps a non-empty, sorted, disjoint selection between characters of the text, without a panic (C78_keeps_partial, C78_session_partial), apart from scrolls to an empty range (C78_scroll_refuted, C78_height_refuted), exact-column movements from an empty last line (C69) and splits of regions that do not end at the end of a line (C78_split_loses_refuted, C78_split_grows_refuted, C78_split_panics_refuted; for others C78_split_partial gives the lines). A click selects the unit of text at its place (C78_unit, C78_click, C78_click_multi, C78_gesture_place, C78_translate), a second one with \"multi\" deselects it (C78_toggle, C78_deselect_partial; C78_deselect_refuted where regions touch). A drag selects from the first unit to the one under the mouse, whatever its path (C78_drag, C78_drags; C78_drag_refuted, C78_stale_drag_refuted); extending is relative to the start of the last region (C78_extend, C78_extend_twice, C78_shift_click). Movement, added cursors, goto line, select all, collapse: C78_move, C78_add_selection, C78_goto_line, C78_select_all, C78_collapse; all that scroll bring the cursor onto the screen. C78_click_refuted: a legacy click does nothing."
  },
  {
   "property": "C79",
   "status": "partial",
   "theorems": [
    "Xi.Gesture.C79_decode",
    "Xi.Gesture.C79_clamp",
    "Xi.Gesture.C79_screen_partial",
    "Xi.Gesture.C79_selected",
    "Xi.Gesture.C79_cursors_partial",
    "Xi.Gesture.C79_selection_step_partial",
    "Xi.Gesture.C79_event_partial",
    "Xi.Gesture.C79_session_partial",
    "Xi.Gesture.C79_twice_refuted",
    "Xi.Gesture.C79_ghost_refuted"
   ],
   "note": "Encoding the lines of a view does not crash and gives one for each visual line, with its text, its cursors and, decoded as a front end does (C79_decode), highlights, selections and styles in their places (C79_screen_partial, C79_selected); every cursor is shown exactly once, in order (C79_cursors_partial). Setting the selection invalidates every part of every line that changes (C79_selection_step_partial), so does every event (C79_event_partial), and after a session of events a front end is shown the new selection (C79_session_partial, with C57). All but decoding needs that there is no cursor at the end of a text that ends with a newline: there it is shown twice (C79_twice_refuted), and the second stays on the screen when the cursor moves away (C79_ghost_refuted). Missing: events that change the text (their ranges of lines are in C55), changed highlights, line numbers."
  },
  {
   "property": "C80",
   "status": "partial",
   "theorems": [
    "Xi.Gesture.C80_edit_partial",
    "Xi.Gesture.C80_rewrap",
    "Xi.Gesture.C80_selection",
    "Xi.Gesture.C80_session_partial",
    "Xi.Gesture.C80_encoded_partial",
    "Xi.Gesture.C80_turn_refuted",
    "Xi.Gesture.C80_highlight_refuted"
   ],
   "note": "After an edit the view does not crash, the wrapping and the selection fit the new text, and the record of what the front end has is still right, so that all lines that look different are sent again (C80_edit_partial); so it is after background wrapping (C80_rewrap) and a new selection (C80_selection); after any sequence of these a rendered window shows what it should (C80_session_partial), and what is sent of the lines is decoded to it (C80_encoded_partial, with C79). The edit needs that no selected backward region is turned by being joined to a caret the edit leaves (C80_turn_refuted: a cursor stays on the screen) and that highlights before and after the edited place stay (C80_highlight_refuted: not so for a query of several lines). Changed styles are included (C82_drawn). Missing: drift other than the default, and line numbers."
  },
  {
   "property": "C81",
   "status": "partial",
   "theorems": [
    "Xi.ViewSearch.C81_edit_partial",
    "Xi.ViewSearch.C81_set",
    "Xi.ViewSearch.C81_batch_safe",
    "Xi.ViewSearch.C81_drawn",
    "Xi.ViewSearch.C81_quiet",
    "Xi.ViewSearch.C81_top",
    "Xi.ViewSearch.C81_rest",
    "Xi.ViewSearch.C81_session_partial",
    "Xi.ViewSearch.C81_selected_text",
    "Xi.ViewSearch.C81_selection",
    "Xi.ViewSearch.C81_find",
    "Xi.ViewSearch.C81_unknown_refuted",
    "Xi.ViewSearch.C81_twice_refuted",
    "Xi.ViewSearch.C81_above_refuted",
    "Xi.ViewSearch.C81_selection_refuted"
   ],
   "note": "Setting queries whose numbers the view has, each at most once, does not crash, leaves exactly those named and the new ones with fresh numbers, each asking for what it should, and if anything changed the search starts and the view is drawn anew (C81_set; C81_find: find always meets this). A step of the search does not crash and keeps every highlight a match (C81_batch_safe); in a text of at most one batch seen from its start the first step finds everything (C81_top) and later ones change nothing visible (C81_rest). After any session in which steps of the search change no line the front end has, a rendered window shows what has been found (C81_session_partial). The selection or the word at the cursor becomes the query (C81_selected_text, C81_selection). Refuted in general: steps of the search that find a match on a line the front end has do not make it drawn anew (C81_above_refuted); an unknown or repeated number removes queries without drawing anew (C81_unknown_refuted, C81_twice_refuted); a selection is searched for as a whole word even when it is none (C81_selection_refuted). Regular expressions and whole words (beyond C72) are left out."
  },
  {
   "property": "C82",
   "status": "partial",
   "theorems": [
    "Xi.Gesture.C82_drawn",
    "Xi.C82_place_partial",
    "Xi.C82_spans_partial",
    "Xi.C82_update_partial",
    "Xi.C82_end_refuted",
    "Xi.C82_unknown_refuted"
   ],
   "note": "Spans for a range of a revision the engine still has are put in a range of the current text with one value per character; each character of the range that is still there has the value sent for it, and the others are outside (C82_place_partial). In every history of edits, undos, collected garbage, scopes, themes, stopped plugins and such updates the layers stay as long as the text and each row is what its own updates made it, and the styles outside the range do not change (C82_spans_partial); the view marks the lines whose styles changed (C82_drawn) and goes on to show what it should (C82_update_partial). Refuted: text inserted right at the end of the range makes the row too short and styles move (C82_end_refuted); for an unknown revision the spans are put at stale offsets (C82_unknown_refuted). Edits are those for which C58 holds. Missing: other views of the text are not told."
  },
  {
   "property": "C83",
   "status": "partial",
   "theorems": [
    "Xi.Gesture.C83_selection",
    "Xi.Gesture.C83_find",
    "Xi.Gesture.C83_plugin",
    "Xi.Gesture.C83_sent_partial",
    "Xi.Gesture.C83_update_partial",
    "Xi.Gesture.C83_older_partial",
    "Xi.Gesture.C83_edit_partial",
    "Xi.Gesture.C83_session_partial",
    "Xi.Gesture.C83_first_refuted",
    "Xi.Gesture.C83_insert_refuted",
    "Xi.Gesture.C83_delete_refuted",
    "Xi.Gesture.C83_clear"
   ],
   "note": "The selection, the queries and the annotations of all plugins that touch the window are sent as ranges of lines and columns, in order and with their payloads, without a crash, if the annotations are about the text (C83_selection, C83_find, C83_plugin, C83_sent_partial; for regions that begin where the window ends see C32). An update about a range of any revision the engine still has is put where that text is now, place by place, and changes nothing else (C83_older_partial); an update about a range of the current text that cuts no annotation takes the place of what was told about the range, and of nothing else (C83_update_partial); an edit deletes the annotations that do not end before it (C83_edit_partial); so all annotations stay about the text (C83_session_partial). This needs that the plugin first tells of all the text before the range (C83_first_refuted: else the annotations are put at the start of the text) and that an edit meets an annotation if there are any after it (C83_insert_refuted: they stay at their old offsets; C83_delete_refuted: the view crashes). Missing: ranges of older revisions (for the values at each place see C82), empty annotations, and updates that cut annotations in two. Nothing removes the annotations of a plugin that has stopped."
  },
  {
   "property": "C84",
   "status": "partial",
   "theorems": [
    "Xi.Gesture.C84_reset",
    "Xi.Gesture.C84_number",
    "Xi.Gesture.C84_line_partial",
    "Xi.Gesture.C84_session_partial",
    "Xi.Gesture.C84_render_partial",
    "Xi.Gesture.C84_theme_partial",
    "Xi.Gesture.C84_encoded",
    "Xi.Gesture.C84_queries_refuted"
   ],
   "note": "A style gets a number that the front end was told to mean the style on top of the default of the theme, and no number changes its meaning (C84_number); a line with such numbers looks as it should (C84_line_partial). In every session with any number of views and any changes of text, selection, queries, styles and theme each line the front end has looks as it should have when it was sent (C84_session_partial); rendering a view and changing the theme do not crash, and bring the lines up to date (C84_render_partial, C84_theme_partial); the numbers are those of the encoding of C79 (C84_encoded). Missing: the numbers of highlights of an eighth query are those of styles (C84_queries_refuted), so the theorems are about at most seven queries; while the views are redrawn one after another after a change of theme the lines of the later ones have for a moment numbers of the old theme."
  },
  {
   "property": "C85",
   "status": "partial",
   "theorems": [
    "Xi.Themes.C85_session_partial",
    "Xi.Themes.C85_name_partial",
    "Xi.Themes.C85_told",
    "Xi.Themes.C85_stale_refuted",
    "Xi.Themes.C85_default_refuted",
    "Xi.Themes.C85_extension_refuted"
   ],
   "note": "After any choices and any events about files the current theme is what its name means now, and the list of themes is right (C85_session_partial); the name is that of the last theme chosen that there was, or the default one once its file is gone (C85_name_partial); in any state at all the theme and the numbers of styles change only if the front end is told (C85_told). Missing, since the code does not have it: the file of a theme that was chosen before and is not the current one changes (C85_stale_refuted: the old theme is shown when it is chosen again); a file with the name of a theme of syntect and any extension is deleted (C85_default_refuted: that theme can no longer be chosen); files with other extensions are listed as themes (C85_extension_refuted)."
  },
  {
   "property": "C86",
   "status": "partial",
   "theorems": [
    "Xi.Lsp.C86_message",
    "Xi.Lsp.C86_stream",
    "Xi.Lsp.C86_sent",
    "Xi.Lsp.C86_round_trip",
    "Xi.Lsp.C86_text",
    "Xi.Lsp.C86_header_refuted",
    "Xi.Lsp.C86_end_refuted"
   ],
   "note": "Messages are read whole, in order, whatever the order, case and line ends of their headers are, and the rest of the stream is left (C86_message, C86_stream); what the plugin sends is such a message and is read back (C86_sent, C86_round_trip); whatever is read is well-formed text from the stream (C86_text). Missing: a header the plugin does not know loses its message and the next one (C86_header_refuted), and after the end of the stream the loop never stops (C86_end_refuted)."
  },
  {
   "property": "C87",
   "status": "partial",
   "theorems": [
    "Xi.Lsp.C87_protocol_partial",
    "Xi.Lsp.C87_text_partial",
    "Xi.Lsp.C87_server_partial",
    "Xi.Lsp.C87_documents_partial",
    "Xi.Lsp.C87_hover_partial",
    "Xi.Lsp.C87_waiting_partial",
    "Xi.Lsp.C87_changes_partial",
    "Xi.Lsp.C87_early_refuted",
    "Xi.Lsp.C87_error_refuted",
    "Xi.Lsp.C87_twice_refuted",
    "Xi.Lsp.C87_language_refuted",
    "Xi.Lsp.C87_hover_refuted",
    "Xi.Lsp.C87_answer_refuted"
   ],
   "note": "In sessions where a view is used only once its server has its document open, where a new view finds its server initialised, and where no view is closed while a hover is under way: nothing panics and each message is one the protocol allows (C87_protocol_partial), the document of a server is the text of the view (C87_text_partial), servers have documents of open views only (C87_documents_partial), hovers are shown where they were asked for (C87_hover_partial) and none waits without an idle call (C87_waiting_partial); the assumption on changes is met by C74 for servers that take whole documents (C87_changes_partial). Without these conditions it is false: an event before the answer to initialize, or after an error, panics (C87_early_refuted, C87_error_refuted), a second view before the answer sends initialize again (C87_twice_refuted), a document of another language is opened as one of the language of the server (C87_language_refuted), a hover is shown in the wrong view after a close (C87_hover_refuted), an answer to no request panics (C87_answer_refuted)."
  },
  {
   "property": "C88",
   "status": "proved",
   "theorems": [
    "Xi.C88_priority"
   ],
   "note": "All reachable states, retained base revisions, edits made since and well-formed edits; whoever knows the edits up to the older one and the new one sees the insertions at one place in the order of rank."
  },
  {
   "property": "C89",
   "status": "partial",
   "theorems": [
    "Xi.Watch.C89_delivery_partial",
    "Xi.Watch.C89_only_partial",
    "Xi.Watch.C89_mode_refuted",
    "Xi.Watch.C89_link_refuted",
    "Xi.Watch.C89_fault_refuted",
    "Xi.Watch.C89_once_refuted"
   ],
   "note": "For every sequence of operations in which all watches of one path are recursive or none is, watches are ended under the real names of their paths, and the crate notify reports no error (C89_delivery_partial); without the first and the last of these still nobody is told of anything that does not concern them (C89_only_partial). Otherwise refuted: a later recursive watch of the same path gets nothing from below (C89_mode_refuted), a watch begun under the name of a link is never ended (C89_link_refuted), after one error nothing is delivered any more (C89_fault_refuted), and two watches with one token get an event twice, unlike what the documentation says (C89_once_refuted). What is assumed of the crate is Registry in Core/Watcher.lean."
  },
  {
   "property": "C90",
   "status": "partial",
   "theorems": [
    "Xi.Syntect.C90_numbers",
    "Xi.Syntect.C90_distinct",
    "Xi.Syntect.C90_scopes_partial",
    "Xi.Syntect.C90_open",
    "Xi.Syntect.C90_line",
    "Xi.Syntect.C90_lost_refuted"
   ],
   "note": "Numbers: all maps and stacks (C90_numbers, C90_distinct). Sessions: all in which highlighting does not begin anew while there are scopes that have not been sent (C90_scopes_partial). Opening: all documents (C90_open); later lines: whenever the cache of states is right, see C70 (C90_line). Refuted otherwise: after a look at the syntax for a comment, a save before the next idle call loses the new stack, and the core is sent a number its table does not have (C90_lost_refuted)."
  },
  {
   "property": "C91",
   "status": "partial",
   "theorems": [
    "Xi.C91_toggle",
    "Xi.C91_ranges",
    "Xi.C91_twice_partial",
    "Xi.C91_uncomment_partial",
    "Xi.C91_inside_refuted",
    "Xi.C91_indented_refuted",
    "Xi.C91_twice_refuted"
   ],
   "note": "What becomes of each line: all texts, markers and ranges in order (C91_toggle, C91_ranges). Twice gives back the text: for ranges without comments and markers that begin with a character that is no blank and have no newline (C91_twice_partial). Comments lose their first markers (C91_uncomment_partial). Refuted otherwise: a line that is no comment loses a marker from within it (C91_inside_refuted), an indented marker without its blank stays while its indentation goes (C91_indented_refuted), a range with both kinds of lines is not restored (C91_twice_refuted)."
  },
  {
   "property": "C92",
   "status": "partial",
   "theorems": [
    "Xi.C92_indent_partial",
    "Xi.C92_reindent_partial",
    "Xi.C92_columns_partial",
    "Xi.C92_again_partial",
    "Xi.C92_negative_refuted",
    "Xi.C92_blank_refuted",
    "Xi.C92_typing_refuted",
    "Xi.C92_tabs_refuted",
    "Xi.C92_again_refuted",
    "Xi.C92_tasks_which",
    "Xi.C92_tasks"
   ],
   "note": "Each line gets its columns and nothing else changes: all texts, metadata and configurations with a tab size above 0, for tasks and ranges in order none of whose lines would have a negative indentation (C92_indent_partial, C92_reindent_partial); the columns come out right if they are at most 160 spaces, or whole tabs and at most 40 (C92_columns_partial); a second time changes nothing for one range (C92_again_partial); the tasks name lines of the text (C92_tasks). Refuted otherwise: a line that closes what was not opened is a panic (C92_negative_refuted), two characters typed into a closing line before the plugin is idle are a panic (C92_typing_refuted), blank lines after an opening line each add a level (C92_blank_refuted), with tabs other columns are lost (C92_tabs_refuted), with two ranges a second time may change more (C92_again_refuted)."
  },
  {
   "property": "C93",
   "status": "partial",
   "theorems": [
    "Xi.Plugins.C93_setup",
    "Xi.Plugins.C93_started",
    "Xi.Plugins.C93_status",
    "Xi.Plugins.C93_restarted_partial",
    "Xi.Plugins.C93_changed_partial",
    "Xi.Plugins.C93_renamed_partial",
    "Xi.Plugins.C93_ids",
    "Xi.Plugins.C93_stopped",
    "Xi.Plugins.C93_exited",
    "Xi.Plugins.C93_told",
    "Xi.Plugins.C93_told_partial",
    "Xi.Plugins.C93_layers_partial",
    "Xi.Plugins.C93_single_partial",
    "Xi.Plugins.C93_front_partial",
    "Xi.Plugins.C93_removed_partial",
    "Xi.Plugins.C93_panic_partial",
    "Xi.Plugins.C93_told_refuted",
    "Xi.Plugins.C93_late_refuted",
    "Xi.Plugins.C93_twice_refuted",
    "Xi.Plugins.C93_stop_refuted",
    "Xi.Plugins.C93_front_refuted",
    "Xi.Plugins.C93_annotations_refuted",
    "Xi.Plugins.C93_panic_refuted",
    "Xi.Plugins.C93_path_refuted"
   ],
   "note": "All runs: numbers are distinct (C93_ids), stopped and ended plugins hear nothing more and have no styles in views that were open (C93_stopped, C93_exited), running plugins know all finished views and only open ones (C93_told). In part: exactly once if plugins connect when no view is pending (C93_told_partial), styles come from running plugins if only these send any (C93_layers_partial), no plugin runs twice if none is started while it is launched (C93_single_partial), the front end knows what runs if plugins connect before views are finished and their directory does not change (C93_front_partial), removal concerns the right plugin if its program alone has the path in it (C93_removed_partial), no panics under named conditions (C93_panic_partial). Each condition is needed: C93_told_refuted, C93_late_refuted, C93_twice_refuted, C93_stop_refuted, C93_front_refuted, C93_annotations_refuted, C93_path_refuted, C93_panic_refuted. What single operations do: C93_setup, C93_started, C93_status, C93_restarted_partial, C93_changed_partial, C93_renamed_partial."
  },
  {
   "property": "C94",
   "status": "partial",
   "theorems": [
    "Xi.Lang.C94_parse_partial",
    "Xi.Lang.C94_within_partial",
    "Xi.Lang.C94_word",
    "Xi.Lang.C94_number",
    "Xi.Lang.C94_operator",
    "Xi.Lang.C94_first",
    "Xi.Lang.C94_sorted",
    "Xi.Lang.C94_decode",
    "Xi.Lang.C94_decode_within",
    "Xi.Lang.C94_decode_refuted",
    "Xi.Lang.C94_line_refuted",
    "Xi.Lang.C94_word_refuted",
    "Xi.Lang.C94_arrow_refuted",
    "Xi.Lang.C94_escape_refuted"
   ],
   "note": "All texts of characters, contexts and readers: the parser answers, takes at least one character, cuts between characters, and the token is what its state says (C94_parse_partial); within the text if there is no // (C94_within_partial); in code exactly the first token is found, with its kind and end, by a reader of characters (C94_first, C94_number, C94_operator); listed words by themselves at the beginning of a text are found (C94_word); the decoder finds what was encoded (C94_decode) and stays within the bytes (C94_decode_within). Refuted: length of a comment to the end of the line, words with letters beyond ASCII, the operator =>, \\\\x with less than two digits, bytes that do not continue a character."
  },
  {
   "property": "C95",
   "status": "partial",
   "theorems": [
    "Xi.Lang.C95_top",
    "Xi.Lang.C95_pop",
    "Xi.Lang.C95_same",
    "Xi.Lang.C95_line_partial",
    "Xi.Lang.C95_line_refuted",
    "Xi.Lang.C95_carry_refuted",
    "Xi.Lang.C95_string_refuted"
   ],
   "note": "Numbers of states and stacks (C95_top, C95_pop, C95_same): all contexts. All lines: no panic, spans follow each other, cover the line, end with it if there is no //, say the truth about tokens, and the state at the end is that of the reader of the line (C95_line_partial). Refuted: the end after // (C95_line_refuted), the state is not carried to the next line (C95_carry_refuted), text before an escape in a string (C95_string_refuted)."
  },
  {
   "property": "C96",
   "status": "partial",
   "theorems": [
    "Xi.Lang.C96_partial",
    "Xi.Lang.C96_keeps",
    "Xi.Lang.C96_refuted"
   ],
   "note": "All sequences in which the language changes each time, followed by any number of saves (C96_partial); the table only grows (C96_keeps). Refuted in general: a save and then a change of language (C96_refuted)."
  },
  {
   "property": "C97",
   "status": "partial",
   "theorems": [
    "Xi.Wire.C97_view_id_read",
    "Xi.Wire.C97_view_id",
    "Xi.Wire.C97_view_id_refuted",
    "Xi.Wire.C97_edit_partial",
    "Xi.Wire.C97_edit_empty",
    "Xi.Wire.C97_edit_no_id",
    "Xi.Wire.C97_plugin_partial",
    "Xi.Wire.C97_plugin_array_refuted",
    "Xi.Wire.C97_mouse_partial",
    "Xi.Wire.C97_mouse_refuted",
    "Xi.Wire.C97_mouse_read",
    "Xi.Wire.C97_mouse_panic_refuted",
    "Xi.Wire.C97_line_range",
    "Xi.Wire.C97_annotation_range",
    "Xi.Wire.C97_notification_partial",
    "Xi.Wire.C97_undo_empty",
    "Xi.Wire.C97_click_refuted",
    "Xi.Wire.C97_delta",
    "Xi.Wire.C97_delta_refuted",
    "Xi.Wire.C97_categories_refuted",
    "Xi.Wire.C97_event_type",
    "Xi.Wire.C97_event_type_refuted",
    "Xi.Wire.C97_sample_partial",
    "Xi.Wire.C97_sample_refuted"
   ],
   "note": "Read back: all ids (C97_view_id), ranges of lines and annotations, for which nothing else is read (C97_line_range, C97_annotation_range), edits (C97_delta), types of events (C97_event_type); commands of any type that reads by method or name (C97_edit_partial, C97_plugin_partial, C97_notification_partial); samples without the name of the thread (C97_sample_partial); mouse actions with a number of clicks (C97_mouse_partial). What is read as an id is said exactly (C97_view_id_read). Refuted: mouse actions without clicks do not come back, and fewer than three numbers crash the core (C97_mouse_refuted, C97_mouse_panic_refuted, C97_click_refuted); categories come back just if there are any and none has a comma (C97_categories_refuted); unknown types of events crash the reader; edits that fit no text are read (C97_delta_refuted). The derived instances are modelled for few types."
  },
  {
   "property": "C98",
   "status": "partial",
   "theorems": [
    "Xi.Tracer.C98_runs",
    "Xi.Tracer.C98_store",
    "Xi.Tracer.C98_off",
    "Xi.Tracer.C98_blocks_partial",
    "Xi.Tracer.C98_blocks_refuted",
    "Xi.Tracer.C98_names",
    "Xi.Tracer.C98_names_time_refuted",
    "Xi.Tracer.C98_sorted",
    "Xi.Tracer.C98_sorted_once",
    "Xi.Tracer.C98_sorted_blocks_refuted",
    "Xi.Tracer.C98_sorted_names_refuted",
    "Xi.Tracer.C98_save",
    "Xi.Tracer.C98_save_refuted",
    "Xi.Tracer.C98_equal"
   ],
   "note": "All runs of any number of threads in which the clock does not go back: nothing panics (C98_runs), the store is the newest of what was recorded and is empty while tracing is off (C98_store, C98_off); in the log of what was recorded, blocks are in balance (C98_blocks_partial); names of threads and processes come first, in turn (C98_names). Refuted: in the store an end may lack its beginning (C98_blocks_refuted), the time of the names is divided by 1000 twice (C98_names_time_refuted), another tracer than that of the program does not save its own samples (C98_save_refuted). Sorting loses nothing and puts earlier samples first (C98_sorted), in one order if times differ (C98_sorted_once); refuted: a block may end before it begins (C98_sorted_blocks_refuted) and names may be out of turn (C98_sorted_names_refuted) once samples are sorted, since only times are compared. The sort of the standard library is a relation."
  },
  {
   "property": "C99",
   "status": "partial",
   "theorems": [
    "Xi.Start.C99_start_partial",
    "Xi.Start.C99_early_refuted",
    "Xi.Start.C99_again_refuted",
    "Xi.Start.C99_poison_refuted"
   ],
   "note": "All behaviours of the state: with messages about tracing before the start and no second start, and as long as the state does not panic, it is given all messages in order and its answers are given (C99_start_partial). Refuted: other messages before the start and a second start end the process (C99_early_refuted, C99_again_refuted), and so does the next message after a panic in the thread of a plugin (C99_poison_refuted)."
  },
  {
   "property": "C100",
   "status": "partial",
   "theorems": [
    "Xi.C100_follow_partial",
    "Xi.C100_bad",
    "Xi.C100_start_partial",
    "Xi.C100_dot_refuted",
    "Xi.C100_preferences_refuted",
    "Xi.C100_folder_refuted",
    "Xi.C100_scalar",
    "Xi.C100_table",
    "Xi.C100_null_partial",
    "Xi.C100_nan_refuted",
    "Xi.C100_plugin_file_refuted"
   ],
   "note": "All runs in which acceptable tables are written to files of the folder itself: no panic, and as soon as no event about a file is left its settings are those of the file, and none if it is gone (C100_follow_partial); the same after the start, for languages without a dot in their names (C100_start_partial). Files that are not acceptable, not readable or no files of settings change nothing (C100_bad). What a file means: C100_scalar, C100_table, C100_null_partial. Refuted: languages with a dot in the name or called preferences (C100_dot_refuted, C100_preferences_refuted), files in folders further down (C100_folder_refuted), a number that is not finite makes the editor panic (C100_nan_refuted), languages of a plugin can share a file of settings (C100_plugin_file_refuted)."
  },
  {
   "property": "C101",
   "status": "partial",
   "theorems": [
    "Xi.C101_draw",
    "Xi.C101_delayed",
    "Xi.C101_find",
    "Xi.C101_new",
    "Xi.C101_wrap_partial",
    "Xi.C101_idle_partial",
    "Xi.C101_tokens",
    "Xi.C101_drawn",
    "Xi.C101_panic",
    "Xi.C101_wrap_refuted",
    "Xi.C101_closed_refuted",
    "Xi.C101_number_refuted",
    "Xi.C101_ends",
    "Xi.C101_done_partial",
    "Xi.C101_paste_refuted"
   ],
   "note": "All runs of the core, with any order of the tokens, for any parts of views that obey the laws in Spec/Agenda.lean (drawing tells everything, wrapping and searching keep to themselves): drawing, searching and setting up are on the agenda whenever they are to be done (C101_draw, C101_delayed, C101_find, C101_new), and wrapping is if changes of the text leave nothing to be wrapped (C101_wrap_partial); an empty agenda means that all is done (C101_idle_partial); tokens lead back to view and work for numbers below 2^25 (C101_tokens, C101_drawn). If each batch leaves less to do (for wrapping that is C54_ends_partial, for searching C72_find_all), the core, left alone, cannot go on for ever (C101_ends) and comes to a state in which all is done (C101_done_partial). The only panic is a view closed before it was set up (C101_panic). Refuted: after a big paste the rest of the lines stays unwrapped and nothing is on the agenda (C101_wrap_refuted; C101_paste_refuted shows the same of the model of the lines), a view closed at once (C101_closed_refuted), large numbers (C101_number_refuted). The laws are assumed of the parts, not derived from their models."
  },
  {
   "property": "C102",
   "status": "partial",
   "theorems": [
    "Xi.C102_update_partial",
    "Xi.C102_plain",
    "Xi.C102_agree",
    "Xi.C102_clean_refuted",
    "Xi.C102_text"
   ],
   "note": "All histories, all readings of a missing cursor and of invalid lines: updates that render something give every line the front end has its right number (C102_update_partial), the lines are those of C57 (C102_plain), the number of an update op agrees with those of its lines (C102_agree), and for a text and its breaks the numbers of the model are those the code computes (C102_text, from C53). Refuted: an update with nothing to render copies all lines as line 1 on, which gives wrong numbers if wrapped lines before are unknown to the front end (C102_clean_refuted); it is right if all lines are known or none is wrapped. A front end that leaves numbers alone when an update op has no ln is not covered."
  },
  {
   "property": "C103",
   "status": "partial",
   "theorems": [
    "Xi.Lsp.C103_text_partial",
    "Xi.Lsp.C103_markup",
    "Xi.Lsp.C103_empty",
    "Xi.Lsp.C103_shown",
    "Xi.Lsp.C103_range",
    "Xi.Lsp.C103_any_range",
    "Xi.Lsp.C103_place",
    "Xi.Lsp.C103_fence_refuted",
    "Xi.Lsp.C103_plain_refuted",
    "Xi.Lsp.C103_blank_refuted",
    "Xi.Lsp.C103_lost_refuted"
   ],
   "note": "All answers made of marked strings in which no text and no code has a fence: read as Markdown they are the parts (C103_text_partial). Markup goes through unchanged (C103_markup), refused is exactly what has no text (C103_empty), nothing empty is shown (C103_shown). Ranges: the places the server means (C103_range), and for any positions no panic, an error exactly if there is no such line, otherwise ends between characters and in order (C103_place, C103_any_range). Refuted: code with a fence in it (C103_fence_refuted), plain text is taken for Markdown (C103_plain_refuted), two empty texts are shown (C103_blank_refuted), a range on a line that is gone loses the text as well (C103_lost_refuted). The reader of Markdown in the specification knows fences only."
  },
  {
   "property": "C104",
   "status": "partial",
   "theorems": [
    "Xi.Lsp.C104_bar_partial",
    "Xi.Lsp.C104_all_partial",
    "Xi.Lsp.C104_items",
    "Xi.Lsp.C104_heard",
    "Xi.Lsp.C104_others",
    "Xi.Lsp.C104_views",
    "Xi.Lsp.C104_text",
    "Xi.Lsp.C104_late_refuted",
    "Xi.Lsp.C104_panic_refuted",
    "Xi.Lsp.C104_text_refuted"
   ],
   "note": "All runs: the bar of an open view is the list of the tasks that have begun since it was opened and go on, with their last texts (C104_bar_partial), so all tasks if none went on then (C104_all_partial); the items of the plugin are the tasks (C104_items); notifications with an id that is a string never panic and go to each open view once (C104_heard); views opened and closed (C104_views); other methods and other languages change nothing (C104_others); the text (C104_text). Refuted: a view opened while a task goes on never shows it (C104_late_refuted), panics for a missing id, an id that is a number, and a notification without parameters (C104_panic_refuted), percentage and message run together (C104_text_refuted). How the percentage is written is a parameter; the front end of the specification is not code of the repository."
  },
  {
   "property": "C105",
   "status": "partial",
   "theorems": [
    "Xi.Lsp.C105_root",
    "Xi.Lsp.C105_some_root_partial",
    "Xi.Lsp.C105_siblings",
    "Xi.Lsp.C105_inside",
    "Xi.Lsp.C105_language",
    "Xi.Lsp.C105_order_partial",
    "Xi.Lsp.C105_server",
    "Xi.Lsp.C105_together",
    "Xi.Lsp.C105_unreadable_refuted",
    "Xi.Lsp.C105_order_refuted",
    "Xi.Lsp.C105_relative_refuted",
    "Xi.Lsp.C105_generic_refuted"
   ],
   "note": "The root is the innermost folder with the entry, if the folders on the way can be read (C105_root), and there is one exactly if some folder has it, if all can be read (C105_some_root_partial); documents of one folder, and of folders inside, share it (C105_siblings, C105_inside). The language is one that has the extension (C105_language), whatever the order if extensions are not shared (C105_order_partial). Absolute paths never panic and get the server the statement says (C105_server, C105_together). Refuted: a folder that cannot be read hides the workspace (C105_unreadable_refuted), shared extensions depend on the order of a hash map (C105_order_refuted), relative paths panic (C105_relative_refuted), languages share the generic server (C105_generic_refuted). Paths with . or .. in them and symbolic links are not covered."
  },
  {
   "property": "C106",
   "status": "partial",
   "theorems": [
    "Xi.Lsp.C106_number",
    "Xi.Lsp.C106_answer_partial",
    "Xi.Lsp.C106_once",
    "Xi.Lsp.C106_others",
    "Xi.Lsp.C106_pending",
    "Xi.Lsp.C106_id_refuted",
    "Xi.Lsp.C106_poisoned_refuted",
    "Xi.Lsp.C106_request_refuted"
   ],
   "note": "All runs with a server that answers each request at most once and nothing else: ids differ and callbacks are called at most once, each for its request (C106_once), an answer never panics and calls the right callback, with the id as a number or in digits (C106_answer_partial, C106_number), the callbacks kept are those of requests not answered (C106_pending), other messages change nothing (C106_others). Refuted: answers without an id, with a word for an id, or given twice panic (C106_id_refuted), which poisons the mutex so that all later requests panic (C106_poisoned_refuted); requests of the server are never answered (C106_request_refuted). Panics inside callbacks are in C87."
  },
  {
   "property": "C107",
   "status": "partial",
   "theorems": [
    "Xi.Catalog.C107_found",
    "Xi.Catalog.C107_named",
    "Xi.Catalog.C107_reload",
    "Xi.Catalog.C107_locations",
    "Xi.Catalog.C107_manifest",
    "Xi.Catalog.C107_remove",
    "Xi.Catalog.C107_name_refuted",
    "Xi.Catalog.C107_manifest_refuted",
    "Xi.Catalog.C107_relative_refuted",
    "Xi.Catalog.C107_settings_refuted",
    "Xi.Catalog.C107_hidden_refuted",
    "Xi.Catalog.C107_place_refuted"
   ],
   "note": "All file systems, paths and catalogs: which manifests are found (C107_found), what each becomes and when it becomes nothing (C107_manifest), what can be had by name and by place afterwards (C107_named, C107_reload, C107_locations, C107_remove). Refuted: of two plugins with one name one is lost (C107_name_refuted), a manifest hides those in folders in its folder (C107_hidden_refuted), relative programs that do not begin with a dot are not taken from the folder (C107_relative_refuted), bad settings of one language lose the plugin (C107_settings_refuted), a language called manifest gets the manifest for its settings (C107_manifest_refuted), a removed plugin stays at its place (C107_place_refuted). A panic in the conversion of a table (C100_nan_refuted) is left out."
  },
  {
   "property": "C108",
   "status": "partial",
   "theorems": [
    "Xi.C108_mirror",
    "Xi.C108_plugin",
    "Xi.C108_others",
    "Xi.C108_heard",
    "Xi.C108_panics_partial",
    "Xi.C108_safe_partial",
    "Xi.C108_edit",
    "Xi.C108_twice_refuted",
    "Xi.C108_early_refuted",
    "Xi.C108_settings_refuted",
    "Xi.C108_old_refuted"
   ],
   "note": "All lists of messages that do not panic: the views are those opened and not closed, each with what was last said (C108_mirror), all of one plugin (C108_plugin), other views are left alone (C108_others), what the plugin hears and the core is answered (C108_heard), edits carry the revision and the undo group last sent (C108_edit). Panics are characterised (C108_panics_partial) and do not happen if the core starts the plugin once and first and sends fit settings (C108_safe_partial). Refuted: a second start, a buffer before the start and settings that cannot be decoded panic (C108_twice_refuted, C108_early_refuted, C108_settings_refuted); in config_changed a plugin sees its old settings (C108_old_refuted). Missing: that the core only sends fit messages."
  },
  {
   "property": "C109",
   "status": "partial",
   "theorems": [
    "Xi.C109_safe",
    "Xi.C109_stored_partial",
    "Xi.C109_soon",
    "Xi.C109_merged",
    "Xi.C109_resolve",
    "Xi.C109_stuck_refuted",
    "Xi.C109_before_refuted",
    "Xi.C109_waiting_refuted",
    "Xi.C109_conflict_refuted"
   ],
   "note": "All interleavings with one buffer: no commit without a transaction (C109_safe); if transactions are granted and neither the updater nor the buffer ends, all edits since the store was attached are in what was last written whenever nothing is on its way (C109_stored_partial), which comes about once the ledger answers and the channel is worked off (C109_soon); states from elsewhere are merged without asking for a transaction (C109_merged); conflicts are resolved with what both sides know (C109_resolve). Refuted: after a transaction that failed to start nothing is ever written again (C109_stuck_refuted), edits before the store was attached are not written (C109_before_refuted), states that cannot be read leave the ledger waiting (C109_waiting_refuted, C109_conflict_refuted). Missing: several devices with one ledger; engines are any type with the laws in Lawful, not linked to the engine of C01 and later."
  },
  {
   "property": "C110",
   "status": "partial",
   "theorems": [
    "Xi.SamplePlugin.C110_word_partial",
    "Xi.SamplePlugin.C110_start_refuted",
    "Xi.SamplePlugin.C110_last",
    "Xi.SamplePlugin.C110_place",
    "Xi.SamplePlugin.C110_typed_partial",
    "Xi.SamplePlugin.C110_typed_refuted"
   ],
   "note": "All texts: after a mark that is not at the start of its line the word before it is capitalised and nothing else changes, and the edit sent is not itself an insertion (C110_word_partial, C110_typed_partial from the edit to the result); the plugin acts on insertions of a mark alone, at their place (C110_place); at the start of the last line without white characters nothing changes (C110_last). Refuted: a mark at the start of any other line makes the plugin panic (C110_start_refuted, C110_typed_refuted). Offsets count characters, not bytes; the cache of the document is taken to be right."
  },
  {
   "property": "C111",
   "status": "partial",
   "theorems": [
    "Xi.Logging.C111_flags",
    "Xi.Logging.C111_order",
    "Xi.Logging.C111_settings",
    "Xi.Logging.C111_path",
    "Xi.Logging.C111_join",
    "Xi.Logging.C111_log_partial",
    "Xi.Logging.C111_directory",
    "Xi.Logging.C111_log_refuted",
    "Xi.Logging.C111_values_refuted",
    "Xi.Logging.C111_level_partial",
    "Xi.Logging.C111_level_refuted"
   ],
   "note": "All command lines: the last value given for a flag counts (C111_flags), before the environment (C111_order, C111_settings); the path of the log is joined from directory and file (joining is writing a slash between, C111_join), where one from the root takes the place of what is before it (C111_path); the log is in the file and on standard error, or on standard error alone if there is no path (C111_log_partial), and its directory is made (C111_directory); levels debug and trace (C111_level_partial). Refuted: if the file cannot be opened there is no log at all (C111_log_refuted), values after = or with a leading - are not understood (C111_values_refuted), other levels are taken for info (C111_level_refuted). Paths are those of Unix; fern is not modelled beyond its sinks."
  },
  {
   "property": "C112",
   "status": "proved",
   "theorems": [
    "Xi.EditTypes.C112_same",
    "Xi.EditTypes.C112_kinds",
    "Xi.EditTypes.C112_moves",
    "Xi.EditTypes.C112_pairs",
    "Xi.EditTypes.C112_text",
    "Xi.EditTypes.C112_deletion",
    "Xi.EditTypes.C112_names",
    "Xi.EditTypes.C112_contents"
   ],
   "note": "All notifications: kinds and movements by the words of the name (C112_kinds, C112_moves, C112_pairs), deletions (C112_deletion), texts (C112_text), other events by name (C112_names), contents (C112_contents), and nothing is mixed up but synonyms and deprecated names (C112_same). The names on the wire are those that serde derives from the variants."
  }
 ]
}