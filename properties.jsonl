{"id": "C01", "title": "Rope operations compute the same text as plain string operations", "statement": "Concatenating, slicing and editing ropes (and building them from pieces) yields exactly the text that the same operation yields on ordinary strings; no byte is lost, duplicated or reordered, whatever the internal tree looks like.", "quantifier": "all ropes reachable by any finite sequence of building, concatenation, slicing and editing, of any size and tree height", "why_tests_cant": "The tree shape depends on the whole history of operations; tests see only a few shapes and cannot cover every split/merge path at every height.", "anchors": ["rust/rope/src/tree.rs: Node::from_nodes, Node::concat, TreeBuilder::push, Node::push_subseq, Node::subseq, Node::edit", "rust/rope/src/rope.rs: impl Leaf for String"]}
{"id": "C02", "title": "Ropes stay balanced and never hit an internal assertion", "statement": "Every rope produced by the public operations is a balanced tree: all leaves at the same depth, every non-root node with between 4 and 8 children, every non-root leaf at least the minimum size and no leaf above the maximum, cached lengths and heights correct; and none of the operations panics on in-range arguments.", "quantifier": "all finite histories of rope operations with in-range arguments", "why_tests_cant": "Balance is an invariant of unboundedly many histories; an unbalanced tree only shows up as a slow or crashing editor after particular sequences of edits.", "anchors": ["rust/rope/src/tree.rs: Node::from_nodes, Node::concat, Node::merge_nodes, Node::merge_leaves, TreeBuilder::push, TreeBuilder::build"]}
{"id": "C03", "title": "Storing text in chunks never cuts a UTF-8 character", "statement": "When text is split into rope leaves (on building or when a leaf overflows), the split points are always character boundaries and leaves respect the size bounds.", "quantifier": "all valid UTF-8 texts of any length and any overflow position", "why_tests_cant": "The split position depends on the byte content around position 511..1024 of arbitrary text; sampling cannot rule out a bad boundary.", "anchors": ["rust/rope/src/rope.rs: find_leaf_split, split_as_leaves, impl Leaf for String, BaseMetric"]}
{"id": "C04", "title": "Line/offset conversion agrees with counting newlines", "statement": "The line number reported for an offset is exactly the number of newlines before that offset, and the offset reported for line n is exactly one past the n-th newline (or the end of the text for the line after the last).", "quantifier": "all texts, tree shapes, offsets and line numbers in range", "why_tests_cant": "The computation descends an arbitrary tree accumulating two metrics; correctness on edges (end of text, empty leaves, newline at a leaf end) needs all shapes.", "anchors": ["rust/rope/src/tree.rs: Node::convert_metrics, Node::count, Node::count_base_units", "rust/rope/src/rope.rs: LinesMetric, Rope::line_of_offset, Rope::offset_of_line"]}
{"id": "C05", "title": "Line/offset conversions are mutually inverse", "statement": "The line containing the first offset of line n is line n, and every offset lies between the start of its line and the start of the next line.", "quantifier": "all texts and all in-range line numbers and offsets", "why_tests_cant": "Must hold for every text and offset; off-by-one errors at boundaries are easily missed by examples.", "anchors": ["rust/rope/src/rope.rs: Rope::line_of_offset, Rope::offset_of_line", "rust/core-lib/src/line_offset.rs: LineOffset"]}
{"id": "C06", "title": "Iterating over a rope yields its text, once and in order", "statement": "The chunks (and raw lines) produced when iterating over a range of a rope concatenate to exactly that range of the text; every raw line except possibly the last ends with its only newline.", "quantifier": "all ropes and all in-range intervals", "why_tests_cant": "Iteration crosses arbitrarily many leaf and node boundaries; the cursor cache only matters for deep trees.", "anchors": ["rust/rope/src/tree.rs: Cursor::new, Cursor::next_leaf, Cursor::prev_leaf, Cursor::descend", "rust/rope/src/rope.rs: ChunkIter, LinesRaw"]}
{"id": "C07", "title": "Subsets have a canonical form: equality means the same elements", "statement": "Two subsets of a document compare equal exactly when they mark the same positions the same number of times; every operation on subsets keeps the canonical form.", "quantifier": "all subsets built by any sequence of the public subset operations", "why_tests_cant": "Equality is structural; a single missing merge of adjacent segments on some path breaks comparisons used for pristine checks and merges.", "anchors": ["rust/rope/src/multiset.rs: SubsetBuilder::push_segment, Subset (PartialEq), Subset::zip"]}
{"id": "C08", "title": "Subset algebra is pointwise", "statement": "Union adds, subtraction subtracts, xor xors and complement flips the per-position counts; deleting a subset from a text removes exactly the positions with non-zero count; the reported counts and lengths agree with that.", "quantifier": "all subsets of equal length, all texts", "why_tests_cant": "The run-length implementation walks two segment lists in lock step; all relative segment alignments must be covered.", "anchors": ["rust/rope/src/multiset.rs: Subset::union, Subset::subtract, Subset::bitxor, Subset::complement, Subset::delete_from, Subset::count, Subset::len_after_delete"]}
{"id": "C09", "title": "Transforming a subset across an insertion and back is the identity", "statement": "Expanding a subset's coordinates through inserted positions and then shrinking them by the same positions gives back the original subset; expanding never marks an inserted position, shrinking drops exactly the removed positions.", "quantifier": "all pairs of subsets with compatible lengths", "why_tests_cant": "Quantifies over all pairs of run-length encodings.", "anchors": ["rust/rope/src/multiset.rs: Subset::transform, Subset::transform_expand, Subset::transform_union, Subset::transform_shrink"]}
{"id": "C10", "title": "Position mapping through a subset counts matching positions", "statement": "Mapping a document index through a subset gives the number of matching positions before it, for any non-decreasing sequence of queries.", "quantifier": "all subsets and all non-decreasing query sequences", "why_tests_cant": "The mapper is stateful; its answer must not depend on the history of queries.", "anchors": ["rust/rope/src/multiset.rs: Subset::mapper, Mapper::doc_index_to_subset"]}
{"id": "C11", "title": "Splitting an edit into insertions and deletions loses nothing", "statement": "Applying the insertion part of an edit and then removing the deleted positions gives the same text as applying the edit directly.", "quantifier": "all well-formed edits (copies in increasing, disjoint order) and all base texts", "why_tests_cant": "Edits have unboundedly many elements; undo, merge and collaborative editing all rely on this factorisation.", "anchors": ["rust/rope/src/delta.rs: Delta::apply, Delta::factor, InsertDelta::inserted_subset"]}
{"id": "C12", "title": "An edit synthesised from deletion sets produces the right text", "statement": "The edit synthesised from a tombstone text and two deletion sets turns the text visible under the old deletion set into the text visible under the new one, and is itself well-formed.", "quantifier": "all union texts and all pairs of deletion sets over them", "why_tests_cant": "Any combination of newly deleted, newly restored and unchanged ranges can occur.", "anchors": ["rust/rope/src/delta.rs: Delta::synthesize"]}
{"id": "C13", "title": "The edit builder replaces exactly the requested ranges", "statement": "An edit built from a sorted list of disjoint replacements produces the base text with each range replaced, its reported new length is the length of the result, and text outside the reported summary interval is unchanged.", "quantifier": "all base texts and all sorted disjoint lists of replacements", "why_tests_cant": "Arbitrary numbers of adjacent, empty or touching replacements must work.", "anchors": ["rust/rope/src/delta.rs: Builder::delete, Builder::replace, Builder::build, Delta::simple_edit, Delta::new_document_len, Delta::summary, Delta::as_simple_insert, Delta::is_simple_delete"]}
{"id": "C14", "title": "Positions carried through an edit stay attached to their text", "statement": "Mapping an offset through an edit is monotone, sends the end to the end, and for an offset at a surviving character gives the position of that same character in the new text; an interval reported untouched really is unchanged.", "quantifier": "all well-formed edits, all offsets", "why_tests_cant": "Must hold for every combination of edits and positions; drives carets, selections and breakpoints.", "anchors": ["rust/rope/src/delta.rs: Transformer::transform, Transformer::interval_untouched"]}
{"id": "C15", "title": "Rebasing insertions over deletions and insertions is faithful", "statement": "Rewriting an insertion edit so that it applies to a text with extra deleted (or undeleted) positions inserts the same text at the same place relative to the surviving characters, and the order of concurrent insertions at the same place is the requested one.", "quantifier": "all insertion edits and all subsets of matching length", "why_tests_cant": "All interleavings of insertion points and segment boundaries must be covered.", "anchors": ["rust/rope/src/delta.rs: InsertDelta::transform_expand, InsertDelta::transform_shrink, InsertDelta::inserted_subset"]}
{"id": "C16", "title": "Concurrent insertions converge", "statement": "If two peers make independent insertions to the same text, rebasing each over the other (with opposite tie-breaking) leads to the same final text.", "quantifier": "all texts and all pairs of insertion edits", "why_tests_cant": "The diamond property quantifies over all pairs of edits.", "anchors": ["rust/rope/src/delta.rs: InsertDelta::transform_expand", "rust/rope/src/engine.rs: Engine::rebase"]}
{"id": "C17", "title": "The regions an edit reports as inserted or deleted are the real ones", "statement": "The list of deleted regions reported for an edit covers exactly the characters of the old text that disappear, and the list of inserted regions covers exactly the characters of the new text that are new.", "quantifier": "all well-formed edits", "why_tests_cant": "Quantifies over all element sequences; search highlights rely on it.", "anchors": ["rust/rope/src/delta.rs: InsertsIter, DeletionsIter, Delta::iter_inserts, Delta::iter_deletions"]}
{"id": "C18", "title": "An edit based on the current revision does exactly what it says", "statement": "Committing an edit against the current revision makes the document text equal to the edit applied to the previous text.", "quantifier": "all reachable engine states (any history of edits, stale edits, undos, redos and garbage collections) and all well-formed edits", "why_tests_cant": "The engine stores text and tombstones separately and re-synthesises them at every step; the property depends on an invariant over the full history.", "anchors": ["rust/rope/src/engine.rs: Engine::edit_rev, Engine::mk_new_rev, Engine::get_head"]}
{"id": "C19", "title": "The engine never loses its text/tombstone consistency and never panics", "statement": "In every reachable state, current text and stored deleted text are together exactly the union of everything ever inserted and not collected, recorded subsets have matching lengths, and no operation on valid arguments panics.", "quantifier": "all finite histories of engine operations", "why_tests_cant": "The consistency of many subset lengths is a global invariant of all histories; a violation is a crash while typing.", "anchors": ["rust/rope/src/engine.rs: Engine, Engine::mk_new_rev, Engine::undo, Engine::gc"]}
{"id": "C20", "title": "Old revisions read back as they were", "statement": "Asking for the text of any earlier revision still known to the engine returns exactly the text the document had right after that revision was made.", "quantifier": "all histories of edits, undos and redos, all retained revisions", "why_tests_cant": "Old text is not stored but reconstructed by running the history backwards; any length of history must work.", "anchors": ["rust/rope/src/engine.rs: Engine::get_rev, Engine::deletes_from_union_for_index, Engine::deletes_from_union_before_index, Engine::deletes_from_cur_union_for_index, Engine::rev_content_for_index"]}
{"id": "C21", "title": "The difference from an old revision to the present is exact", "statement": "The edit reported between any retained revision and the current one, applied to that revision's text, gives the current text.", "quantifier": "all histories and all retained base revisions", "why_tests_cant": "Plugins and views update their caches from it; one wrong offset corrupts them permanently.", "anchors": ["rust/rope/src/engine.rs: Engine::try_delta_rev_head"]}
{"id": "C22", "title": "Edits based on stale revisions keep everybody's work", "statement": "Committing an edit that was computed against an older revision removes exactly the characters it deletes that are still visible, inserts its new text at the corresponding place, and disturbs no other visible character.", "quantifier": "all histories and all base revisions, all well-formed edits", "why_tests_cant": "Arbitrarily many concurrent edits may lie between base and head.", "anchors": ["rust/rope/src/engine.rs: Engine::edit_rev, Engine::mk_new_rev"]}
{"id": "C23", "title": "Undo means the undone edits never happened", "statement": "After undoing a set of edit groups the document shows exactly the characters that were inserted by edits that are not undone (or initially present) and are not deleted by any edit that is not undone, in their original order.", "quantifier": "all histories and all sets of undo groups", "why_tests_cant": "Undo is non-linear: any subset of groups may be toggled in any order.", "anchors": ["rust/rope/src/engine.rs: Engine::undo, Engine::compute_undo"]}
{"id": "C24", "title": "Redo restores: undo state is a function of the set of undone groups", "statement": "The text depends only on the set of undone groups, not on the order in which undo and redo were pressed; undoing and then redoing gives back the same text.", "quantifier": "all histories, all sequences of undo requests ending in the same set", "why_tests_cant": "Sequences of undo/redo are unbounded; history is only partially recomputed on each undo.", "anchors": ["rust/rope/src/engine.rs: Engine::undo, Engine::compute_undo, Engine::find_first_undo_candidate_index"]}
{"id": "C25", "title": "Garbage collection is invisible", "statement": "Discarding history for a set of old undo groups does not change the current text, nor the effect of undoing or redoing the groups that were kept, nor the text of revisions that remain available.", "quantifier": "all histories and all sets of collected groups", "why_tests_cant": "Collection rewrites every remaining subset in the history; it must commute with every later operation.", "anchors": ["rust/rope/src/engine.rs: Engine::gc", "rust/core-lib/src/editor.rs: Editor::gc_undos"]}
{"id": "C26", "title": "Edits against unknown or malformed revisions are rejected without damage", "statement": "Submitting an edit whose base revision is unknown, or whose length does not match its base, returns an error and leaves the document and its history unchanged.", "quantifier": "all histories, all revision tokens, all edits", "why_tests_cant": "Must hold for all (adversarial) plugin messages.", "anchors": ["rust/rope/src/engine.rs: Engine::try_edit_rev, Engine::mk_new_rev, Engine::try_delta_rev_head"]}
{"id": "C27", "title": "Replicas that have seen the same edits show the same text", "statement": "After two replicas that started from the same document merge each other's edits, they show the same text.", "quantifier": "all pairs of edit histories on a shared base", "why_tests_cant": "Convergence quantifies over all pairs of concurrent histories.", "anchors": ["rust/rope/src/engine.rs: Engine::merge, rearrange, compute_deltas, compute_transforms, rebase"]}
{"id": "C28", "title": "Merging brings in exactly the missing edits", "statement": "Merging a replica that has nothing new changes nothing; after a merge every revision of the other replica is known.", "quantifier": "all pairs of replicas", "why_tests_cant": "Quantifies over all histories.", "anchors": ["rust/rope/src/engine.rs: Engine::merge, find_common, shuffle"]}
{"id": "C29", "title": "Editor undo history is bounded, ordered and consistent", "statement": "The editor keeps at most 20 undo steps; undo and redo move one step at a time and never past the ends; typing after undo discards the redone branch; a discarded group is collected at most once and never collected while still undoable.", "quantifier": "all sequences of edits, undos, redos and plugin acknowledgements", "why_tests_cant": "The bookkeeping of live/undone/collected groups is an invariant over all command sequences.", "anchors": ["rust/core-lib/src/editor.rs: Editor::calculate_undo_group, Editor::do_undo, Editor::do_redo, Editor::update_undos, Editor::gc_undos, Editor::increment_revs_in_flight, Editor::dec_revs_in_flight"]}
{"id": "C30", "title": "The pristine flag is truthful", "statement": "The editor reports the buffer as unmodified only if its text equals the text at the time of the last save.", "quantifier": "all histories of edits, saves, undo/redo and garbage collection", "why_tests_cant": "Depends on revision equivalence through arbitrary histories.", "anchors": ["rust/core-lib/src/editor.rs: Editor::set_pristine, Editor::is_pristine", "rust/rope/src/engine.rs: Engine::is_equivalent_revision"]}
{"id": "C31", "title": "Index sets behave as sets", "statement": "Adding a range makes exactly its indices members; deleting a range removes exactly its indices; enumerating the missing ranges of an interval yields exactly its non-members in order (forwards and backwards); stored ranges stay sorted and disjoint.", "quantifier": "all sequences of operations on index sets and all intervals", "why_tests_cant": "Adjacency and overlap cases multiply with the number of stored ranges.", "anchors": ["rust/core-lib/src/index_set.rs: IndexSet::union_one_range, IndexSet::delete_range, IndexSet::minus_one_range, MinusIter, IndexSet::apply_delta"]}
{"id": "C32", "title": "Selections stay sorted and disjoint, and nothing selected is lost", "statement": "Adding regions keeps the selection sorted with non-overlapping regions; a position is selected afterwards exactly if it was selected before or lies in the added region; queries by range return exactly the touching regions; mapping through an edit preserves the invariant.", "quantifier": "all sequences of selection operations", "why_tests_cant": "Binary search and merge cases (carets at edges) over arbitrary selections.", "anchors": ["rust/core-lib/src/selection.rs: Selection::add_region, Selection::regions_in_range, Selection::delete_range, Selection::add_range_distinct, Selection::apply_delta, SelRegion::should_merge, SelRegion::merge_with"]}
{"id": "C33", "title": "The front-end line cache is never told a stale line is valid", "statement": "After an edit replacing a range of lines, or a partial invalidation, the shadow marks as valid only lines that were valid before, were not touched, and still correspond to the same front-end line; the total number of lines is adjusted exactly.", "quantifier": "all shadow states and all edits/invalidations", "why_tests_cant": "Arbitrary span lists and ranges; mistakes show as ghost lines on screen only in particular scroll positions.", "anchors": ["rust/core-lib/src/line_cache_shadow.rs: LineCacheShadow::edit, LineCacheShadow::partial_invalidate, Builder::add_span"]}
{"id": "C34", "title": "The render plan covers the whole document and the visible window", "statement": "A render plan's spans add up to exactly the document height, every line of the visible window (plus slop) gets rendered, and requested lines are upgraded to render without changing the total.", "quantifier": "all heights, scroll positions, window sizes and request ranges", "why_tests_cant": "Arithmetic edge cases at the start/end of the document and tiny documents.", "anchors": ["rust/core-lib/src/line_cache_shadow.rs: RenderPlan::create, RenderPlan::request_lines, PlanIterator::next"]}
{"id": "C35", "title": "Soft-break bookkeeping counts breaks exactly", "statement": "Counting breaks up to an offset and finding the offset of the n-th break agree with the list of break positions, across concatenation, splitting and building.", "quantifier": "all break lists and offsets", "why_tests_cant": "Leaf splitting must preserve break positions for every size.", "anchors": ["rust/rope/src/breaks.rs: BreaksLeaf, BreaksMetric, BreakBuilder", "rust/core-lib/src/linewrap.rs: Lines::visual_line_of_offset"]}
{"id": "C36", "title": "Overlaying style spans combines them pointwise", "statement": "Merging two span sets gives, at each position, the combination of the values the two sets have there (only the first, only the second, or the combination of both), with no position lost.", "quantifier": "all pairs of well-formed span sets of equal length", "why_tests_cant": "All overlap configurations of arbitrarily many spans.", "anchors": ["rust/rope/src/spans.rs: Spans::merge, SpansBuilder, SpanIter", "rust/core-lib/src/layers.rs: Layers::resolve_styles"]}
{"id": "C37", "title": "Diffing then patching gives the target", "statement": "Applying the computed difference of two documents to the first gives the second, and committing that difference to the edit history (as done when a file is reloaded from disk) makes the document equal to the second.", "quantifier": "all pairs of texts", "why_tests_cant": "The diff algorithm chooses among many matching lines; every pair of documents must round-trip.", "anchors": ["rust/rope/src/diff.rs: LineHashDiff::compute_delta, DiffBuilder, longest_increasing_region_set", "rust/rope/src/compare.rs: RopeScanner", "rust/core-lib/src/editor.rs: Editor::reload"]}
{"id": "C38", "title": "Exact search finds the first occurrence", "statement": "Searching forward for a non-empty pattern returns the first position at or after the start where the text contains the pattern, and reports not-found only if there is none, independent of how the text is chunked.", "quantifier": "all texts, chunkings, patterns and start positions", "why_tests_cant": "Matches straddling arbitrary leaf boundaries.", "anchors": ["rust/rope/src/find.rs: find, find_progress, find_core, compare_cursor_str"]}
{"id": "C39", "title": "Recorded macros replay the net effect", "statement": "A saved recording contains no undo/redo events, keeps the order of the other events, merges only adjacent insertions, and drops exactly the events that had been undone.", "quantifier": "all sequences of recorded events", "why_tests_cant": "Undo/redo can be interleaved arbitrarily.", "anchors": ["rust/core-lib/src/recorder.rs: Recorder::record, Recorder::toggle_recording, Recorder::save_recording_buffer"]}
{"id": "C40", "title": "Measured text widths are what the front-end measured", "statement": "A width obtained from the cache for a string and style is the width the front-end reported for that same string and style, no matter in which batch or order it was requested.", "quantifier": "all sequences of batches and requests (including failing measurements)", "why_tests_cant": "Tokens are shared between batches; correctness is an invariant over all batch histories.", "anchors": ["rust/core-lib/src/width_cache.rs: WidthCache, WidthBatchReq::request, WidthBatchReq::resolve_pending"]}
{"id": "C41", "title": "The bounded trace buffer keeps the newest samples", "statement": "After any sequence of insertions the buffer holds exactly the most recent ones up to its limit, in order, and never more than the limit.", "quantifier": "all sequences of buffer operations and limits", "why_tests_cant": "Limit changes interleaved with insertions.", "anchors": ["rust/trace/src/fixed_lifo_deque.rs: FixedLifoDeque"]}
{"id": "C42", "title": "A plugin's cached chunk always matches the document", "statement": "After any sequence of document updates and fetches, the chunk cached by the plugin library is exactly the corresponding part of the current document, with correct line offsets; so lines and regions read through the cache are those of the document.", "quantifier": "all sequences of edits (simple and complex) and reads", "why_tests_cant": "Coherence invariant over all update histories.", "anchors": ["rust/plugin-lib/src/base_cache.rs: ChunkCache::update, ChunkCache::update_chunk, ChunkCache::simple_insert, ChunkCache::simple_delete, ChunkCache::get_line, ChunkCache::get_region"]}
{"id": "C43", "title": "Editing commands with many cursors never crash and edit each selection", "statement": "For every valid selection, each text-changing command (typing, deleting, surrounding, indenting, backspace, tab, transform, number change) terminates without panicking and changes exactly the intended ranges.", "quantifier": "all texts and all valid selections with any number of regions", "why_tests_cant": "The crash needs particular relative positions of several cursors.", "anchors": ["rust/core-lib/src/edit_ops.rs: insert, surround, delete_sel_regions, delete_backward, insert_tab, indent, transform_text, change_number, capitalize_text", "rust/core-lib/src/backspace.rs: offset_for_delete_backwards", "rust/rope/src/delta.rs: Builder::delete"]}
{"id": "C44", "title": "Line-ending and indentation detection classify correctly", "statement": "A document whose line breaks are all LF (all CRLF) is reported as such, and the answer does not depend on how the document happens to be chunked in memory.", "quantifier": "all documents and chunkings", "why_tests_cant": "Depends on where chunk boundaries fall relative to line breaks.", "anchors": ["rust/core-lib/src/line_ending.rs: LineEnding::parse, LineEnding::parse_chunk", "rust/core-lib/src/whitespace.rs: Indentation::parse"]}
{"id": "C45", "title": "Word movement makes progress and stays in bounds", "statement": "Moving by word strictly advances (or retreats) until the end (or start) of the document, always lands on a character boundary inside the document, and stops exactly at word starts/ends.", "quantifier": "all texts and all positions", "why_tests_cant": "All character-class sequences.", "anchors": ["rust/core-lib/src/word_boundaries.rs: WordCursor::prev_boundary, WordCursor::next_boundary, WordCursor::select_word"]}
{"id": "C46", "title": "Backspace deletes a non-empty run of whole characters before the caret", "statement": "Backspace at a caret not at the start of the document removes at least one whole code point ending at the caret and nothing else, never more than exists.", "quantifier": "all texts and all caret positions", "why_tests_cant": "A 14-state machine over arbitrary emoji sequences.", "anchors": ["rust/core-lib/src/backspace.rs: offset_for_delete_backwards"]}
{"id": "C47", "title": "Every RPC answer reaches exactly the caller that asked", "statement": "Each outgoing request gets a fresh id; a response is delivered to the handler registered for its id exactly once; unmatched responses are ignored; disconnect fails all outstanding requests exactly once; incoming messages are classified as request, notification or response by their id/method fields, and malformed ones never crash the loop.", "quantifier": "all interleavings of sends, responses and disconnects; all JSON messages", "why_tests_cant": "Schedules of two threads and a peer are unbounded.", "anchors": ["rust/rpc/src/lib.rs: RawPeer::send_rpc_request_common, RawPeer::handle_response, RawPeer::disconnect, RpcLoop::mainloop", "rust/rpc/src/parse.rs: RpcObject::is_response, RpcObject::into_rpc, RpcObject::into_response"]}
{"id": "C48", "title": "Line wrapping work is never forgotten", "statement": "Adding, finishing and shifting pending wrap work over edits keeps every text position that still needs wrapping inside some pending task, and no finished position is forgotten to be finished.", "quantifier": "all sequences of tasks, completions and edits", "why_tests_cant": "Interval bookkeeping over all sequences.", "anchors": ["rust/core-lib/src/linewrap.rs: Lines::add_task, Lines::update_tasks_after_wrap, Lines::patchup_tasks"]}
{"id": "C49", "title": "Interval arithmetic", "statement": "Intersection, union, prefix, suffix and translation of intervals mean the corresponding operations on the sets of positions.", "quantifier": "all intervals", "why_tests_cant": "Edge cases with empty intervals.", "anchors": ["rust/rope/src/interval.rs: Interval"]}
{"id": "C50", "title": "Any number of replicas converge", "statement": "Three or more replicas that have merged the same edits show the same text, in whatever order they merged.", "quantifier": "all groups of replicas and all orders of merging", "why_tests_cant": "The number of merge orders grows factorially; the existing tests use a few fixed orders and distinct priorities.", "anchors": ["rust/rope/src/engine.rs: Engine::merge, compute_transforms, rebase, FullPriority"]}
{"id": "C51", "title": "UTF-16 offsets", "statement": "The UTF-16 position computed for a byte offset is the number of UTF-16 code units of the characters before it; the byte offset computed for a UTF-16 position is that of the shortest run of characters reaching it; at character boundaries the two are inverse.", "quantifier": "all texts, tree shapes, character boundaries and UTF-16 positions in range", "why_tests_cant": "Surrogate pairs may sit on any side of any leaf boundary of any tree.", "anchors": ["rust/rope/src/rope.rs: Utf16CodeUnitsMetric, count_utf16_code_units", "rust/rope/src/tree.rs: Node::convert_metrics"]}
{"id": "C52", "title": "Cursors find exactly the boundaries of the text", "statement": "Any sequence of cursor calls (set, is_boundary, next, prev, at_or_next, at_or_prev, next/prev/peek codepoint) on a rope gives the answers of the same searches on the plain string; iterating over line starts gives each exactly once; the codepoint offset functions of Rope return the nearest boundary.", "quantifier": "all ropes, all starting positions, all sequences of calls", "why_tests_cant": "The cursor caches four levels of the path to its leaf and reuses them between calls; errors need a deep tree and a particular sequence of moves.", "anchors": ["rust/rope/src/tree.rs: Cursor, CursorIter", "rust/rope/src/rope.rs: Rope::prev_codepoint_offset, Rope::next_codepoint_offset, Rope::at_or_next_codepoint_boundary, Rope::at_or_prev_codepoint_boundary"]}
{"id": "C53", "title": "Visual lines interleave hard and soft breaks exactly", "statement": "For a text and soft breaks of the same length that never coincide with a newline: visual_line_of_offset is the number of newlines before the offset plus soft breaks up to it; offset_of_visual_line gives the start of that visual line (the end of the text for lines beyond the last), whether it is found by the linear walk or the binary search, and the search terminates; the two are inverse; and iter_lines from line n gives every visual line from n to the end exactly once, contiguous, with the logical line number on the first visual line of each logical line only.", "quantifier": "all balanced ropes, all break trees that fit them, all line numbers and character-boundary offsets", "why_tests_cant": "The merged cursor keeps two tree cursors in step and switches between linear and binary search at distance 20; the tests try a few short texts, but the invariant has to hold at every combination of leaf boundary, end of text with and without newline, and starting line.", "anchors": ["rust/core-lib/src/linewrap.rs: MergedBreaks", "rust/core-lib/src/linewrap.rs: VisualLines::next", "rust/core-lib/src/linewrap.rs: Lines::offset_of_visual_line", "rust/core-lib/src/linewrap.rs: Lines::visual_line_of_offset", "rust/core-lib/src/linewrap.rs: Lines::iter_lines"]}
{"id": "C54", "title": "Incremental wrapping equals wrapping from scratch", "statement": "Whatever sequence of width changes, edits and background wrapping steps happened, for whatever visible windows: where no work is pending the soft breaks are exactly those of wrapping each logical line of the current text from its start; the background work never panics and always finishes, and then the result does not depend on the history.", "quantifier": "all texts, all wrapping rules, all histories of set_wrap_width, rewrap_chunk and after_edit", "why_tests_cant": "The breaks are patched piecewise while edits move the pending tasks around; the tests wrap a few short texts, but errors need several edits that arrive while work is pending in several places.", "anchors": ["rust/core-lib/src/linewrap.rs: Lines::set_wrap_width", "rust/core-lib/src/linewrap.rs: Lines::rewrap_chunk", "rust/core-lib/src/linewrap.rs: Lines::after_edit", "rust/core-lib/src/linewrap.rs: Lines::do_wrap_task"]}
{"id": "C55", "title": "Wrapping reports the changed visual lines", "statement": "When rewrap_chunk or after_edit reports that inval_count lines from start_line on became new_count lines, all visual lines up to start_line begin where they did, and all lines after the reported ones are the old ones, moved along with the text.", "quantifier": "all histories as in C54, all edits and visible windows", "why_tests_cant": "A wrong count leaves the client showing stale lines only for particular combinations of hard and soft breaks, end of text, and pending work.", "anchors": ["rust/core-lib/src/linewrap.rs: InvalLines", "rust/core-lib/src/linewrap.rs: Lines::rewrap_chunk", "rust/core-lib/src/linewrap.rs: Lines::after_edit"]}
{"id": "C56", "title": "Search that ignores case finds the first occurrence", "statement": "Searching forward without regard to case for a non-empty pattern returns the first position at or after the start where the lower case of the text starts with the lower case of the pattern, leaves the cursor at the end of the shortest such piece of text, and reports not-found only if there is none; a suspended search never passes over an occurrence.", "quantifier": "all texts, chunkings, patterns, start positions and step counts, all case tables that agree with Unicode on ASCII", "why_tests_cant": "The scanner looks for single bytes chosen by the first letter, with special cases for characters whose lower case is longer or shorter; the tests try two of them.", "anchors": ["rust/rope/src/find.rs: find_progress", "rust/rope/src/find.rs: compare_cursor_str_casei", "rust/rope/src/find.rs: scan_lowercase"]}
{"id": "C57", "title": "The front end shows what the view contains", "statement": "After any history of edits, invalidations, renderings and line requests, an update sent to the front end can be applied to the lines it has; afterwards it has exactly as many lines as the view, every line of the window (plus slop) or of the request is the line of the view, and every line not marked invalid has the right text, styles and cursors; no operation is empty.", "quantifier": "all views, all histories of edits, invalidations, updates and requests, all scroll positions", "why_tests_cant": "The core keeps only a shadow of the front end's state; a mistake shows after a particular sequence of edits, scrolling and updates, and only on the other side of the protocol.", "anchors": ["rust/core-lib/src/view.rs: send_update_for_plan, render_if_dirty, request_lines, set_dirty, encode_line", "rust/core-lib/src/line_cache_shadow.rs: LineCacheShadow, PlanIterator, RenderPlan", "docs/docs/frontend-protocol.md: update"]}
{"id": "C58", "title": "Merged styles are the plugins' styles laid over each other", "statement": "Through any history of scope definitions, span updates, edits, theme changes and plugin stops, each plugin's row of scopes is exactly what its own updates and the edits make it (removed when it is stopped, and never resurrected), its styles are the styles of its scopes, and the merged styles have the length of the text and give at every position the styles of all layers combined in the order of plugin ids. No operation panics.", "quantifier": "all histories of operations by any number of plugins over texts of any length, all themes", "why_tests_cant": "The incremental resolution touches only a range; that what lies outside it is still right depends on the whole history, and the trees have unboundedly many shapes.", "anchors": ["rust/core-lib/src/layers.rs: Layers::{add_scopes,update_all,update_layer,remove_layer,theme_changed,resolve_styles}, ScopeLayer", "rust/core-lib/src/styles.rs: Style::merge"]}
{"id": "C59", "title": "A scope stack is shown in the style the current theme gives it", "statement": "After any sequence of scope definitions and theme changes the style of every stack of scopes is the one the theme now in force gives it: its modifiers for all prefixes of the stack applied in order. The cache of styles never changes the result.", "quantifier": "all themes, all sequences of stacks and theme changes", "why_tests_cant": "The cache makes the result depend on the order in which stacks were first seen.", "anchors": ["rust/core-lib/src/layers.rs: ScopeLayer::{add_scopes,styles_for_stacks,theme_changed}"]}
{"id": "C60", "title": "The vectorised comparisons agree with the plain one", "statement": "The AVX and SSE versions of the byte comparison give the first index at which two byte strings differ, and the SSE backwards version the first index from the end, exactly as the plain loops do, whatever bytes lie in memory behind the strings; none of them panics.", "quantifier": "all pairs of byte strings of any lengths, all contents of the memory behind them", "why_tests_cant": "The result depends on the position of a difference relative to the stride and on memory the strings do not own; the plain version is not run on machines that have the instructions.", "anchors": ["rust/rope/src/compare.rs: ne_idx_avx, ne_idx_sse, ne_idx_rev_sse, ne_idx_fallback, ne_idx_rev_fallback"]}
{"id": "C61", "title": "Common prefixes and suffixes of ropes are exact", "statement": "The rope scanner gives the length of the longest common run of whole characters after (before) two offsets, or the given limit if that is less; the common suffix found for a diff does not overlap the common prefix.", "quantifier": "all pairs of balanced ropes of any shape, all offsets on character boundaries, all limits", "why_tests_cant": "The two ropes are cut into leaves at unrelated places, so the comparison meets every alignment of chunks.", "anchors": ["rust/rope/src/compare.rs: RopeScanner::{find_ne_char,find_ne_char_back,find_min_diff_range}"]}
{"id": "C62", "title": "The diff keeps a longest ascending choice of matching lines", "statement": "Of the matching lines found, the ones kept are in the order of the target, strictly ascending in the base, and as many as any such choice can have; the selection does not panic, and the list that is searched by bisection is always sorted.", "quantifier": "all non-empty lists of matches", "why_tests_cant": "Optimality is a statement about all other choices; a subtle slip in the patience-sorting algorithm still gives plausible results on most inputs.", "anchors": ["rust/rope/src/diff.rs: longest_increasing_region_set"]}
{"id": "C63", "title": "Emoji lookup is exact", "statement": "is_in_asc_list, called on a whole table in ascending order, returns true exactly if the character is in the table and never reads outside of it; both emoji tables are in ascending order, so is_emoji and is_emoji_modifier_base are membership in the tables, and every modifier base is an emoji.", "quantifier": "all characters; all tables in ascending order", "why_tests_cant": "The tests look up a few characters; an entry out of order or a boundary error of the search would hide only the characters near it.", "anchors": ["rust/unicode/src/lib.rs: is_in_asc_list, EmojiExt::is_emoji, EmojiExt::is_emoji_modifier_base", "rust/unicode/src/tables.rs: EMOJI_TABLE, EMOJI_MODIFIER_BASE_TABLE"]}
{"id": "C64", "title": "Every character has a line-break class, found without reading outside the tables", "statement": "linebreak_property, for every character, reads only inside its tables and gives a class below the number of classes; linebreak_property_str, at every character of every text, gives the same class and the length of the character.", "quantifier": "all characters; all texts and all characters in them", "why_tests_cant": "There are over a million characters and the lookup goes through four tables by encoded length; a wrong index panics only for the few characters whose block is affected.", "anchors": ["rust/unicode/src/lib.rs: linebreak_property, linebreak_property_str", "rust/unicode/src/tables.rs: LINEBREAK_1_2, LINEBREAK_3_ROOT, LINEBREAK_3_CHILD, LINEBREAK_4_ROOT, LINEBREAK_4_MID, LINEBREAK_4_LEAVES"]}
{"id": "C65", "title": "The line-break iterator is well-behaved and finds exactly the hard breaks", "statement": "For every text the iterator terminates without panicking; its breaks are strictly increasing, after the start, on character boundaries; an empty text has none and any other has one at its end. A break is marked hard exactly if it follows a line end (classes BK, CR, LF, NL) and does not part CR from LF.", "quantifier": "all texts", "why_tests_cant": "The state machine has thousands of entries and a wrong one shows only after a particular history of classes.", "anchors": ["rust/unicode/src/lib.rs: LineBreakIterator", "rust/unicode/src/tables.rs: LINEBREAK_STATE_MACHINE"]}
{"id": "C66", "title": "Line breaks are those of UAX #14", "statement": "In every text the positions where the iterator breaks, and the kind of the break, are those that rules LB1 to LB31 of UAX #14 give.", "quantifier": "all texts and all positions in them", "why_tests_cant": "The rules look back over unboundedly many characters (spaces, combining marks, regional indicators), so no finite set of test lines covers them; the generated table hides mistakes in the generator.", "anchors": ["rust/unicode/src/lib.rs: LineBreakIterator::next", "rust/unicode/src/tables.rs: LINEBREAK_STATE_MACHINE", "rust/unicode/tools/mk_tables.py"]}
{"id": "C67", "title": "The line-break cursor over a rope finds the breaks of the whole text", "statement": "Started at any place of a rope, LineBreakCursor gives the breaks that the line-break iterator finds in the text from there on, however the text is cut into leaves; it does not panic, ends, and its last break is at the end of the text. Started at a place where an earlier cursor found a break it finds what that one finds after it.", "quantifier": "all balanced ropes, all starting places on characters", "why_tests_cant": "The state of the machine is carried across leaves, and leaf boundaries fall at arbitrary characters of large texts.", "anchors": ["rust/core-lib/src/linewrap.rs: LineBreakCursor", "rust/unicode/src/lib.rs: LineBreakLeafIter"]}
{"id": "C68", "title": "Wrapping fills each logical line greedily", "statement": "However the work is batched, refilled and resumed, the breaks that the wrapping code leaves once it is done are those of filling each logical line by itself: every visual line is within the width or is one word, and it ends only where the next word does not fit or at a newline. The code does not panic.", "quantifier": "all texts, widths, ways to measure, and histories of edits, width changes and background work", "why_tests_cant": "The break finder keeps state over batches of ten thousand words, over leaves and over task boundaries; a resumed task has to agree with one from the start.", "anchors": ["rust/core-lib/src/linewrap.rs: RewrapCtx", "rust/core-lib/src/linewrap.rs: Lines::do_wrap_task, Lines::rewrap_chunk, Lines::after_edit"]}
{"id": "C69", "title": "Movements lead where they say", "statement": "Every movement of a caret or selection region (by grapheme cluster, word, line, page, paragraph or document) succeeds, stays within the text and on character boundaries, keeps the other end of the region exactly if the selection is being extended, and leads to the place its description gives; vertical movement keeps the column over shorter lines, right then left and down then up lead back, and line and column numbers convert back and forth. Moving a selection of many regions gives the union of the moved regions, sorted and disjoint.", "quantifier": "all texts, line wrappings, selections and movements, and all ways to cut text into grapheme clusters that keep newlines apart", "why_tests_cant": "The tests fix a few short texts; clamping interacts with soft breaks, multi-byte characters, \\r\\n, empty last lines and remembered columns.", "anchors": ["rust/core-lib/src/movement.rs: region_movement, selection_movement, vertical_motion, vertical_motion_exact_pos", "rust/core-lib/src/line_offset.rs: LineOffset"]}
{"id": "C70", "title": "A plugin's cached states follow the document", "statement": "A plugin that computes a state for the start of every line (as a syntax highlighter does) keeps some of them in a bounded cache. After any edit every cached state is still attached to the start of a line, with its right offset. Storing a state makes it the one that is found, whichever state is thrown out for it. States are right up to the first pending line, highlighting keeps it so and finishes, and when no line is pending every cached state is the one computed from the start of the document.", "quantifier": "all documents, edits, highlighters whose states can be compared, random choices of the cache, and all orders of edits, reads and highlighting, with a peer that may fail to answer", "why_tests_cant": "Entries, offsets and pending lines are shifted together by each edit, and a lost pending line shows only when an edit hits lines after an earlier one that has not settled.", "anchors": ["rust/plugin-lib/src/state_cache.rs: StateCache, set, get_prev, update_line_cache, patchup_frontier, truncate_cache", "rust/syntect-plugin/src/main.rs: highlight_one_line, idle"]}
{"id": "C71", "title": "Undo and redo show the earlier texts", "statement": "Whatever the front end and the plugins do, the text of the buffer is the one that a simple stack of texts shows: a command that does not continue the last one opens a step with its result, undo shows the text of the step before, redo that of the step after, and an edit after undo starts a new branch. The editor never panics on the way.", "quantifier": "all texts and all sequences of commands, undo, redo, played recordings, plugin edits against old revisions, acknowledgements, saves and reloads", "why_tests_cant": "Depends on how undo groups, the revisions in the engine and the moments of garbage collection interleave.", "anchors": ["rust/core-lib/src/editor.rs: Editor::add_delta, Editor::apply_plugin_edit, Editor::do_undo, Editor::do_redo, Editor::calculate_undo_group, Editor::gc_undos", "rust/core-lib/src/event_context.rs: EventContext::do_edit, EventContext::after_edit, EventContext::update_from_plugin"]}
{"id": "C72", "title": "Search highlights are exactly the matches", "statement": "The highlights a view keeps for a query are matches of it that do not overlap. The incremental search, which searches the visible part first and then the rest in batches, ends, and then the highlights are exactly the matches found from left to right, whatever was highlighted or searched before and however the window was scrolled. After an edit every highlight is still a match, and every match is highlighted, although only the lines of the edit are searched again.", "quantifier": "all texts and ropes, queries (plain text, with or without case, whole words or not), search ranges, scroll positions, and edits", "why_tests_cant": "Highlights are moved by the edit, some are dropped by two tests against its regions, and part of the text is searched again from a place that depends on the last highlight before it; errors show only for matches at certain distances from the edit or the end of the text.", "anchors": ["rust/core-lib/src/find.rs: Find::update_find, Find::update_highlights, Find::set_find, Find::is_matching_whole_words", "rust/core-lib/src/view.rs: View::do_find, FindProgress"]}
{"id": "C73", "title": "Find next and find previous visit the occurrences in turn", "statement": "Find next selects the first occurrence after the last selection, and find previous the last one before it, so that from one occurrence they go to its neighbour. After the last occurrence find next goes on with the first one if it is asked to wrap around, and not otherwise. With several queries the closest occurrence is selected. Find next that adds to the selection selects one more occurrence each time, and find all selects exactly the occurrences.", "quantifier": "all texts, sets of occurrences that do not overlap, selections (any number of regions and carets), queries, and ways to change the selection", "why_tests_cant": "The next occurrence is looked up with an interval that is moved by one depending on the kind of selection, in a structure whose range query treats touching regions in its own way; which occurrence comes out depends on who touches whom, and on which of two searches gives the answer.", "anchors": ["rust/core-lib/src/find.rs: Find::next_occurrence", "rust/core-lib/src/view.rs: View::do_find_next, View::select_next_occurrence, View::do_find_all", "rust/core-lib/src/selection.rs: Selection::regions_in_range"]}
{"id": "C74", "title": "A language server has the same document as the editor", "statement": "The position that is computed for an offset is the one the Language Server Protocol means (line, and UTF-16 code units before it on the line), and the offset computed for a position is the one the server means. After every edit the changes that are sent turn the document the server had into the document of the editor, whether the edit is an insertion, a deletion or something else; a server that wants whole documents gets them.", "quantifier": "all documents, edits, contents of the plugin's cache, places and positions, and kinds of synchronisation", "why_tests_cant": "Three units of length (bytes, UTF-16 code units, lines) and two versions of the text are involved, and the text is only seen through a cache of one chunk. Whether a range computed from the wrong version is harmless depends on what text happens to follow the edit.", "anchors": ["rust/lsp-lib/src/conversion_utils.rs: count_utf16, get_position_of_offset, offset_of_position", "rust/lsp-lib/src/utils.rs: get_document_content_changes, get_change_for_sync_kind", "rust/plugin-lib/src/dispatch.rs: Dispatcher::do_update"]}
{"id": "C75", "title": "The settings of a buffer are those of its layers, and changes are reported", "statement": "At any time the settings stored for every open buffer have, for every key, the value of the most important layer that has one: the user's override for the buffer, the system's override, what the user set for the buffer's language, what the plugin of the language set, the user's preferences, the defaults. The language is the one the user chose, or the one detected from the path. A table set for a domain replaces the former one exactly if it is acceptable, changes sent by the client leave other keys alone and null removes a key. Every operation reports, for every buffer, exactly the keys whose values it changes, with the new values. An override for one buffer changes no other one. No operation panics.", "quantifier": "all sequences of operations (tables set and modified in all domains, buffers opened, saved, closed, languages chosen, sets of languages loaded with the files of the user), all tables, buffers, languages and extensions", "why_tests_cant": "The values are kept three times (base and user tables, a cache for each domain, a collated configuration for each buffer) and each operation must rebuild the right ones; a mistake shows only for a certain order of operations and layers.", "anchors": ["rust/core-lib/src/config.rs: ConfigManager, ConfigPair, TableStack, LanguageTag", "rust/core-lib/src/syntax.rs: Languages"]}
{"id": "C76", "title": "A view knows its settings", "statement": "At any time when the setup of a view is finished, the client has been told, in config_changed messages for the view, the current value of every setting of its buffer: the last message with the key has the value that get_config would give. No operation of the client (views made, saved and closed, settings modified in all domains, languages chosen) panics, whatever the time of the idle callback that finishes the setup of new views.", "quantifier": "all sequences of operations and idle times, all tables, all results of whitespace detection", "why_tests_cant": "The messages only have the changes, so a single one that is lost, out of date or sent to the wrong view leaves the client with wrong settings for good; whether it happens depends on the order of requests and idle times.", "anchors": ["rust/core-lib/src/tabs.rs: do_new_view, finalize_new_views, detect_whitespace, handle_config_changes, do_modify_user_config, do_set_language, do_save, do_close_view", "rust/core-lib/src/event_context.rs: finish_init, config_changed"]}
{"id": "C77", "title": "Files are loaded and saved without loss", "statement": "A file that is well-formed UTF-8 is loaded, and saving the text unchanged gives the same bytes; a saved text is loaded again as it was. A save that fails or is interrupted at any step leaves the file as it was; one that works changes no other file. A buffer saved to its own file never overwrites contents that this buffer has not read or written, and a buffer that counts as unmodified has the text of its file. An event about a file never discards edits that were not saved. Nothing panics.", "quantifier": "all sequences of opening, editing, saving, closing, changes by other programs and events about them, for all texts, paths, times and points of failure", "why_tests_cant": "Loss needs another program and the editor to act on a file in a certain order, or a failure in the middle of a save; tests run with one program and a file system that works.", "anchors": ["rust/core-lib/src/file.rs: FileManager, try_load_file, try_save, try_decode", "rust/core-lib/src/tabs.rs: do_new_view, do_save, do_close_view, handle_open_file_fs_event", "rust/core-lib/src/event_context.rs: text_for_save, after_save, reload"]}
{"id": "C78", "title": "Gestures select what they should, and a view always has a valid selection", "statement": "After any sequence of clicks, drags, movements, scrolls and selection commands the selection of a view is not empty, sorted, disjoint and between characters of the text, and nothing panics. A click selects the point, word or line at its place; with multi it adds it to the selection or, on a caret or region, takes that out. A drag selects from the unit that was clicked to the unit under the mouse, and only depends on where the mouse is. Extending changes the last region and keeps its start. Splitting into lines selects the lines of each region, without their newlines. The cursor is then on the screen.", "quantifier": "all texts, all wrappings, all selections and drag states, all sequences of events, all lines and columns", "why_tests_cant": "The result depends on the selection, the drag state, the wrapping and the bytes of the text together; the failures need a region that ends inside a line, a multi-byte character, a scroll to nothing, or events in an unusual order.", "anchors": ["rust/core-lib/src/view.rs: do_edit, do_gesture, select, extend_selection, do_drag, unit, range_region, do_split_selection_into_lines, deselect_at_offset, set_scroll, scroll_to_cursor, goto_line", "rust/core-lib/src/edit_types.rs: EditNotification to EventDomain", "rust/core-lib/src/rpc.rs: GestureType"]}
{"id": "C79", "title": "Lines are sent with the right text, styles and cursors, and whatever a new selection changes is sent again", "statement": "Encoding a line does not crash. It has the text of the line; its styles, decoded as a front end does, are the find highlights, the selected parts and the style spans of the line, each in its place; its cursors are those of the regions whose cursor is on the line, so that over all lines each cursor is shown exactly once. When an event changes the selection, every part of every line that looks different afterwards has been invalidated, and a front end that is sent the update shows the new selection.", "quantifier": "all texts, wrappings, styles, highlights, selections and sequences of selection events; all states of the line cache", "why_tests_cant": "Whether a change of selection is shown depends on two selections, on the lines they cover and on the state of the cache; the failures are at the very end of texts that end with a newline.", "anchors": ["rust/core-lib/src/view.rs: encode_line, encode_styles, clamp, set_selection_raw, invalidate_selection, send_update_for_plan", "rust/core-lib/src/line_cache_shadow.rs: partial_invalidate"]}
{"id": "C80", "title": "Edits are shown", "statement": "After an edit, whoever made it, the view does not crash, its wrapping and selection fit the new text, and every line that looks different - in its text, styles, highlights, selection or cursors - is sent again, so that a front end shows the new text; so are the lines changed by background wrapping. This holds for any sequence of edits, selections, renderings and requests.", "quantifier": "all texts, wrappings, deltas, selections, styles and highlights, all states of the line cache and all sequences of these events", "why_tests_cant": "Whether a line is out of date depends on the edit, the wrapping, the selection before and after, the highlights and the history of the cache; a stale line looks right until something on it changed.", "anchors": ["rust/core-lib/src/view.rs: after_edit, rewrap, set_dirty, set_selection_for_edit", "rust/core-lib/src/linewrap.rs: after_edit, InvalLines", "rust/core-lib/src/selection.rs: apply_delta", "rust/core-lib/src/line_cache_shadow.rs: edit"]}
{"id": "C81", "title": "Search queries of a view", "statement": "When queries are set, each named one is changed in place, those not named are removed and new ones get fresh numbers; when anything changed, the view is drawn anew and the search begins again. While the search goes on, each highlight is a match, no step crashes, and a rendered window shows what has been found so far. The selection, or the word at the cursor, can be made the query.", "quantifier": "all lists of queries, texts, wrappings, selections, windows and states of the line cache, and all sequences of queries, steps of the search, renderings and requests", "why_tests_cant": "Stale highlights depend on which lines the front end already has when a later step of the search finds a match, and on which queries are named, dropped or repeated.", "anchors": ["rust/core-lib/src/view.rs: set_find, add_find, do_find, do_selection_for_find", "rust/core-lib/src/find.rs: set_find, update_find"]}
{"id": "C82", "title": "Spans of plugins for older revisions", "statement": "When a plugin sends spans for a range of a revision, they are put where that range is in the current text, whatever has been edited and undone since: each character that is still there gets the value sent for it, other characters keep theirs, the plugin's row stays as long as the text, and the view marks the lines whose styles have changed.", "quantifier": "all histories of the engine (edits, undos, collected garbage), all revisions, ranges and spans, all histories of the layers, all views", "why_tests_cant": "A plugin is always behind: what matters is where the edits since its revision lie relative to the range and to each span, and what later operations make of a row that no longer fits the text.", "anchors": ["rust/core-lib/src/editor.rs: update_spans, commit_delta", "rust/core-lib/src/view.rs: invalidate_styles", "rust/core-lib/src/layers.rs: update_layer", "rust/rope/src/spans.rs: transform"]}
{"id": "C83", "title": "Annotations are sent where they are", "statement": "With each update a view sends, as ranges of lines and columns on the screen, exactly the regions of the selection, the occurrences of the queries and the annotations of plugins that touch the lines on the screen, in order and each with its payload. What a plugin tells about a range of the text replaces what it has told about that range and nothing else, and after an edit each remaining annotation is about the text it was made for.", "quantifier": "all texts, wrappings, selections, queries and windows; all sequences of updates from any number of plugins and of edits", "why_tests_cant": "The spans of each plugin and kind are a tree of their own that is never told how long the text is; whether it fits depends on the whole sequence of updates and edits.", "anchors": ["rust/core-lib/src/annotations.rs: AnnotationStore, iter_range, update, invalidate", "rust/core-lib/src/editor.rs: update_annotations", "rust/core-lib/src/view.rs: send_update_for_plan", "rust/core-lib/src/selection.rs: get_annotations", "rust/core-lib/src/find.rs: get_annotations", "rust/rope/src/spans.rs: delete_after"]}
{"id": "C84", "title": "Style numbers mean what the text looks like", "statement": "Every number that stands for a style in a line of the front end has been explained to the front end before, and means the style of that text on top of the default of the current theme; numbers of the selection, of highlights of queries and of styles are never confused, one style has one number, and after a change of theme every line the front end has is about the new theme.", "quantifier": "all sessions: any number of views, any sequence of changes of text, selection, queries, styles and theme and of redraws, any themes", "why_tests_cant": "A number is given once and used for the rest of the session, by all views; whether it still means the right style depends on everything that was sent before and on the themes since.", "anchors": ["rust/core-lib/src/styles.rs: ThemeStyleMap, Style::merge", "rust/core-lib/src/view.rs: get_or_def_style_id, encode_styles, set_has_pending_render", "rust/core-lib/src/tabs.rs: do_set_theme, notify_client_and_update_views", "rust/core-lib/src/client.rs: def_style"]}
{"id": "C85", "title": "Themes follow their files", "statement": "The current theme is always what its name means: a theme of syntect, or what the file of that name has now. Its name is that of the last theme that was chosen and that there was, or the default one once the file is gone; the list of themes has exactly the themes of syntect and those that have a file; and the theme and the numbers of styles change only if the front end is told and the views are drawn again.", "quantifier": "all sequences of choices of a theme and of making, editing, deleting and renaming files of themes", "why_tests_cant": "What is shown depends on which themes were loaded before, in which order, and on what happened to their files since.", "anchors": ["rust/core-lib/src/tabs.rs: do_set_theme, handle_themes_fs_event, load_theme_file, remove_theme", "rust/core-lib/src/styles.rs: set_theme, load_theme, load_theme_info_from_path, remove_theme, sync_dir, validate_theme_file"]}
{"id": "C86", "title": "Messages of a language server arrive whole", "statement": "From the stream of bytes of a language server exactly the bodies of its messages are read, one after the other and byte for byte, however their headers are ordered, written in upper or lower case and ended; what the plugin sends is a message of the same form. Whatever the stream is, what is read as a message is well-formed text that was in the stream, and a message with an unknown header costs no other message.", "quantifier": "all lists of messages with any bodies in UTF-8 and any headers the protocol knows; all streams of bytes", "why_tests_cant": "Bodies and headers are arbitrary bytes; a mistake of one byte in one message spoils all later ones.", "anchors": ["rust/lsp-lib/src/parse_helper.rs: parse_header, read_message", "rust/lsp-lib/src/language_server_client.rs: prepare_lsp_json", "rust/lsp-lib/src/utils.rs: start_new_server"]}
{"id": "C87", "title": "A language server sees the documents as they are", "statement": "Whatever views are opened, edited, saved, asked for hovers and closed, the plugin for language servers does not panic; it sends to each server only what the protocol allows (one initialize, nothing before its answer, changes, saves and closes only of open documents, with versions that grow); the document that a server has is the text of the view; and a hover is shown in the view that asked for it, under the number of its request.", "quantifier": "all sequences of events of views and answers of servers, for any number of views, languages and servers", "why_tests_cant": "Answers of servers come at any time between the events of views; the queue of results and the numbers of requests are shared by all of them.", "anchors": ["rust/lsp-lib/src/lsp_plugin.rs: new_view, update, did_save, did_close, get_hover, idle", "rust/lsp-lib/src/language_server_client.rs: LanguageServerClient", "rust/lsp-lib/src/result_queue.rs"]}
{"id": "C88", "title": "Insertions at the same place are ordered by priority, then by session", "statement": "When an edit computed against an older revision inserts text at the very place where an edit made since then has inserted text, the text of the edit with the lower priority stands first; with equal priorities that of the lower session stands first, and within one session the older one.", "quantifier": "all reachable histories, all retained base revisions, all edits made since, all well-formed edits and priorities", "why_tests_cant": "Any number of edits may lie between base and head, each with its own insertions, deletions and priority; a test fixes a few of them.", "anchors": ["rust/rope/src/engine.rs: Engine::mk_new_rev, FullPriority", "rust/rope/src/multiset.rs: Subset::transform_union", "rust/rope/src/delta.rs: InsertDelta::transform_expand"]}
{"id": "C89", "title": "Everybody who watches a file is told of its changes, and nobody else", "statement": "Whoever has asked to watch a path is told of every later change to it, to the files directly in it and, for recursive watches, to everything below, if the filter accepts it, until the watch is ended: once for each watch, in the order of the changes. Ending one watch does not disturb others of the same path or of paths below. Nobody is told of anything else.", "quantifier": "all sequences of beginning and ending watches (recursive or not, with any filters and tokens), changes to files of any kind, and idle tasks", "why_tests_cant": "Watches overlap in the tree of directories and are begun and ended in any order; the tests of the module try two such situations with real files and timers.", "anchors": ["rust/core-lib/src/watcher.rs: FileWatcher::watch_impl, FileWatcher::unwatch, FileWatcher::take_events, Watchee::wants_event, Watchee::applies_to_path"]}
{"id": "C90", "title": "The plugin for highlighting gives each byte its scopes, and the core understands its numbers", "statement": "Each stack of scopes has one number, different stacks have different numbers, and the number is the place of the stack in the table the core builds from what it is told. Whatever lines are highlighted, in whatever order, the spans the plugin sends tell the core the scopes the parser gives for each byte of those lines, before any number is used it has been announced, and no operation panics. After a document has been opened all of it is highlighted like this, as parsing it from its start gives.", "quantifier": "all parsers that report changes of the stack in order, all documents, all sequences of highlighted lines, flushes, looks at the syntax for comments and indentation, and new beginnings (save, change of language), all evictions from the cache of states, all interruptions", "why_tests_cant": "The numbers depend on the whole history of stacks met since the view was opened; the tests of the crate only look up a few stacks in the map.", "anchors": ["rust/syntect-plugin/src/stackmap.rs: StackMap::get_value, Node::get_value", "rust/syntect-plugin/src/main.rs: PluginState::compute_syntax, PluginState::identifier_for_stack, PluginState::highlight_one_line, PluginState::flush_spans, Syntect::do_highlighting, Syntect::idle", "rust/core-lib/src/layers.rs: ScopeLayer::add_scopes"]}
{"id": "C91", "title": "Commenting out lines puts markers at their common margin and takes them away again", "statement": "When comments are toggled for the selected lines, the plugin is told each selected line once, in ranges that do not touch. A range whose first line is no comment gets the marker on each line that is no comment, at the least of the margins of its lines; from a range whose first line is a comment the markers are taken away; all else in the text stays as it is and nothing panics. Toggling a second time gives back the first text, and a line that is no comment loses nothing.", "quantifier": "all texts, all selections, all markers, all ranges in order within the text", "why_tests_cant": "The repository has no test for it; lines that mix comments, margins and markers within lines are too many to list.", "anchors": ["rust/syntect-plugin/src/main.rs: PluginState::toggle_comment, toggle_comment_line_range, insert_comment_marker, remove_comment_marker", "rust/core-lib/src/event_context.rs: EventContext::selected_line_ranges"]}
{"id": "C92", "title": "Lines are indented as the lines before them and the metadata ask, and nothing else changes", "statement": "After a newline, while typing, after a paste, and on the command to reindent, each line concerned gets the columns of the last line before it that is not blank, one tab more after a line that opens, one tab less if it closes itself; only its blanks change, all other lines stay, and the plugin does not panic. Reindenting a second time changes nothing.", "quantifier": "all texts, all configurations, all metadata, all lists of tasks and ranges", "why_tests_cant": "The repository has no test for it. Several tasks come together only when edits arrive faster than the plugin is idle, or with several cursors.", "anchors": ["rust/syntect-plugin/src/main.rs: PluginState::indent_lines, consider_indentation, bulk_autoindent, autoindent_line, check_indent_active_edit, set_indent, test_increase, test_decrease, previous_nonblank_line, indent_level_of_line, reindent, n_spaces, n_tabs"]}
{"id": "C93", "title": "Plugins are started, told and stopped, and what stopped plugins said is forgotten", "statement": "No two processes of plugins have the same number. Each running plugin is told of each open view once and of its closing; a plugin that was stopped or ended hears nothing more and its styles and annotations leave all views for ever, whatever it still sends. The front end knows at all times which plugins run, no plugin runs twice, a plugin that is stopped does not run, changes in the directory of a plugin concern that plugin, and nothing panics.", "quantifier": "all catalogs, all interleavings of requests to start and stop, of launches that come to an end or fail, of exits, of new, finished and closed views, of notifications from plugins that run or ran, and of events in the directory of the plugins", "why_tests_cant": "Launches end in other threads at any time, and notifications of a plugin can arrive after it was stopped; the repository has no test with plugins.", "anchors": ["rust/core-lib/src/tabs.rs: CoreState::do_start_plugin, do_stop_plugin, do_plugin_rpc, after_stop_plugin, plugin_connect, plugin_exit, plugin_notification, finalize_new_views, do_new_view, do_close_view, handle_plugin_fs_event, finish_setup", "rust/core-lib/src/plugins/catalog.rs: PluginCatalog", "rust/core-lib/src/plugins/mod.rs: Plugin, start_plugin_process", "rust/core-lib/src/event_context.rs: EventContext::finish_init, close_view, plugin_info, plugin_stopped, do_plugin_cmd", "rust/core-lib/src/layers.rs: Layers::remove_layer, create_if_missing"]}
{"id": "C94", "title": "The experimental highlighter cuts Rust into true tokens", "statement": "On any text that is not empty and in any state the parser gives an answer: it takes at least one character, cuts between characters, stays within the text, and the state of the token says what the token is (keyword, type, number, operator, character, escape, comment, string); words on the lists of keywords and types are found where they stand by themselves; the decoder of UTF-8 accepts exactly encoded characters.", "quantifier": "all texts of any characters, all contexts reached by pushes, all readers (in code, in comments nested to any depth, in a string)", "why_tests_cant": "The repository tests a handful of numbers and one decoder; a token that is cut inside a character, or an answer of length 0 that makes the loop run for ever, depends on what precedes it.", "anchors": ["rust/experimental/lang/src/peg.rs: Peg, OneByte, OneChar, Alt, OneOf, Optional, Repeat, ZeroOrMore, decode_utf8", "rust/experimental/lang/src/language/rust.rs: RustParser::parse, quoted_str, numeric_literal, escape, char_literal, whitespace, is_ident_start"]}
{"id": "C95", "title": "The experimental highlighter covers each line with true spans and keeps track of comments and strings", "statement": "The number of a state stands for one stack, and equal stacks have equal numbers. The spans of a line follow each other from its beginning to its end; what a span says about its text is true; the state at the end of a line is that of a reader who has read it, and the next line is read in that state.", "quantifier": "all lines, all contexts reached by pushes, all offsets", "why_tests_cant": "Contexts grow with everything that was ever highlighted, and errors in states show only lines later; there is no test of compute_syntax.", "anchors": ["rust/experimental/lang/src/statestack.rs: Context::tos, pop, push", "rust/experimental/lang/src/main.rs: ViewState::compute_syntax, highlight_one_line", "rust/experimental/lang/src/language/rust.rs: RustParser::get_scope_id_for_state"]}
{"id": "C96", "title": "The experimental highlighter and the core agree on the numbers of scopes", "statement": "At all times a number the plugin uses for a scope is the number of that scope in the table the core keeps for the plugin, and what is in the table stays there.", "quantifier": "all sequences of languages given to a view and of saves", "why_tests_cant": "The two tables are in different processes and agree in the first run of any language; only a save followed by a change of language sets them apart.", "anchors": ["rust/experimental/lang/src/main.rs: ViewState::do_highlighting, did_save, language_changed", "rust/experimental/lang/src/language/plaintext.rs: PlaintextParser", "rust/core-lib/src/layers.rs: ScopeLayer::add_scopes"]}
{"id": "C97", "title": "What is written for the other side is read there as it was", "statement": "Each value that is written by hand-made serialisation (ids of views, commands for views and of plugins, mouse actions, ranges, edits, samples of the tracer) is read back as the same value; what is read is what somebody could have written; and reading never crashes.", "quantifier": "all values of these types, and all JSON values that may arrive", "why_tests_cant": "The tests read a few messages with the usual shape; the values that do not come back, and the messages that crash the reader, are in the corners of the types: a missing number of clicks, an array that is too short, a comma in a name.", "anchors": ["rust/core-lib/src/tabs.rs: ViewId", "rust/core-lib/src/rpc.rs: EditCommand, MouseAction, LineRange, EditNotification", "rust/core-lib/src/plugins/rpc.rs: PluginCommand", "rust/core-lib/src/annotations.rs: AnnotationRange", "rust/rope/src/serde_impls.rs: Rope, DeltaElement, Delta", "rust/trace/src/lib.rs: CategoriesT, SampleEventType, Sample, SampleArgs"]}
{"id": "C98", "title": "The tracer keeps the newest samples, only while it is on, with blocks in balance", "statement": "Whatever threads do, the store of samples has the newest of those recorded, never more than the limit in force, and none while tracing is off; a block that has a beginning in the store also has its end there and the other way round; exported samples are preceded by the names of their processes and threads, with the right time; sorting them by time loses nothing and keeps beginnings before ends and names in turn; a tracer saves its own samples.", "quantifier": "all sequences of steps of any number of threads, all samples and limits", "why_tests_cant": "Tests use one thread and do not switch tracing on and off within a block; the check and the recording are two steps that others can come between.", "anchors": ["rust/trace/src/lib.rs: Trace, SampleGuard, Sample::new_metadata, samples_cloned_unsorted, samples_cloned_sorted, save"]}
{"id": "C99", "title": "The core starts once, and serves what comes after that", "statement": "The state of the core is set up at the first client_started and is then given that message and all that follow, in order; messages before the start, a second start, and a failure in the thread of a plugin do not end the process.", "quantifier": "all sequences of messages from the front end and from plugins, all behaviours of the state", "why_tests_cant": "Tests send client_started first and once; a panic in the thread of a plugin is not tested, and what it does shows only with the next message of the front end.", "anchors": ["rust/core-lib/src/core.rs: XiCore, WeakXiCore, Handler for XiCore, Handler for WeakXiCore"]}
{"id": "C100", "title": "The settings follow their files", "statement": "After the start, and after any changes of the files of the settings' folder, in whatever order the editor hears of them, what the user has set in general and for each language is what is in the file of that name in the folder: nothing if there is no file, and what was set before if the file is not acceptable, with a message for the user. No file makes the editor panic, and files elsewhere do not count.", "quantifier": "all files, all sequences of writing, removing and renaming them, interleaved in any way with the handling of the events, all names of languages", "why_tests_cant": "Tests set tables directly; none writes a file, and the order of late events and the names of languages are unbounded.", "anchors": ["rust/core-lib/src/config.rs: domain_for_path, load_user_config_file, ConfigDomain::file_stem, from_toml_value, base_config_file_path", "rust/core-lib/src/tabs.rs: handle_config_fs_event, load_file_based_config, remove_config_at_path, set_config, finish_setup", "rust/core-lib/src/plugins/catalog.rs: load_manifest"]}
{"id": "C101", "title": "Work put off is on the agenda", "statement": "The core puts off drawing a view, wrapping its lines and searching it. Between events, whatever a view has to tell the front-end has been told or drawing that view is on the agenda; a search that has not come to its end, lines that are still to be wrapped and views still to be set up are on the agenda as well. What is on the agenda leads back to the right view and the right work, so with an empty agenda nothing is left to do. Nothing panics.", "quantifier": "all sequences of edits, recordings, messages of plugins, new settings, reloads, saves, new and closed views, and all orders in which idle tokens and timers come back, whatever the parts of a view do", "why_tests_cant": "Tests send a few edits and never run idle handlers or timers; the interleavings of edits with work put off are unbounded.", "anchors": ["rust/core-lib/src/event_context.rs: do_edit, dispatch_event, do_special, after_edit, render_if_needed, _finish_delayed_render, update_wrap_settings, do_rewrap_batch, do_incremental_find, finish_init, after_save, config_changed, reload, plugin_stopped", "rust/core-lib/src/tabs.rs: handle_idle, finalize_new_views, handle_render_timer, handle_rewrap_callback, handle_find_callback, do_new_view, do_close_view, notify_client_and_update_views", "rust/core-lib/src/linewrap.rs: after_edit, rewrap_chunk"]}
{"id": "C102", "title": "The front end shows the right line numbers", "statement": "After any history of edits, invalidations, renderings and line requests, every line the front end has after an update shows the number of its logical line if it begins one and no number if it is the rest of a wrapped line, whether the line was sent, copied from another place or only given new cursors. The number an update op has for its first line agrees with the numbers of its lines.", "quantifier": "all texts and wrappings, all histories of edits, invalidations, updates and requests, all scroll positions", "why_tests_cant": "Numbers of copied lines are not sent but counted by the front end from one number; whether they come out right depends on which lines it had before, which are wrapped and which it does not know.", "anchors": ["rust/core-lib/src/view.rs: send_update_for_plan, encode_line, render_if_dirty, request_lines", "rust/core-lib/src/client.rs: UpdateOp", "rust/core-lib/src/linewrap.rs: VisualLines, iter_lines", "docs/docs/frontend-protocol.md: update"]}
{"id": "C103", "title": "A hover shows what the server said, where it said it", "statement": "The text of a hover, read as Markdown, is the parts of the server's answer one after the other: code as code of its language, text as text. It is refused exactly if there is nothing in it. The range of a hover is the part of the text that the server means by its positions; positions beyond a line or the text never panic, and the ends of the range are between characters and in order if the positions are.", "quantifier": "all answers with any number of parts, all languages and texts, all ranges, all texts of the view and all states of the plugin's cache of it", "why_tests_cant": "There are no tests for hovers; the text is put together from parts of any content and the range depends on UTF-16 columns and on which part of the text the plugin has at hand.", "anchors": ["rust/lsp-lib/src/conversion_utils.rs: marked_string_to_string, markdown_from_hover_contents, core_range_from_range, core_hover_from_hover, offset_of_position", "rust/lsp-lib/src/lsp_plugin.rs: get_hover, idle", "rust/core-lib/src/event_context.rs: do_show_hover"]}
{"id": "C104", "title": "Status items show the tasks of the language server", "statement": "The status bar of each open view shows exactly the tasks that the language server has begun and not ended, each once and with its latest text, in the order in which they began. Closed views hear nothing. Nothing a server sends makes the plugin panic.", "quantifier": "all sequences of views opened and closed and of notifications of the server, with any ids, titles, percentages and messages", "why_tests_cant": "Whether a bar is right depends on the whole history of tasks and views; there is no test with a language server.", "anchors": ["rust/lsp-lib/src/language_server_client.rs: handle_notification, handle_misc_notification, handle_rust_misc_notification, add_status_item, update_status_item, remove_status_item, send_did_open, send_did_close", "rust/core-lib/src/event_context.rs: do_plugin_cmd", "rust/plugin-lib/src/core_proxy.rs: CoreProxy"]}
{"id": "C105", "title": "Each document goes to the server of its language and workspace", "statement": "The language of a document is the one configured for its extension, whatever the order of the configuration. The root of its workspace is the innermost folder above it that has an entry with the name configured for the language. Documents of one language in one workspace go to one server, documents of different languages to different ones; documents outside any workspace go to the server for single files if the language has one. Nothing panics.", "quantifier": "all paths, all contents of the folders, all configurations", "why_tests_cant": "The result depends on the contents of all folders above a document, on folders that cannot be read and on the order in which a hash map is walked; no test covers it.", "anchors": ["rust/lsp-lib/src/utils.rs: get_workspace_root_uri", "rust/lsp-lib/src/lsp_plugin.rs: new_view, get_language_for_view, get_lsclient_from_workspace_root", "rust/lsp-lib/src/types.rs: LanguageConfig"]}
{"id": "C106", "title": "Each answer of a language server reaches the request it belongs to", "statement": "No two requests to a language server have the same id. Each answer calls the callback of the request with its id, once, whether the server writes the id as a number or as a string of digits. Anything else a server sends leaves the requests alone. No message makes the plugin panic, and requests of the server are answered.", "quantifier": "all sequences of requests and messages, answers in any order, all forms of ids", "why_tests_cant": "Ids are converted between u64, i64 and strings, and answers come in any order from another process; no test has a server.", "anchors": ["rust/lsp-lib/src/language_server_client.rs: number_from_id, handle_message, handle_response, send_request", "rust/lsp-lib/src/utils.rs: start_new_server"]}
{"id": "C107", "title": "Plugins are found and loaded as their manifests say", "statement": "Loaded are exactly the plugins whose manifests are in one of the given folders or in a folder in it, whatever is wrong with other manifests. Each has its name, its program, taken from the folder of the manifest if its path is relative, and its languages with the settings that are in the folder for them. Each can be had by its name and by its place, until it is removed.", "quantifier": "all contents of folders and files, all lists of paths, all catalogs before", "why_tests_cant": "The result depends on the whole file system, with entries that cannot be read, files that cannot be parsed and names used twice; the tests load no manifest from a folder.", "anchors": ["rust/core-lib/src/plugins/catalog.rs: find_all_manifests, load_manifest, load_from_paths, reload_from_paths, get_named, remove_named"]}
{"id": "C108", "title": "A plugin's views are what the core says", "statement": "After any messages of the core, the plugin library has exactly the views that were opened and not closed since, and each has the path, the language, the revision, the size, the undo group and every setting that were said last. A message changes no view that it is not about. The plugin hears each message with the view it is about, an update of a view that is not there is answered with an error, and edits are sent for the revision the core sent last. No message makes the library panic.", "quantifier": "all lists of messages, all views, all tables of settings, all ways to decode them", "why_tests_cant": "Messages about many views come in any order, with settings changed key by key and views closed and opened again; the dispatcher has no tests.", "anchors": ["rust/plugin-lib/src/dispatch.rs: Dispatcher, do_initialize, do_new_buffer, do_did_save, do_config_changed, do_language_changed, do_close, do_update", "rust/plugin-lib/src/view.rs: View::new, update, edit"]}
{"id": "C109", "title": "Edits get into the ledger, and edits from there are merged", "statement": "Every edit of a buffer with a store comes to be in what was last put into the ledger, whatever states come from other devices in between. A state from the ledger is merged, which asks for no new transaction, and the ledger is told so. No order of events makes the editor commit without a transaction. A conflict is resolved with what both sides know.", "quantifier": "all sequences of edits, answers of the ledger, changes there and turns of the updater, all engines with a merge", "why_tests_cant": "Edits, the answers of the ledger and the thread of the updater interleave in any order; the code runs on one system only and has no tests.", "anchors": ["rust/core-lib/src/fuchsia/sync.rs: SyncStore, SyncUpdater::work, PageWatcherServer::on_change, ConflictResolverServer::resolve", "rust/core-lib/src/editor.rs: sync_state_changed, transaction_ready, merge_new_state, commit_delta"]}
{"id": "C110", "title": "The sample plugin capitalises the word before an exclamation mark", "statement": "If an edit inserts a single exclamation mark and nothing else, the sample plugin sends one edit that turns the word before the mark, back to the last white character, into capitals and changes nothing else; it acts on no other edit and not on its own; it does not panic.", "quantifier": "all texts and edits, all maps of characters to capitals that leave white characters alone", "why_tests_cant": "There are no tests of the sample plugin; that a mark at the start of a line makes the loop run past its end and the slice panic needs the one position where the loop's condition is never met.", "anchors": ["rust/sample-plugin/src/main.rs: SamplePlugin::update, SamplePlugin::capitalize_word", "rust/rope/src/delta.rs: Delta::as_simple_insert, Delta::summary"]}
{"id": "C111", "title": "Flags decide where the log goes, then the environment, and there always is a log", "statement": "The value of a flag is the last that the command line gives for it; the directory and the file of the log come from their flags, else from the environment, else from the defaults, and are joined as paths; the log has the level asked for and goes to standard error and to that file, and to standard error alone if there is no such file.", "quantifier": "all command lines, environments, paths and file systems", "why_tests_cant": "The program has no tests of its command line; that a file that cannot be opened turns off the log on standard error as well shows only if opening fails.", "anchors": ["rust/src/main.rs: get_flags, extract_env_or_flag, generate_logfile_config, generate_logging_path, create_log_directory, setup_logging, main"]}
{"id": "C112", "title": "Notifications become the events that their names say", "statement": "Every notification of a front end about a view becomes one event with the same contents: the cursor moves, or the selection is changed, exactly for the names that ask for it and by the movement that the name says; deletions are on the side that the name says; all else becomes the event of its own name; and two notifications become the same event only if they are synonyms or one is deprecated for the other.", "quantifier": "all notifications with all contents", "why_tests_cant": "There are more than eighty kinds of notifications, in pairs that are easily mixed up, and tests send a few of them.", "anchors": ["rust/core-lib/src/edit_types.rs: impl From<EditNotification> for EventDomain", "rust/core-lib/src/rpc.rs: EditNotification"]}
