# Formal model of xi-editor: design

The code under study is `/repo/rust` (google/xi-editor, pinned commit).  The
model is Lean 4 (4.33.0, kernel-checked), in `lean/Verif/`.  It was written by
reading the Rust text; the Rust code was never built or run.

## Layout

* `Verif/<Area>/Model.lean`-style files: one Lean definition per Rust function,
  each with a comment citing file and lines.  All definitions are total and
  computable; a Rust panic (assert, slice out of range, subtraction underflow,
  explicit `panic!`) is the value `none`.
* `Verif/Spec/*.lean`: small independent specifications (lists, sets of
  positions, counting), with no reference to the model.
* `Verif/Proofs/*` and lemma sections: helper lemmas.
* `Verif/Props/*.lean`: property theorems only, each with an `example` showing a
  concrete non-trivial instance that meets its hypotheses.

Modelling conventions, used throughout:

* `usize` is `Nat`.  Underflow is modelled (explicit check giving `none`);
  overflow past 2^64 is not.
* `Vec<T>` is `List T`; `HashMap`/`BTreeMap`/`BTreeSet` are association lists or
  sorted lists with the map laws that the code uses.
* Text at the level of edits (deltas, engine) is a `List α` for an arbitrary
  element type (instantiate: bytes).  The rope representing the text is
  modelled separately (tree level) and shown to denote a list.
* Mutation is state passing; iterators are recursive functions or explicit
  state machines, as close to the source loop as possible.
* Serialisation, logging/tracing, threads (except the RPC pending table, which
  is a transition system), and I/O are not modelled.

## Per-property plan

| id | modelled | how proved |
|----|----------|-----------|
| C01 | `tree.rs` Node/TreeBuilder with generic leaf, `rope.rs` string leaf | refinement to lists by structural/well-founded induction; every operation's content = list operation |
| C02 | same | balance invariant `WF` preserved by every operation; operations return `some` |
| C03 | `find_leaf_split`, `push_maybe_split`, boundary predicate on bytes | UTF-8 validity as a predicate on byte lists; split gives two valid strings |
| C04, C05 | `convert_metrics`, `LinesMetric`, `line_of_offset`, `offset_of_line` | descend lemma by induction on the tree; counting spec on lists. The out-of-range case is refuted separately |
| C06 | `Cursor` with parent cache, `ChunkIter`, `LinesRaw` | cursor invariant: path + remaining leaves |
| C07-C10 | `multiset.rs`, all of it | denotation `List Segment → List Nat` and normal form; each op is pointwise; canonical representation theorem |
| C11-C16 | `delta.rs`, all of it | denotations over lists; mask algebra on `List Nat` |
| C17 | `InsertsIter`/`DeletionsIter` | refuted by witness (offset accounting bug); partial theorem for the class where it holds |
| C18-C26 | `engine.rs` Engine with edits/undo/gc | invariant over all operation histories relating state to an abstract history of (inserting group, deleting groups) per character |
| C27, C28 | `Engine::merge` and helpers | convergence from the insertion diamond; concrete limits documented |
| C50 | the same, for any number of replicas | refuted for shared priorities; for priorities of one's own by an invariant on the order of concurrent insertions |
| C29, C30 | `editor.rs` undo groups, `event_context.rs` order of calls | transition system; invariant over all command sequences; the pristine flag by the equivalence theorem of the engine, refuted after gc |
| C31 | `index_set.rs` | membership spec; `next_back` refuted |
| C32 | `selection.rs` | sortedness invariant and membership; crash witness for `delete_range` |
| C33, C34 | `line_cache_shadow.rs` | lines denoted as list of per-line records; pointwise spec |
| C35 | `breaks.rs`, `linewrap.rs` | list-of-breaks spec |
| C36 | `spans.rs` merge | pointwise spec over positions |
| C37 | `diff.rs`, `compare.rs` | apply(diff)=target; the factored (reload) claim refuted |
| C38 | `find.rs` | first-occurrence spec on lists |
| C39 | `recorder.rs` | list spec; refuted for consecutive undos, partial otherwise |
| C40 | `width_cache.rs` | invariant over batches; failing measurement refuted |
| C41 | `fixed_lifo_deque.rs` | last-n spec |
| C42 | `plugin-lib/base_cache.rs`, `plugin_get_data` in `editor.rs` | coherence invariant over edits, fetches and failing peers; reads equal to the document; endless loop witness beyond the end |
| C43 | `edit_ops.rs`, `backspace.rs` | every command as a list of replacements (C13) per region or line; crash witnesses |
| C44 | `line_ending.rs`, `whitespace.rs` | chunk-independence refuted; partial |
| C45 | `word_boundaries.rs` | progress and bounds by induction |
| C46 | `backspace.rs` | state-machine invariant |
| C47 | `rpc/lib.rs`, `rpc/parse.rs`, `rpc/error.rs` | transition system of the reader thread, the main loop and any number of senders; invariants over all schedules; witnesses for the malformed id, and for a caller that waits for ever |
| C48 | `linewrap.rs` tasks | set of pending places; exactness after edits refuted for tasks out of order |
| C49 | `interval.rs` | set membership |
| C53 | `linewrap.rs`: `MergedBreaks`, `VisualLines` | invariant on the two cursors; counting spec |
| C54 | `linewrap.rs`: `set_wrap_width`, `rewrap_chunk`, `after_edit` | invariant: breaks are right where nothing is pending; edits with tasks out of order refuted |
| C55 | same | counting lines before and after; edits into pending work refuted |
| C56 | `find.rs`: search that ignores case | as C38, against lower case given by tables; upper-case non-ASCII patterns and final sigma refuted |
| C57 | `line_cache_shadow.rs`, `view.rs`: updates of the front end | invariant of a state machine of core and front end; ghost cursors, stale off-screen cursors, empty operations refuted |
| C58 | `layers.rs` histories of all operations | invariant: rows, styles, merged = fold over layers; refuted for edits that shorten the text past the old range |
| C59 | `layers.rs` styles of scope stacks | cache invariant; refuted for root scopes, unknown prefixes, stale cache |
| C60 | `compare.rs`: vector comparisons | first difference, junk bytes universally quantified |
| C61 | `compare.rs`: `RopeScanner` | longest common run of whole characters, by induction over leaves; backwards refuted |
| C62 | `diff.rs`: `longest_increasing_region_set` | patience-sorting invariant; against all sublists |
| C63 | `unicode/src/lib.rs`: `is_in_asc_list`, `is_emoji` | induction on the interval; tables checked by evaluation |
| C64 | `unicode/src/lib.rs`: `linebreak_property`, `linebreak_property_str` | index arithmetic by length of the encoding; tables checked by evaluation |
| C65 | `unicode/src/lib.rs`: `LineBreakIterator` | induction on the text; a property of every entry of the state machine, checked by evaluation |
| C66 | the same | simulation: states of the machine against what the rules of UAX #14 look at, checked by evaluation for all states and classes |
| C67 | `linewrap.rs`: `LineBreakCursor`; `unicode/src/lib.rs`: `LineBreakLeafIter` | refinement: what a cursor will still give, as a list; breaks in leaves against breaks in the whole text |
| C68 | `linewrap.rs`: `RewrapCtx`, `do_wrap_task` | refinement: the breaks ahead as a list; the whole text against each line by itself |
| C69 | `movement.rs`, `line_offset.rs` | lines as a sorted list of starts, for logical and visual lines alike; each movement against its description |
| C70 | `plugin-lib/state_cache.rs`, `highlight_one_line` and `idle` in `syntect-plugin/main.rs` | invariant: each cached state follows from the one before or a line between is pending; counterexamples for edits that lose a pending line |
| C71 | same | simulation of a stack of texts by editor and engine together, using C18-C26; witnesses for groups named by plugins and for recordings |
| C72 | `core-lib/find.rs`, `do_find` in `view.rs` | exactness of the search loop by induction over the text, termination of the batches by a measure; soundness after edits from the regions of C17 and the summary; witnesses for missed, lost and bogus highlights and for whole words |
| C73 | `next_occurrence` in `core-lib/find.rs`, find next and find all in `view.rs` | the range query as a filter; induction over the number of commands; witnesses for what is left out when occurrences touch, and a proof that wrapping around cannot be switched off |
| C74 | `lsp-lib/conversion_utils.rs`, the changes sent to a language server in `lsp-lib/utils.rs` | what a server makes of positions and changes (`Spec/Lsp.lean`, after the protocol); composition of the reads of C42; witnesses for deletions whose end is looked up in the text after the edit |
| C75 | `core-lib/config.rs` (all but files and directories), the languages of `core-lib/syntax.rs` | settings as functions, layers of a buffer (`Spec/Config.lean`); the manager refines them, by an invariant over tables, caches and stored configurations; induction over runs; witnesses for keys that vanish, plugin defaults that are not checked, null |
| C76 | the parts of `core-lib/tabs.rs` that change settings or send them | last value in the messages against the layers of C75; invariant over managers, views, pending views and messages; induction over runs; witnesses for stale values and a panic between the request and the setup of a view |
| C77 | `core-lib/file.rs`, opening, saving, closing and reloading in `core-lib/tabs.rs` | a file system as a function, saves as lists of steps that may fail; an invariant over what each buffer last read or wrote; induction over runs with another program; witnesses for races, files opened twice, files that appear, swap files, removed files |
| C78 | selection events of `core-lib/view.rs` | the invariant of a view; units of text as in C45 and C69; drags as functions of the last place; lines of a region by recursion over its bytes; induction over sessions; witnesses for lost, extra and half characters, empty screens, stale drags |
| C79 | `encode_line` and `encode_styles` of `core-lib/view.rs`, and what `set_selection` invalidates | a decoder for styles; lines from the visual lines of C53; cursors concatenated over the lines; the screens before and after, compared through one without a selection; steps of C57; sessions by induction; witnesses for a cursor shown twice and one left behind |
| C80 | `after_edit` and `rewrap` of `core-lib/view.rs` | what each line should look like, from the bytes, the visual lines and the selection; the region ends that remain, by induction over the regions; lines before and after the report of C55; steps of C57; sessions by induction; witnesses for a cursor and a highlight left behind |
| C81 | the search queries of `core-lib/view.rs` | which queries the view has and what they ask, by induction over those set; each highlight is a match (C72); a step of the search either changes no line the front end has (`Quiet`) or finds what is lost (witness); steps of C57; sessions by induction; witnesses for queries named wrongly and for the selection |
| C82 | `core-lib/editor.rs`: `update_spans` | the difference from a revision to the head (C21) moves the ends of the range and of each span (C14, C36); the invariant of the layers (C58) over histories of engine and layers together; a step of C57 for the styles; witnesses for text inserted at the end of the range and for unknown revisions |
| C83 | `core-lib/annotations.rs`; `update_annotations` (`editor.rs`); `get_annotations` (`selection.rs`, `find.rs`); the annotations of an update (`view.rs`) | each cell of a tree of spans also tells how far its span goes to both sides: a second instance of the theorems on trees gives the very list of spans after `build`, `edit` and `delete_after` (C36); lines and columns by C69; invariant over sequences of updates and edits; witnesses for the first update, for insertions and for deletions |
| C84 | `ThemeStyleMap` (`core-lib/styles.rs`); `get_or_def_style_id` (`view.rs`); `do_set_theme`, `notify_client_and_update_views` (`tabs.rs`) | the front end keeps a table of the numbers it was told; invariant over sessions of any number of views: the map and the table agree, and each valid line of the front end (C79, C80) has only numbers that are in the table; witness for an eighth query |
| C85 | themes and their files (`core-lib/styles.rs`, `tabs.rs`) | refinement: the map of loaded themes and of paths against the files that are there, as an invariant over all choices and events; witnesses for a theme that is edited while another one is shown, and for files that are no themes |
| C86 | `lsp-lib/parse_helper.rs`; `prepare_lsp_json`, the loop of `start_new_server` (`lsp-lib`) | messages as the protocol writes them, with any choice of headers, case and line ends; induction over headers and messages; witnesses for an unknown header and for the end of the stream |
| C87 | `lsp-lib/lsp_plugin.rs`, `language_server_client.rs`, `result_queue.rs` | servers that refuse what the protocol does not allow and keep documents (`Spec/LspSession.lean`); invariant over sessions of events and answers; witnesses for events before the answer to `initialize`, errors of it, a second `initialize`, languages, hovers of closed views |
| C88 | `rope/engine.rs` `mk_new_rev`, `FullPriority` | the account of C23; the mask of the new insertions, carried over the edits since its base (`carryMask`), stays on the side its rank says (`rebase_ord`, `carry_order` in Rope/EngineOrder.lean) |
| C89 | `core-lib/watcher.rs` | a list of what is due to whom (`due`, Spec/Watch.lean), compared with what is handed out; invariant: what anybody watches the crate watches in the same mode; witnesses for modes, links, errors and tokens |
| C90 | `syntect-plugin/stackmap.rs`, the highlighting part of `syntect-plugin/main.rs` | refinement: a highlighter that sends the scopes of each byte (`Ideal`, Spec/Scopes.lean), against what the core understands of numbers and spans (`decode`); invariants for the trie (`Numbered`), the spans (`Drawn`) and, with the cache of C70, for a sweep over a new document (`Sweep`); a witness for scopes that are lost |
| C91 | the part of `syntect-plugin/main.rs` for comments, `selected_line_ranges` of `core-lib/event_context.rs` | a general lemma about edits within lines (`edit_lines`) over C13; what becomes of each line (`Toggled`, Spec/Comments.lean); that the second toggle finds the markers of the first; witnesses for what is lost |
| C92 | the part of `syntect-plugin/main.rs` for indentation | columns of lines given by the lines before them (`Follows`, `Levels`, Spec/Indent.lean); the lemma about edits within lines of C91; lines that differ in their blanks only (`Alike`) for the second time; witnesses for panics and wrong levels |
| C93 | the part of `core-lib/tabs.rs` for plugins, `plugins/catalog.rs`, the part of `event_context.rs` that tells plugins and the front end of each other | states and runs in which any operation may come at any time; each operation is a sequence of primitive changes (`Prim`, Core/PluginsLemmas.lean) for which invariants are proved once; what plugins and the front end know is read off the messages (Spec/Plugins.lean); witnesses for races and panics |
| C94 | `experimental/lang`: `peg.rs`, `language/rust.rs` | combinators on encoded text shown to take whole characters (`Over`, Lang/RustLemmas.lean); induction on the text against a reader that knows characters only (`readMode`, `Answer`, Spec/Lang.lean); refinement of the parsers of tokens to functions on characters (`Agrees`, `firstToken`, Spec/LangTokens.lean); witnesses for `//`, `=>`, words beyond ASCII, `\x`, and the decoder |
| C95 | `experimental/lang`: `statestack.rs`, `compute_syntax` of `main.rs` | numbers against the stacks they were given for (`Grown`); induction on the turns of the loop; witnesses for `//`, for the state that is not carried on, and for escapes in strings |
| C96 | `experimental/lang`: `do_highlighting` of `main.rs`; `add_scopes` of `core-lib/layers.rs` | induction on the languages; witness: a save and then a change of language |
| C97 | `core-lib`: `tabs.rs`, `rpc.rs`, `plugins/rpc.rs`, `annotations.rs`; `rope/serde_impls.rs`; `trace/lib.rs` | reading inverted against a grammar of names (`NamesView`, `Numeral`, Spec/Wire.lean) and per type; commands for any type that reads by method or by name (`ByMethod`, `ByName`); witnesses for mouse actions without clicks or with too few numbers, commas in categories, names of threads |
| C98 | `trace/lib.rs` | transition system in which the check and the recording are two steps; invariants over all runs, with a ghost log of what happened to the store (`Logged`, `kept`, `begins`, `ends`, Spec/Tracer.lean); witnesses: tracing turned off and on within a block, the time of metadata, saving another tracer, sorting samples of the same time (the unstable sort is a relation: any sorted permutation) |
| C99 | `core-lib/core.rs` | refinement of the wrapper to the state within it (`serve`), for any state; witnesses: messages before the start, a second start, a poisoned mutex |
| C100 | the files in `core-lib/config.rs`, `handle_config_fs_event` and `finish_setup` of `core-lib/tabs.rs`, names in `plugins/catalog.rs` | files, late events and settings as one transition system; invariant: the last event about a file tells whether it is there, settings without such events are those of the file; on top of the refinement of C75; witnesses for names with dots, other folders, `nan` |
| C101 | `core-lib/event_context.rs` (who draws, wraps and searches when), tokens and idle handlers of `core-lib/tabs.rs` | transition system over open parts of a view (`Parts`, with `Laws`); invariant tying each view's state to tokens on the agenda; tokens read back with bit lemmas; witnesses for a big paste, a view closed at once, large numbers |
| C102 | line numbers in `send_update_for_plan` and `encode_line` (`core-lib/view.rs`), `VisualLines` (`core-lib/linewrap.rs`) | the front end of the protocol document with numbers; erasing the numbers gives C57; induction over the segments of the plan; C53 ties the numbers to the text; witness for an update that renders nothing |
| C103 | `markdown_from_hover_contents`, `marked_string_to_string`, `core_hover_from_hover` (`lsp-lib/conversion_utils.rs`), `do_show_hover` (`core-lib/event_context.rs`) | a reader of Markdown that knows fences only gives back what the server meant; witnesses for text with fences in it and for errors |
| C104 | `handle_notification`, `handle_rust_misc_notification`, the status items (`lsp-lib/language_server_client.rs`) | invariant over all runs: the bar of a view is the list of the tasks begun since it was opened; witnesses for views opened later and for panics |
| C105 | `get_workspace_root_uri` (`lsp-lib/utils.rs`), `get_language_for_view`, `new_view` (`lsp-lib/lsp_plugin.rs`) | induction over the folders above a document; the root is the innermost one with the entry; witnesses for folders that cannot be read, shared extensions, relative paths |
| C106 | `number_from_id`, `handle_message`, `handle_response`, `send_request` (`lsp-lib/language_server_client.rs`), the reading thread (`lsp-lib/utils.rs`) | invariant: the callbacks kept are those of the requests not answered; ids survive `u64 as i64` and back; witnesses for answers without an id and the poisoned mutex |
| C107 | `find_all_manifests`, `load_manifest`, `load_from_paths`, `reload_from_paths`, `remove_named` (`core-lib/plugins/catalog.rs`) | induction over the paths, the manifests and the languages; witnesses for names used twice, hidden manifests and relative programs |
| C108 | `Dispatcher` (`plugin-lib/dispatch.rs`), `View::new`, `update`, `edit` (`plugin-lib/view.rs`) | history of what was said about each view, induction over the messages; exact conditions for panics; witnesses for a second start, early buffers, settings that cannot be decoded and settings that are old when the plugin is told |
| C109 | `SyncStore`, `SyncUpdater::work`, `resolve` (`core-lib/fuchsia/sync.rs`), `sync_state_changed`, `merge_new_state`, `transaction_ready` (`core-lib/editor.rs`) | transition system, invariant that one transaction is on its way exactly if one is pending; draining of the channel; for a transaction that failed, that nothing is written ever after |
| C110 | `sample-plugin/main.rs` | induction over the characters of a line for the loop, decomposition of texts into lines; witness: a mark at the start of a line makes the plugin panic, for all texts |
| C111 | `src/main.rs` | induction over the command line, against a positional meaning of flags (`given`, Spec/Logging.lean); witnesses: values after `=`, a file that cannot be opened, levels other than `debug` and `trace` |
| C112 | `core-lib/edit_types.rs`, `EditNotification` of `rpc.rs` | cases over all notifications, against the words of their names on the wire (`asksToMove`, `whereTo`, `phrase`, Spec/EditTypes.lean); a left inverse for what is not lost |

## What is modelled

* `rope/src/multiset.rs`: everything except `Debug`/serde (`Rope/Multiset.lean`).
* `rope/src/delta.rs`: everything except serde and the rope-specific
  convenience constructors (`Rope/Delta.lean`).
* `rope/src/engine.rs`: `Engine`, edits, undo, gc, merge and their helpers
  (`Rope/Engine.lean`).  Not modelled: serde, `try_delta_rev_head`'s error type
  detail, `fill_from_serialize`.  The hash `RevId::token` is an arbitrary
  function `tok`.  Garbage collection is proved under `GcOk`, the condition the
  editor's comment states (editor.rs:106-107); histories with `merge` are the
  separate transition systems `Replicas` and `Network` (Spec/Replicas.lean), which
  have no undo and no gc: `rearrange` panics on `Undo` revisions (engine.rs:795).
* `rope/src/interval.rs`: everything except `Display` (`Rope/Interval.lean`).
* `rope/src/tree.rs`: nodes, concatenation, builder, slicing, editing, metrics
  conversion (`Rope/Tree.lean`, `Rope/Metric.lean`), generic in the leaf type.
  `Arc` sharing is not modelled.
* `rope/src/tree.rs`: `Cursor` with its cache of four levels, `CursorIter`
  (`Rope/Cursor.lean`), generic in the leaf and the metric.
* `rope/src/rope.rs`: chunks, raw lines, lines, `slice_to_cow`, `byte_at`
  (`Rope/Lines.lean`), moving by codepoints (`Rope/Codepoint.lean`).  Grapheme
  clusters come from the crate `unicode-segmentation`: they are a parameter (`Graphemes`) with the
  assumptions `Graphemes.Ok` (Spec/LineStarts.lean), and how the leaves are fed to that crate is
  not modelled.
* `rope/src/rope.rs`: string leaves and their splitting, the three metrics,
  `from_str`, `+`, `slice`, `edit`, `line_of_offset`, `offset_of_line`
  (`Rope/Rope.lean`).  Strings are lists of bytes; `Spec/Utf8.lean` says what
  well-formed UTF-8 is, by Lean's own encoder.  `memchr`, `memrchr`, `bytecount`
  and `str::is_char_boundary` are modelled by their meaning (`Rope/Str.lean`).

* `rope/src/breaks.rs`: everything except serde (`Rope/Breaks.lean`); the standard
  library's `binary_search` is modelled by its meaning.
* `core-lib/src/linewrap.rs`: the list of pending wrap tasks
  (`Core/WrapTasks.lean`); `MergedBreaks`, `VisualLines` and the functions of
  `Lines` that use them (`Core/VisualLines.lean`); setting the width, background
  work and the update after an edit (`Core/Wrap.lean`).  In C54 and C55
  the place where a logical line is broken is an arbitrary `WrapRule` that satisfies
  `WrapRule.Ok` (Spec/Wrap.lean).  `LineBreakCursor` and `RewrapCtx`, which find it, are in
  `Core/LineBreakCursor.lean`; C68 shows that they follow the rule `fillRule`
  (Spec/Fill.lean).  Widths are an arbitrary type with arithmetic (`WidthOps`, in the code
  `f64`), and measuring is a function; batches of width requests are left out (see C40 for
  the cache).  Debug assertions count as panics.
* `core-lib/src/line_offset.rs`: everything but the implementation for `Breaks`
  (`Core/LineOffset.lean`).  `core-lib/src/movement.rs`: everything (`Core/Movement.lean`); numbers
  do not overflow, an underflow is a panic.
* `core-lib/src/edit_ops.rs`: everything (`Core/EditOps.lean`).  Case changes of characters are
  parameters, `char::is_whitespace` is a table, texts are bytes; `i128` arithmetic of the change of a
  number is a partial function.
* `plugin-lib/src/base_cache.rs`: everything but tracing (`Plugin/ChunkCache.lean`), with the length of a
  chunk as a parameter (at least 4), and the answers of the core, `Editor::plugin_get_data` and
  `TextUnit::resolve_offset`.  The peer is any function that gives the right answer or none.
* `plugin-lib/src/state_cache.rs`: everything but the pass-through methods (`Plugin/StateCache.lean`); the random
  numbers are any function.  Of `syntect-plugin/src/main.rs` `highlight_one_line` and `idle`, without spans,
  brackets and auto-indent; the syntax itself is any function from a state and a line to a state.
* the instances of `Serialize` and `Deserialize` that are not derived, but for those of `rpc/src/error.rs`, which are in `Rpc/Parse.lean`, and of the configuration (`Wire/Codec.lean`); of derived ones `Sample`, `SampleArgs` and four variants of `EditNotification`.  What `serde` derives is assumed to read structs and variants as the head of that file says; JSON is a tree, its text is not modelled;
* `experimental/lang` (`Lang/*.lean`): the combinators of `peg.rs` as functions on lists of bytes; `HashMap` of `statestack.rs` as a list of pairs; `binary_search` as a bisection, whose probes may differ
  from those of the library (the tables are sorted, `C94_sorted`, so the results do not); `compute_syntax` with the parser for Rust.  Not modelled: the cache of states and the frontier (`highlight_one_line` never uses the state it finds there), the sending of spans, tracing.
* `core-lib/src/plugins/catalog.rs` and the life of plugins in `core-lib/src/tabs.rs` (`Core/Plugins.lean`): each buffer has one view; of layers and annotations only which plugins have them; manifests are found and read outside the model; processes are numbers, and a launch ends at any time.
* `syntect-plugin/src/stackmap.rs`: everything; `syntect-plugin/src/main.rs`: the highlighting with spans and scopes (`Plugin/Syntect.lean`); toggling comments, by characters in place of bytes, with the marker of a line as a parameter (`Plugin/Comments.lean`); indentation, with the metadata as a parameter, errors being panics as all callers expect there to be none (`Plugin/Indent.lean`).
  The crate `syntect` is a parameter: a function from a state and a line to a state and what happens to the stack of scopes, and where; that
  the stack follows the state of the parser and is not empty at the end of a line are assumptions (`Parser.Ok`).  Numbers are not bounded by `u32`.
* `rpc/src/parse.rs`, `rpc/src/error.rs`, `rpc/src/lib.rs` (`Rpc/Parse.lean`, `Rpc/Loop.lean`): messages and their
  classification, the error object, `RpcState`, `RawPeer`, `RpcLoop::mainloop`, timers and idle work.  Each operation under a
  lock or on an atomic is one step of `Step`; atomics are sequentially consistent, a `recv` is possible once the answer was
  given, `needs_exit` is never reset during a run and only one run is modelled.  Handlers may do anything between two
  steps.  The byte level (`read_line`, `serde_json`), the text of errors, tracing and notifications to the peer are not
  modelled; neither is a callback that sends a request while `pending` is locked (`disconnect`, failed sends), which
  deadlocks.
* `core-lib/src/editor.rs` (`Core/Editor.lean`): everything that has to do with undo groups, the engine and the pristine
  flag; of `event_context.rs` the order of these calls in `do_edit`, `do_core_event`, `after_edit`, `update_from_plugin`
  (acknowledgements) and `reload`; of `recorder.rs` only that playing a recording forces one group.  Commands are
  given by their delta and edit type (the deltas themselves: C43, C46).  `collected` is a ghost variable.  Layers, views,
  annotations and `merge_new_state` are outside the properties C29, C30, C71.
* `core-lib/src/line_cache_shadow.rs`: everything (`Core/LineCache.lean`); of `view.rs`
  `set_dirty`, `send_update_for_plan`, `render_if_dirty`, `request_lines` and the presence of
  cursors in `encode_line`.  The lines of the view are an arbitrary list; annotations are left
  out here.  `Core/LineNumbers.lean` is the same with logical line numbers (C102).
* `rope/src/spans.rs`: everything but `Debug` and serialisation (`Rope/Spans.lean`).
* `core-lib/src/layers.rs` and `Style` of `styles.rs` (`Core/Layers.lean`).  A theme is any
  function from scope stacks to modifiers; scopes arrive parsed.
* `rope/src/compare.rs`: everything (`Rope/Compare.lean`).  A vector register is a list of
  bytes; an unaligned load reads the slice and then arbitrary bytes (parameters of the
  model) behind it.  Reading beyond the slice is undefined behaviour in Rust; here it is
  only harmless to the result.  The choice of version by CPU features is not modelled;
  C60 shows that it does not matter.
* `rope/src/diff.rs`: `compute_delta` and everything it uses (`Rope/Diff.lean`).  The hash
  map of lines is a list of pairs with the latest first; `line_count`, only a capacity, is
  left out.  `binary_search_by` is modelled by its contract on sorted input.
* `core-lib/src/find.rs`: everything but regular expressions (`Core/Find.lean`); of `view.rs`
  `do_find`, `do_find_next`, `select_next_occurrence` and `do_find_all` (`Core/FindNext.lean`).
  What `lines_raw` is needed for there is only regular expressions; the check of its
  interval, a debug assertion, is a parameter.
* `lsp-lib/src/conversion_utils.rs`: `count_utf16`, `get_position_of_offset`, `offset_of_position`;
  `lsp-lib/src/utils.rs`: `get_document_content_changes`, `get_change_for_sync_kind`
  (`Lsp/Sync.lean`), on the view of `plugin-lib` after it was updated.  The document of the server is
  that of the protocol (`Spec/Lsp.lean`); the transport to the server is not modelled.
* `core-lib/src/event_context.rs` and `core-lib/src/tabs.rs`: the order in which an event edits, wraps, searches, commits and draws, and what is scheduled (`Core/Agenda.lean`). What a view and its buffer do is a parameter there, with the laws it has to obey in `Spec/Agenda.lean`; that drawing tells the front-end everything, and that only commands for the view start a search, are such laws and are not derived from the models of these parts.
* `core-lib/src/config.rs`: `domain_for_path`, `file_stem`, `load_user_config_file`, `from_toml_value`; `core-lib/src/tabs.rs`: `handle_config_fs_event`,
  `load_file_based_config`, `remove_config_at_path`, `set_config`, the settings in `finish_setup`; the name of the file in `load_manifest` (`Config/Files.lean`; what the crate
  `toml` reads and which events the crate `notify` sends are taken as given, names have no `/`);
* `core-lib/src/config.rs`: `ConfigManager` and its tables, without reading files and naming directories;
  `core-lib/src/syntax.rs`: `Languages` (`Config/Manager.lean`).  What serde accepts as
  `BufferItems` is a parameter, instantiated with its fields in `Props/Config.lean` (whole numbers only).
* `core-lib/src/tabs.rs`: views, pending views and settings (`Config/Core.lean`).  What is found in a text
  by `detect_whitespace` is given from outside (its parts are C44); editors, plugins, files, idle tokens other than
  that for new views, and saves that fail are not modelled.
* `core-lib/src/file.rs`: everything (`Core/Files.lean`; `text_for_save` also on ropes, `Core/SaveText.lean`), on a file system of canonical paths, without the watcher;
  reading does not fail.  Of editors there are the text and whether it is pristine (C30).
  `text_for_save` looks at the whole text instead of its last leaf.
* `core-lib/src/view.rs`: selection, drag, scroll and gesture events (`View/Gesture.lean`), with the translation of old gestures in `edit_types.rs`; what is invalidated is recorded, not sent;
* `core-lib/src/view.rs`: `encode_line`, `encode_styles` (`View/Encode.lean`), without line numbers (these are in C53 and C102); style numbers are given by a function;
* `core-lib/src/view.rs`: `after_edit`, `rewrap`, `set_dirty` (`View/AfterEdit.lean`), without what `after_edit` does to drags, annotations and searches (the latter is C72);
* `core-lib/src/view.rs`: `set_find`, `add_find`, `do_find`, `do_selection_for_find` and the events for them (`View/Search.lean`), without regular expressions and without `find_changed`; the start of the window is given;
* `core-lib/src/annotations.rs`: everything but `to_annotation_ranges`' JSON (`View/Annotations.lean`), with `get_annotations` of `selection.rs` and `find.rs` and the part of `send_update_for_plan` that sends annotations; payloads are of any type;
* `core-lib/src/styles.rs`: `ThemeStyleMap` without the reading and writing of theme dumps (`Core/ThemeStyleMap.lean`; a theme is of any type, files are a function from paths), and how styles get numbers in `view.rs` (`View/StyleIds.lean`);
* `core-lib/src/tabs.rs`: `do_set_theme`, `handle_themes_fs_event`, `load_theme_file`, `remove_theme` (`Core/Themes.lean`; the files are a list of paths with the themes they contain, and each change of a file is one event);
* `lsp-lib/src/parse_helper.rs`: everything; `prepare_lsp_json` and the loop that reads from the server (`Lsp/Message.lean`).  The stream is a list of bytes, `to_lowercase` is a parameter with an assumption about ASCII (`LowerOk`), the JSON itself is not looked at;
* `lsp-lib/src/lsp_plugin.rs`, `language_server_client.rs`, `result_queue.rs`: the handlers, requests and answers (`Lsp/Plugin.lean`), without the JSON; a handler is one step, servers start and take what is written to them.  Hovers, with their range, are in `Lsp/Hover.lean` (C103), status items and notifications of the server in `Lsp/Status.lean` (C104; sets are lists, the percentage as text is a parameter), languages and workspaces in `Lsp/Workspace.lean` (C105; the file system is a function that does not change), ids of requests, `handle_message` and the mutex of a client in `Lsp/Requests.lean` (C106; what `jsonrpc-lite` makes of a text is given);
* `core-lib/src/editor.rs`: `update_spans` and `update_annotations` (`Core/EditorSpans.lean`); `core-lib/src/view.rs`: `invalidate_styles`;
* `rope/src/find.rs`: everything but regular expressions (`Rope/Find.lean`).  Lower case
  is a parameter (`CaseTable`); what is assumed of the Unicode tables is
  `CaseTable.Ok`.  `memchr2` and `memchr3` are modelled by their meaning.
* `core-lib/src/plugins/catalog.rs`: finding and loading manifests (`Core/Manifests.lean`); the file system is given by functions and does not change, what `toml` makes of a text is given;
* `plugin-lib/src/dispatch.rs` and the state of `View` in `view.rs` (`Plugin/Dispatch.lean`): messages about views; the cache, tracing, shutdown and what a plugin itself does are not there, `serde` is given by a function;
* `sample-plugin/src/main.rs`: `update` and `capitalize_word` (`Plugin/Sample.lean`), by characters where the code counts bytes; `to_uppercase` is any function on characters;
* `src/main.rs`: flags, environment and the log (`Core/Logging.lean`), for paths as on Unix, with the file system as two predicates; not the format of the log, nor the main loop (see C98, C99);
* `core-lib/src/edit_types.rs`: everything (`View/EditTypes.lean`); sizes are of any type.  That serde names methods after variants in snake case is assumed;
* `core-lib/src/fuchsia/sync.rs` with its part of `editor.rs` (`Core/Sync.lean`): one buffer, engines as an abstract type with a merge; FIDL and failures of calls other than the start of a transaction are left out;
* `core-lib/src/watcher.rs`: everything (`Core/Watcher.lean`), one event at a time.  The crate `notify` and the operating system are assumed to behave as `Registry` there says: it reports
  what happens to a watched path, directly in it and, in recursive mode, below it.
* `trace/src/lib.rs`: `Trace`, `SampleGuard`, the making of samples and `samples_cloned_unsorted` (`Trace/Tracer.lean`); `samples_cloned_sorted` as a relation (any sorted permutation); `save` without sorting; not the sizes in bytes of `Config`, and not the standard library's sort.  What happens under the lock is one step;
* `core-lib/src/core.rs`: everything but the text of errors and the case of a core that is gone (`Core/Start.lean`); the state of the core is a parameter there.  That a panic under the lock poisons a mutex, and that one in the main thread ends the process, is assumed of Rust;
* `trace/src/fixed_lifo_deque.rs`: the deque (`Trace/FixedLifoDeque.lean`), except
  iterators, comparison traits, indexing and `truncate`/`drain`/`swap`, which delegate.
* `core-lib/src/recorder.rs`: everything (`Core/Recorder.lean`), with what `do_edit` does to
  it.  Buffer events other than insertion, undo and redo are told apart only by a number.
* `core-lib/src/width_cache.rs`: everything (`Core/WidthCache.lean`); widths are of any type.
* `core-lib/src/line_ending.rs` and `whitespace.rs`: everything (`Core/Detect.lean`).
* `core-lib/src/word_boundaries.rs`: everything (`Core/WordBoundaries.lean`).
* `core-lib/src/backspace.rs`: everything (`Core/Backspace.lean`), with
  `LogicalLines.offset_to_line_col` of `line_offset.rs`.
* `unicode/src/lib.rs`: the emoji part, with its tables (`Unicode/Emoji.lean`).
* `unicode/src/lib.rs`: the line-breaking part (`Unicode/LineBreak.lean`), with its tables,
  copied entry by entry from `unicode/src/tables.rs` (`Unicode/LineBreakTables.lean`). The
  rules of UAX #14, revision 39, are in `Spec/Uax14.lean`; class SA is taken as AL there.
  Which class a character should have is not checked against the Unicode database.
* `core-lib/src/index_set.rs`: everything (`Core/IndexSet.lean`).
* `core-lib/src/selection.rs`: `Selection` and `SelRegion` (`Core/Selection.lean`).  `binary_search_by` is modelled by its meaning on
  regions whose ends increase.

How the tree is verified: `LeafSpec` (Spec/Tree.lean) states what a leaf type has
to satisfy; `Node.WF` is the balance invariant; every operation is shown to
return `some` tree that is `WF` and has the right `text`, for every leaf type that
satisfies `LeafSpec` (Rope/TreeLemmas.lean, TreeBuild.lean).

How the engine is verified: a document is a list `l` of characters, each with the
edit that inserted it and the edits that deleted it (Spec/History.lean).  `Den e
l` (Rope/EngineInv.lean) says that all of the engine's subsets, its text and its
tombstones are the masks of `l`; every operation preserves `Den` for a suitable
new `l`.  For replicas there is one shared document `Z`, of which each replica
sees the part it knows (`view`), and `Cells` fixes the order of concurrent
insertions; `merge` leaves `Z` unchanged (Rope/Merge*.lean).  For any number of
replicas `Net` (Rope/MergeNet.lean) says that the order of two concurrent insertions
is the same whatever other edits are known, which holds if every replica has
priorities of its own.

## Trusted base

Lean 4.33.0's kernel; the standard axioms `propext`, `Classical.choice`,
`Quot.sound` (nothing else: no own axioms, no `sorry`, no `native_decide`, no
`bv_decide`); and the faithfulness of the hand translation from Rust to Lean
described here and in the comment of each definition.
