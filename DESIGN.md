# Formal model of rusty-source-map in Lean 4

## Layout

* `lean/Verif/Model/*` – the model of the Rust code, function by function, each definition citing its source lines.
* `lean/Verif/Spec/*` – small independent specifications (VLQ decoding, the v3 mappings grammar, path resolution, ...).
* `lean/Verif/Dep/*` – contracts for the dependencies that are not in /repo (source-map-mappings, url), with a
  concrete instance proving that each contract is satisfiable.
* `lean/Verif/Lemmas/*` – helper lemmas.
* `lean/Verif/Props/*` – the property theorems, one file per area, named `Cnn_...`.

## Modelling conventions

* A panic is an explicit value: `Res α = Except Panic α`.
* `i32` is `Int`; every arithmetic operation goes through `Cfg.arith`, which panics (debug) or wraps (release) when
  the result leaves the i32 range. `Cfg` also carries the pointer width, used by the `as usize` casts of the VLQ code.
* `&mut self` becomes returning the new state. After a panic no state is returned, except in `Model/Caught.lean`, which
  gives the object left behind in either case (C95, C96).
* `HashMap` is an association list of which only get/insert/remove/contains/len are used.
* `Vec::sort_by` is core `List.mergeSort` (stable) if the comparator is a total preorder of the elements and no
  comparison panics; otherwise it is an opaque function: a panic or some permutation, and nothing more. `RefCell`
  borrow flags are explicit, since several functions of `IndexedConsumer` hold one borrow while taking another.
* The rayon `par_iter` of `IndexedConsumer` is modelled by an arbitrary schedule (permutation of the section indices);
  the mutex guard is held to the end of each closure, so closures are atomic with respect to each other. C93 proves this
  from a model of the closures step by step.

## Plan per property

* C01-C05: model `to_vlq_signed`, `base64vlq_encode`, `base64::encode` with exact integer casts; independent decoder in
  `Spec/Vlq`; induction on the number of digits.
* C06-C08: model `ArraySet`; invariant "map = index of first occurrence in array" by induction over the history.
* C09-C12: model `strcmp`, `compare_by_generated_pos_inflated`, `MappingList`; invariant on (`sorted`, `last`, `array`)
  by induction over histories. C12 is refuted by a witness; the part true is proved.
* C13-C15: model `recursive_search` and `search` with panicking indexing; induction on the interval.
* C16-C25: model `SourceMapGenerator`; invariant over histories; decode/encode round trip by induction on the mapping
  list with the delta state as the simulation relation. C20, C21, C23 refuted in part by witnesses.
* C26: model the serde derive at the level of JSON values; mutual induction over records and sections.
* C27-C39: model `create_consumer`, `BasicConsumer`; the mappings library is a parameter with a contract.
* C40-C47: model `IndexedConsumer` with schedules and borrow flags.
* C48-C53: model `util.rs`; the url crate is a parameter with a contract on plain URLs. C49 and C50 need no contract.
  C51 is arithmetic on split paths; C52 is refuted for all plain relative sources, C53 for all plain relative and
  absolute paths.
* C54-C57: `normalize`, `join`, `compute_source_url` on the four kinds of plain URL, each reduced to path resolution in
  `Spec/Url` and then an induction on segments. C57 is refuted for map URLs two or more directories deep.
* C58, C60: source lookups of a `BasicConsumer` after any history, from C28, C29 and C54-C57. Refuted by witnesses for
  colliding sources, short strings and the constructor used by `create_consumer`.
* C59: composition of C17, C26, C36.
* C61, C62: the record built by `as_json`, and induction over the serialising loop for the characters it emits.
* C63: C51 and C53 applied to the key under which `set_source_content` keeps a content; for URL roots the key is
  injective on plain sources, which reduces it to C22. Refuted for relative and absolute-path roots. For roots of every
  kind from C83: two sources have the same key exactly if they have the same normal form (`key_iff`), with the
  exceptions refuted.
* C64: `create_consumer` as a whole from C28 and C54-C57. Refuted by families of inputs that panic.
* C65: reading a value depends on an object only through `fieldOf`, and `fieldOf` on the field order only up to order;
  the rest is case analysis per field.
* C66-C68: section by section, both consumers are the freshly built one with some things cached (`SecRel`), and the
  search for the section sees only the offsets. C67 also follows the span flag through every call.
* C69: the span flag followed through every call, then case analysis on what the library found.
* C70: C33 on the segments of C17 and C18, carried over to the mappings they denote; the panic from C34.
* C71: C30 and C31 on the same segments. C72: C22 for what the map contains, C39 for what the consumer makes of it.
* C73, C74: the `sorted` flag followed through every call: it is false exactly after an addition out of order, and then
  `to_array` is a stable sort by C09's order; C74 carries this to the segments through the decoding proved for C17.
  After any history the list is the one obtained by adding and by tidying at each `to_array` (`ListHolds`), which leaves
  only one possibility.
* C75: C17 and C18 up to the limit of `base64vlq_encode` on the target (`Cfg.vlqLimit`: 2^30 with 64-bit pointers, all
  of i32 with 32-bit ones); beyond it the first delta is written as one digit, so the first segment has a column below
  16. Exactly: the text is compared with the one written with 32-bit pointers, which is the shortest for its segments
  (C81); every large number makes it shorter. For `Faithful`, as many segments as mappings are read, in generated order,
  however wrong.
* C76, C77: C35 and C36 on the segments of C17 and C18, paired one by one with added mappings. C78: equal texts are
  equal records (C26), equal records decode to the same segments, and a segment denotes one mapping only.
* C79: `consume` is `new` followed by the callback, an arbitrary function that may panic; the consumer is described by
  C28, C57 and C59, the indexed one by C40 and C45.
* C80: the table of `join` over the four kinds of plain URL, from the C55/C57 lemmas; its meaning is stated with RFC
  3986 resolution on an arbitrary page, without reference to the table.
* C81: every text decoding to given segments is taken apart into separators and fields (inversion of the decoder); the
  emitted one has the fewest of both.
* C82: the stages of `computeSourceUrl` are evaluated for each of the four kinds by the lemmas behind C49-C57, C64 and
  C80; the panics are excluded stage by stage in the same order; the meaning follows from a law about the target of a
  join (C80).
* C83: both URLs on the safe base mean their targets (C80), which decides the comparison of hosts; then `Url::parse` of
  a text that is no absolute URL fails, or C51 applies.
* C84: C09 and C11 again with the weaker hypothesis that the comparison never meets a pair of which only one has an
  original position; three mappings in a circle for the refutation. Props/UnvalidatedOrder.lean: the list itself, as C73.
* C85: C40 and C41 with what a section needs by itself made exact by C82.
* C86: C42 gives the section and the query it gets; C31 for the consumer of the section; the place of a segment in the
  whole file is specified by itself (placed, addedPlace).
* C87: C73_in_order gives the list of segments as the earlier list followed by the additions; the loop over segments
  appends to its output and only asks the tables for entries that are there already, which keep their indices.
* C88: the loop over mappings is followed as for C17, with Writable (a mapping with a source has an original position in
  range) in place of validity and C84's order; Mapping.shown says what the format can say of a mapping. For lines below
  1, the separators counted along the loop, with C25 for each step.
* C89: erasing the field commutes with every call of a generator, sorting included; both histories have the same
  erasure.
* C90: the maps of the parts are written by the generator model (C59), the text is read back by C26, sections and
  answers are those of C40, C45, C46 and C68, put in terms of the calls made on the generators.
* C91: specification by two inductive predicates, MapIs (what a value holds, from C65) and TidyMap; C91_only shows that
  they leave one value only.
* C92: the format is described on JSON values (Revision3), with the decoder of Spec/Mappings; the fields come from C16,
  C17, C21, C22 and C61.
* C93: model the closures as step machines with one mutex (Model/Workers.lean); an invariant keeps the order in which
  the workers that are done had the lock, and shows that the execution agrees with running them in that order. This
  justifies the schedules of C40-C47.
* C94: everything util.rs looks at in the text itself (the type of the URL, the number of '..', the unique segment) is
  unchanged by encoding (Lemmas/Encode.lean), and the URL library does not distinguish the two by contract; the consumer
  part goes through the uncached lookup of C29.
* C95, C96: model every method on `&mut self` once more as a function that gives the object left behind in either case
  (Model/Caught.lean); prove that it agrees with the first model where both speak, and that the invariants of C29 and
  C47 (C95) and of C16-C22 (C96) also hold of what a panic leaves.
* C97: model `search` once more with comparators that are calls on a state of the caller (Model/SearchCalls.lean);
  induction on the interval, which is at most halved by each call.
* C98: histories of calls and assignments (Model/Fields.lean); the invariant of C29 holds for the consumer with the
  mappings that count put back into its field. For assignments that change the root the invariant says for each source
  under which root it was found (Props/FieldHistory.lean); `Past.after` computes this from the history.
* C99: C36 and C74 put together; what the caller does between them is `named` (Props/Copy.lean).
* C100: a simulation: the generator after the renamed calls is the renamed generator (Props/Rename.lean).
* C101: a simulation as for C100, with the lines of the serialisation loop as the only difference (Props/LineShift.lean).
* C102: the contents are only read by `as_json`, and only for its result (Props/Interleave.lean).
* C103: the differences as a list, most significant first; a step lemma for a coordinate and one for a text (Props/Comparison.lean).
* C104: C101 gives the segments; the search of the library is unique if positions are, and moves with its segments (Props/ConsumerShift.lean).
* C105: one section makes the binary search one comparison; a simulation of the indexed consumer by the basic one, call by call (Props/IndexedWrap.lean).
* C106: the nearest element of a list on one side depends on that side only; for original_position_for the line test of the code cuts off what is beyond the next line (Props/ConsumerLocal.lean).
* C107: what is nearest to a position is nearest to every position in between (Props/ConsumerLocal.lean).
* C108: on line L differences of columns stay, so do order and deltas; the state of the serialiser differs by k in its column until the line is left; the number of semicolons before places the number (Props/ColumnShift.lean).
* C109: as C104, with the move of positions an order isomorphism onto its image (Props/ConsumerSpread.lean).
* C110: the sorted array without last_generated_column and without repeats is a strictly sorted list determined by its set of members; the serialiser skips repeats (Props/Canonical.lean).
* C111: as C109, with the order isomorphism on the original positions of each source (Props/ConsumerEdit.lean).
* C112: no number has more than seven digits, in every build; then along the loop (Props/Size.lean).
* C113: a segment is replaced by the mapping it stands for (`named`); nearest segments go over to nearest mappings (`Nearest.mapped`), which are unique, and what is reported is a function of the mapping alone (Props/Renumber.lean). For generators, C59 gives the segments.
* C114: the program is modelled in Model/Program.lean and unfolded case by case (Props/Program.lean).
* C115: simulation of the two runs, with the running original line k apart from the first segment with a source on (Props/OriginalShift.lean).
* C116: the nearest mapping is within two lines of the question (the code asks on the line before and accepts the answer of the line asked for or the one after), so only a window of two lines counts; texts put one below the other agree on such windows (Props/Concat.lean).
* C117: the section asked is the one of the text (C42, with offsets that begin the lines), and the window argument of C116 compares its consumer with that of the whole (Props/Flat.lean).
* C118: the loop is cut at the semicolons: each line is what the loop writes for the mappings of the line from the running values carried over (carry), and these are told by the last mapping with a source and the last with a name (Props/LineLocal.lean).
* C119: C42 names the section, C66 the independence from history; two consumers of one map give the same answers (Props/SectionLocal.lean).
* C120: the tables of C80 (join) and C83 (relative) one after the other; without dot segments the segments that relative has in common with the root are exactly those of the root (Props/JoinRelative.lean).
* C121: what a consumer of a generator visits is the strictly ordered list of the located mappings (from C74 and C36), and two strictly ordered lists with the same members are equal; the second part is C116_generated with the sources followed through the stack (Props/Visits.lean).
* C122: Rel.agree_total (a consumer agrees with any other of its history) for the sessions; for one call the exact conditions of C31, C32, C34, C35, C36 and C39 put together, with lookup_spec for the three outcomes of locating a source (Props/Session.lean).
* C123: AnswerAlike of C66 with the panics, for the sessions; for one call C42 and C122 (original_position_for), C46_exact, C44 and C67 (Props/IndexedSession.lean).
* C124: induction on the session from its end; the last call by C24_returns_iff, with the contents held read off the calls (Props/GenSession.lean).
* C125: C122 about the map the generator wrote, with what the consumer needs translated to what was added and set: numbers of sources by first occurrence, nearest segments by the segments denoting the mappings, contents by C22 (Props/EndSession.lean).
* C126: C123 and C46 about the sections of a bundle, by induction over the parts, with what a section holds read off the calls of the part (Props/BundleSession.lean).
* C127: the answers of a fresh consumer suffice (C122); each is read off the contract of the library about the segments, the segments are the added mappings by C59/C76 and named through the tables (Props/Reference.lean).
* C128: the lemmas behind C125 and C127, with a function that gives the source meant; a source of the map is told as located (C113), its contents are kept under relative names (C22) (Props/Located.lean).
* C129: C126 for which calls return and the contents; for positions the section asked (C42, C119) has a consumer that answers like a fresh one (C66), to which the lemma behind C127 applies (Props/BundleReference.lean).
* C130: the proofs of C126, C128 and C129 put together, for sections whose consumers are made with the URL (so that sources are located by it) but look names up without it (Props/LocatedBundle.lean).
* C131: as C116, C117 and C121, with a text given by its line ends and the characters after the last of them; moving behind such a text keeps the order of positions, and two searches agree if the lists agree from the position asked for to the end of the next line (Props/Joined.lean).
* C132: the serialising loop over mappings at different positions writes a list of segments given by differences (loop_segments); the segments of the second text started from the running values at the end of the first are those started from zero with pending amounts added to the first number of each kind (segList_after) (Props/JoinedText.lean).
* C133: with the segments of C132; the running values after the new segment differ from those before it by its numbers, and segments started from other running values differ in the next number of each kind (segList_after) (Props/OneSegment.lean).
* C134: with the segments of C132 and the numbers taken back of C133; the segments after the changed mapping are, in both texts, those started from the running values before it, changed by its numbers (segList_around, Props/OneChanged.lean).
* C135: decoding the lines of a text is decoding the first ones and going on from there (decodeLines_append), so the segments of the common lines are the same and all others are on later lines; then the comparison of two consumers of C131 with nothing in front (after_original, after_generated).
* C136: the decoder of the specification goes on from the numbers of the last segments (decodeLines_join, lastValues_fold), and started from other numbers it finds the same segments counted from those (decodeLines_counted); the comparison of two consumers of C131, for mappings told otherwise at the same places (retold_original in Props/Joined.lean).
* C137: each segment of the second string, its numbers changed, is read from the running values after the first string as the segment it was (segment_changed), and after it what is still to be added is the difference of the running values again (mid_changed, lines_changed; change as in C132); then as C136 (counted_original, counted_visits) and C135.
* C138: the text before the segment is read alike; the segment is read from the same running values as one with the same original; after it the running values are the same but for the column, so later segments of the line keep their distance and later lines their columns (mid_edited, lines_moved). Then the lookups as in C131, for any map of positions that keeps their order (moved_original, moved_generated).
* C139: the running values after a segment are those before plus its numbers; the column starts again at a semicolon. By induction on the segments, from any running values (says_more, says_less, mid_says, mid_reads); a characterisation of the decoder without running values.
* C140: from C139. The change leaves everything but the third numbers alone (segShape), so all sums but those of third numbers (shape_sum, shape_lastLine); these grow by l from the one segment to before the other (sum_addLines). Generated positions being in order, a range of segments is a range of positions (within_iff), and the lookups follow from the general transfer of lookups (moved_original, moved_generated), positions kept; for the source itself from C111 (C140_edit).
* C141: what is nearest is so among fewer (Nearest.fewer); the answer tells which segment was found, no two being at one position. The string from C139: all sums from the next segment on are what they were (TakenOut.semicolons, .sums, .columns), so the segments are (says_same).
* C142: as C140 with fourth numbers instead of third. The change leaves everything but the fourth numbers alone (lineShape); sums of these grow by l from the one segment to before the other (sum_addColumns); the lookups follow from the general transfer of lookups (moved_original, moved_generated), and within the source from C111 (columnsInto keeps the order of positions).
* C143: from C139. The change leaves everything but the second and fifth numbers alone (tablesShape); their sums are so much greater from the first use on (sum_addAt), and before it there is no source, or no name, to be told. The segments told with sources and names are the same (named_behind), and the lookups follow from the general transfer of lookups (moved_original, moved_generated), nothing moved.

Properties which the code violates are kept in full in properties.jsonl; the model proves the negation (a witness or,
where possible, for all inputs) and the strongest true part.

## Trusted base

### Checked by the machine

The Lean 4.33.0 kernel, and the three standard axioms `propext`, `Classical.choice`, `Quot.sound`. No theorem of the
manifest depends on any other axiom; there is no `sorry`, `native_decide` or `bv_decide`. Concrete cases are computed by
the kernel (`decide +kernel`).

Of the 494 theorems named in MANIFEST.json (`#print axioms` on each):

* `C48_short`, `C97_models_agree` and `C97_result` depend on `propext` only;
* `C07_arrayset_duplicates`, `C109_text_before_line`, `C27_accessors`, `C51_ancestor`, `C51_relative_path`,
  `C51_root_file`, `C53_only_normalises`, `C55_short`, `C65_unknown_ignored`, `C65_version_required` and `C83_short`
  depend on `propext` and `Quot.sound`;
* the other 480 on `propext`, `Classical.choice` and `Quot.sound`.

### Read by hand

That the definitions in `Verif/Model` say what the Rust code says. Nothing was built or run: the sandbox has no Rust
dependencies, so the model was never compared with the program by execution. Each definition cites the lines it stands
for; the ranges of all citations were checked against the files.

What could be compared is what the crate's own tests expect: `Verif/Props/RepoTests.lean` states each test with assertions
in `/repo/src`, doc tests included, about the model, on all four targets, and the kernel computes that the model passes.
One of them, `test_has_section`, passes under one order of the parallel workers and panics under the other (C40).

### Assumed of the dependencies

The sources of the dependencies were not available. The contracts below state what the crates and the
standards they implement are generally known to promise; neither their code nor their documentation was at hand to
check them against. Each is a `structure ... : Prop` taken as a hypothesis by the theorems that need
it, and each has a concrete instance, so no theorem is vacuous for want of an instance.

* `source-map-mappings` (`MapLib.Laws`, `Dep/Mappings.lean`): parsing accepts every string of the v3 grammar with `u32`
  values and finds its segments; no operation changes the segments; the searches return the nearest segment in the
  asked direction, exact matches first; answers depend only on the segments. That the operations return is a separate
  hypothesis, `MapLib.Total`, used only where a theorem says so. What is parsed for ill-formed strings is not assumed.
* `serde_json` (`JsonLib.Laws`, `Dep/Json.lean`): reading what was written gives the value back. The `serde` derives are
  modelled, not assumed, together with the limit of 128 on the nesting of what is read.
* `url` (`UrlLib.Laws`, `Dep/Url.lean`): only for URLs of http, https, `file` without a host (`file:///a.js`) and of
  schemes without rules of their own (such as `webpack`; not `ftp`, `ws`, `wss`). Joining `//host/path` to a `file` URL is
  left out. Host names consist of lower-case letters, digits, dots and single hyphens,
  each label beginning with a letter; there may be a port other than 80 and 443; a scheme without rules of its own may
  go without a host (`webpack:///a.js`). Path segments, query and fragment consist of letters, digits and
  `- _ . ~ ! $ & ( ) * + , ; = @ [ ]`, and encoded bytes such as `%20` (but not `%2e`, a dot). No user names, backslashes
  or empty directories. C48-C50 need no assumption. C94 alone also assumes `UrlLib.Encodes`: after the host, spaces (not
  at the ends), `"`, `<`, `>` and characters outside ASCII are read as if percent-encoded as UTF-8.
* `regex`: the two patterns of `util.rs` (lines 67 and 194) are modelled as functions on characters.
* `rayon`: `par_iter` runs every closure once, interleaved with the others in some way, and panics if one of them does; the
  result is in the order of the input. `Mutex`: one holder at a time; a panic with the guard held poisons it. That the
  closures may be taken one after the other, in the order of the lock, is proved (C93).
* Standard library: `HashMap` is an association list; `sort_by` is a stable sort if no comparison of two
  elements panics and the comparator is a total preorder of them, and otherwise unspecified (it panics, or the result is
  a permutation); see C84 for when that is so. Guards of `RefCell` in the head of a `for` loop
  or in the receiver of a method chain live to the end of the statement (Rust reference, temporary scopes).

### Simplifications

* Objects that survive `catch_unwind` are described by C95 and C96 only. There, a `sort_by` that panics leaves some
  permutation of the slice, an interrupted iteration leaves the parsed mappings like a complete one, and unwinding drops
  the guards of `RefCell`; what an operation of `source-map-mappings` leaves behind if it panics itself is not described.
  A poisoned mutex is not observed outside the construction of an `IndexedConsumer` (C93), which panics.
* Assignments by a caller to the public field `source_map` of a consumer are described by C98 only; the other theorems
  are about consumers whose field is left alone.
* Memory is unbounded and allocation does not fail. Where the code casts lengths to `i32`, theorems state the bound.
* A callback given to `each_mapping` does not panic, except in C95. It cannot call the consumer, which is borrowed.
* Text is a list of Unicode scalar values. Rust strings compare by bytes, which is the same order.

### Not modelled

* `SourceMapGenerator::from_source_map` and `apply_sourcemap` (`generator.rs` 36-38, 76-78): `unimplemented!()`.
* Tests, `constants.rs` (test data), `src/main.rs` (prints a greeting), the clock and the output of
  `bench/main.rs`, whose calls are modelled in `Model/Program.lean`.
* Time and memory use.
