{"id": "C01", "title": "VLQ encoding round-trips", "statement": "For every delta v with |v| < 2^30, decoding base64vlq_encode(v) followed by arbitrary further text with the Source Map v3 base64-VLQ rules yields exactly v and leaves exactly the further text.", "quantifier": "all i32 values of magnitude below 2^30, all continuations of the text, debug and release builds, 32 and 64 bit targets", "why_tests_cant": "the test table covers -255..255; two billion values and unbounded suffixes remain", "anchors": ["src/base64_vlq.rs: base64vlq_encode, to_vlq_signed"]}
{"id": "C02", "title": "VLQ output is well formed and minimal", "statement": "base64vlq_encode never panics for |v| < 2^30; its output has between 1 and 7 characters, all from the base64 alphabet; every character but the last carries the continuation bit, the last does not, and a multi-digit output never ends in a zero digit.", "quantifier": "all i32 values of magnitude below 2^30, every build configuration", "why_tests_cant": "must hold for each of 2^31 values", "anchors": ["src/base64_vlq.rs: base64vlq_encode", "src/base64.rs: encode"]}
{"id": "C03", "title": "Concatenated VLQs are uniquely decodable", "statement": "The concatenation of the encodings of a list of deltas decodes back to exactly that list; hence two different lists never produce the same text.", "quantifier": "all finite lists of deltas of magnitude below 2^30", "why_tests_cant": "unbounded lists", "anchors": ["src/base64_vlq.rs: base64vlq_encode", "src/generator.rs: serialize_mappings"]}
{"id": "C04", "title": "VLQ encoding is correct on the whole i32 range", "statement": "base64vlq_encode(v) decodes to v for every i32 v. (False of the code on 64-bit targets for every |v| >= 2^30, and for i32::MIN everywhere.)", "quantifier": "all i32 values, both pointer widths, both build profiles", "why_tests_cant": "failures start a billion values away from the tested range", "anchors": ["src/base64_vlq.rs: to_vlq_signed, base64vlq_encode"]}
{"id": "C05", "title": "Base64 digit table", "statement": "base64::encode(n) is Some exactly when 0 <= n < 64, is the n-th letter of the RFC 4648 alphabet, and distinct n give distinct letters.", "quantifier": "all i32 n", "why_tests_cant": "three values are tested out of 2^32", "anchors": ["src/base64.rs: encode, INT_TO_CHAR_MAP"]}
{"id": "C06", "title": "ArraySet behaves as a set with first-occurrence indices", "statement": "After any sequence of add calls, has(s) is true iff s was added, and index_of(s) is the position of the first occurrence of s in to_vec(), or None if s was never added.", "quantifier": "all operation histories, all strings, any mixture of allow_duplicates flags", "why_tests_cant": "histories are unbounded", "anchors": ["src/array_set.rs: ArraySet::add, has, index_of, to_vec"]}
{"id": "C07", "title": "ArraySet contents and size", "statement": "to_vec() after a history is: with allow_duplicates the full sequence of added strings; without it, the distinct strings in order of first addition, with no repetition; if the flag varies from addition to addition, the strings of those additions that allow duplicates or whose string was not added before. size() is the number of distinct strings added.", "quantifier": "all operation histories", "why_tests_cant": "histories are unbounded", "anchors": ["src/array_set.rs: ArraySet::add, size, to_vec, from_array"]}
{"id": "C08", "title": "ArraySet indices are stable and at() inverts index_of()", "statement": "Once index_of(s) = i it stays i under every later sequence of additions; at(i) then returns s; at(k) returns None for negative k and for k past the end.", "quantifier": "all histories followed by all later histories, all i32 arguments of at", "why_tests_cant": "quantifies over pairs of histories", "anchors": ["src/array_set.rs: ArraySet::index_of, at, add"]}
{"id": "C09", "title": "Mapping comparison is a total preorder", "statement": "On valid mappings compare_by_generated_pos_inflated never overflows, its sign is antisymmetric and transitive, it is 0 exactly when both mappings agree on generated position, source, original position and name, and it orders first by generated position.", "quantifier": "all pairs and triples of valid mappings", "why_tests_cant": "a sort comparator must be lawful on every triple", "anchors": ["src/util.rs: compare_by_generated_pos_inflated, strcmp"]}
{"id": "C10", "title": "MappingList loses and invents nothing", "statement": "Whatever the interleaving of add and to_array, to_array returns a permutation of all the mappings added so far, and unsorted_for_each visits them once each with the indices 0, 1, 2, ... (in order of insertion as long as to_array has not been called).", "quantifier": "all histories of add and to_array", "why_tests_cant": "unbounded histories", "anchors": ["src/mapping_list.rs: MappingList::add, to_array, unsorted_for_each"]}
{"id": "C11", "title": "MappingList output is ordered by generated position", "statement": "Whatever the interleaving of add and to_array (in particular after the fast path that skips sorting), the list returned by to_array is non-decreasing in (generated line, generated column).", "quantifier": "all histories over valid mappings (non-negative i32 coordinates, original present iff source present)", "why_tests_cant": "the sorted/last bookkeeping must be right after every history", "anchors": ["src/mapping_list.rs: MappingList::add, to_array, generated_position_after"]}
{"id": "C12", "title": "MappingList output order is canonical", "statement": "The order returned by to_array depends only on which mappings were added, not on insertion order or on earlier to_array calls. (False of the code among mappings sharing a generated position: the fast path keeps insertion order.)", "quantifier": "all pairs of histories adding the same mappings", "why_tests_cant": "relates two unbounded histories", "anchors": ["src/mapping_list.rs: MappingList::add, to_array"]}
{"id": "C13", "title": "Binary search with greatest-lower-bound bias", "statement": "On a haystack sorted consistently with the comparators, search returns -1 iff every element is greater than the needle; otherwise the smallest index among the elements equivalent to the greatest element that is <= the needle.", "quantifier": "all haystacks, needles and consistent comparators", "why_tests_cant": "unbounded haystack sizes", "anchors": ["src/binary_search.rs: search, recursive_search"]}
{"id": "C14", "title": "Binary search with least-upper-bound bias", "statement": "On a consistently sorted haystack, search with LEAST_UPPER_BOUND returns -1 iff every element is smaller than the needle; otherwise the smallest index whose element is >= the needle.", "quantifier": "all haystacks, needles and consistent comparators", "why_tests_cant": "unbounded haystack sizes", "anchors": ["src/binary_search.rs: search, recursive_search"]}
{"id": "C15", "title": "Binary search is total and in bounds", "statement": "search terminates, never overflows, never indexes outside the haystack and returns -1 or a valid index for every comparator, however inconsistent, every bias value and every haystack with at most 2^31 - 2 elements (a haystack of 2^31 - 1 elements always panics); if a comparator panics, search can only propagate that panic.", "quantifier": "all haystacks, needles, arbitrary comparators, arbitrary bias values", "why_tests_cant": "comparators are arbitrary functions", "anchors": ["src/binary_search.rs: search, recursive_search"]}
{"id": "C16", "title": "Generator source and name tables", "statement": "The sources (names) array of the emitted map is exactly the distinct sources (names) passed to add_mapping, in order of first use, whatever else was called in between.", "quantifier": "all histories of add_mapping, set_source_content and serialisation", "why_tests_cant": "unbounded histories", "anchors": ["src/generator.rs: SourceMapGenerator::add_mapping, as_json"]}
{"id": "C17", "title": "Generator output decodes to the added mappings", "statement": "Decoding the emitted mappings string with the Source Map v3 grammar succeeds and yields segments, in generated order, each of which denotes (through the emitted sources and names arrays) a mapping that was added.", "quantifier": "all histories adding valid mappings with coordinates below 2^30, or any valid coordinates with 32-bit pointers", "why_tests_cant": "inputs are unbounded lists of mappings", "anchors": ["src/generator.rs: serialize_mappings, as_json", "src/base64_vlq.rs: base64vlq_encode"]}
{"id": "C18", "title": "Generator drops only duplicates", "statement": "Every mapping added is denoted by at least one emitted segment; and no two neighbouring emitted segments on one line come from mappings equal in all compared fields. With pairwise different mappings the number of segments equals the number of mappings.", "quantifier": "all histories adding valid mappings with coordinates below 2^30, or any valid coordinates with 32-bit pointers", "why_tests_cant": "unbounded histories", "anchors": ["src/generator.rs: serialize_mappings", "src/util.rs: compare_by_generated_pos_inflated"]}
{"id": "C19", "title": "Serialising twice gives the same map", "statement": "Two consecutive serialisations with no mutation in between return identical results.", "quantifier": "all generator states reachable by any history", "why_tests_cant": "as_string mutates the generator (lazy sort)", "anchors": ["src/generator.rs: as_json, as_string", "src/mapping_list.rs: to_array"]}
{"id": "C20", "title": "Serialising is a pure observation", "statement": "Calling as_string in the middle of a history does not change any later serialisation. (False of the code: it can change the order of segments sharing a generated position. What survives: sources, names and the multiset of mappings held.)", "quantifier": "all histories and all insertion points of a serialisation", "why_tests_cant": "relates two unbounded histories", "anchors": ["src/generator.rs: as_json", "src/mapping_list.rs: add, to_array"]}
{"id": "C21", "title": "sourcesContent is aligned with sources", "statement": "In the emitted map sourcesContent[i] is the content set for sources[i]. (False of the code whenever some but not all sources have content: missing entries are dropped and later contents shift. True when every source has content.)", "quantifier": "all histories of add_mapping and set_source_content", "why_tests_cant": "unbounded histories", "anchors": ["src/generator.rs: generate_sources_contents, as_json"]}
{"id": "C22", "title": "set_source_content is last-write-wins", "statement": "The content emitted for a source is the one given by the latest set_source_content for that source or, under a source root, for a source with the same util::relative to the root; a latest call with None removes it; calls for other sources do not interfere. There is no sourcesContent exactly if no source has a content.", "quantifier": "all histories of set_source_content", "why_tests_cant": "unbounded histories", "anchors": ["src/generator.rs: set_source_content, generate_sources_contents"]}
{"id": "C23", "title": "Mapping validation", "statement": "validate_mapping accepts exactly: generated position only (line >= 1, column >= 0, no original, source or name), or generated and original positions in range with a source (name optional). add_mapping with skip_validation = false rejects what validation rejects. (Second half false of the code: add_mapping never validates.)", "quantifier": "all mappings, all generator states", "why_tests_cant": "all integer coordinates and field combinations", "anchors": ["src/generator.rs: validate_mapping, add_mapping"]}
{"id": "C24", "title": "When serialisation panics", "statement": "Serialising a generator holding valid mappings never panics if it has no source root, or no content, or a root relative to which the source of every mapping can be named; with a root and some content it panics for every other source. It also panics for any held mapping that has a source but no original position (unless removed as a duplicate).", "quantifier": "all histories of add_mapping, set_source_content and serialisations, with coordinates up to the limits of i32, with or without a source root", "why_tests_cant": "unbounded histories", "anchors": ["src/generator.rs: serialize_mappings"]}
{"id": "C25", "title": "Line advance emits the right number of separators", "statement": "Moving from generated line p to l >= p emits exactly l - p ';' and nothing else; for l < p (only reachable with lines < 1) a debug build panics on overflow and a release build emits (l - p) mod 2^32 of them.", "quantifier": "all pairs of i32 line numbers", "why_tests_cant": "the loop runs up to 2^32 times", "anchors": ["src/generator.rs: serialize_mappings"]}
{"id": "C26", "title": "Source map JSON round-trips", "statement": "Parsing the JSON produced for a source map record yields the same record (including nested sections); None-valued optional fields come back as None. (False of the code for records nesting more than 127 JSON arrays and objects, e.g. 43 indexed maps inside each other: they are written but rejected when read, by serde_json's recursion limit.)", "quantifier": "all SourceMapJson records, arbitrarily nested", "why_tests_cant": "records are unbounded and recursive", "anchors": ["src/source_map.rs: SourceMapJson, Section", "src/generator.rs: as_string"]}
{"id": "C27", "title": "create_consumer dispatch and errors", "statement": "create_consumer returns Err exactly when the text is not a valid source-map JSON, an IndexedConsumer exactly when it is one with a sections field, otherwise a BasicConsumer; the as_/try_as_ accessors agree with that choice.", "quantifier": "all input texts", "why_tests_cant": "all strings", "anchors": ["src/consumer.rs: create_consumer, Consumer::as_basic_consumer, try_as_basic_consumer"]}
{"id": "C28", "title": "Consumer sources list", "statement": "get_sources() has one entry per entry of the map's sources array, in the same order, duplicates kept, each resolved against sourceRoot and the map URL.", "quantifier": "all maps", "why_tests_cant": "unbounded arrays", "anchors": ["src/consumer.rs: BasicConsumer::from_source_map_json, get_sources"]}
{"id": "C29", "title": "Source lookup caching is transparent", "statement": "The answer to any query about a source does not depend on which queries were made before it.", "quantifier": "all histories of consumer calls", "why_tests_cant": "unbounded histories of cache fills", "anchors": ["src/consumer.rs: BasicConsumer::find_source_index"]}
{"id": "C30", "title": "original_position_for finds the mapping on the queried line", "statement": "For a generated position that has a mapping, original_position_for with the default bias returns it. (False of the code for every map and every query: the 0-based line of the found mapping is compared with the 1-based query, so the default bias never returns Some.)", "quantifier": "all maps, all positions, all call histories", "why_tests_cant": "holds/fails for every map, not for some sample", "anchors": ["src/consumer.rs: BasicConsumer::original_position_for"]}
{"id": "C31", "title": "original_position_for with least-upper-bound bias", "statement": "With LEAST_UPPER_BOUND a returned mapping lies on the queried line. (False of the code: it can only return mappings on the line after the queried one, and does so exactly when the next mapping is there and has an original.)", "quantifier": "all maps, all positions", "why_tests_cant": "quantifies over all maps", "anchors": ["src/consumer.rs: BasicConsumer::original_position_for"]}
{"id": "C32", "title": "Position arguments are validated", "statement": "original_position_for, generated_position_for and all_generated_position_for panic for a line < 1 or column < 0 (the latter two once the source is known), and never return a value for such arguments.", "quantifier": "all maps, all i32 arguments", "why_tests_cant": "all integers", "anchors": ["src/consumer.rs: original_position_for, generated_position_for, all_generated_position_for"]}
{"id": "C33", "title": "generated_position_for returns a mapping of the requested source", "statement": "A mapping returned by generated_position_for is one of the map's mappings, comes from the requested source, its generated position is 1-based, and an exact original match is preferred over neighbours.", "quantifier": "all maps, queries and biases", "why_tests_cant": "quantifies over all maps", "anchors": ["src/consumer.rs: BasicConsumer::generated_position_for"]}
{"id": "C34", "title": "generated_position_for reports the mapping's own name and 1-based original line", "statement": "The name returned is the mapping's name and the original line is 1-based. (False of the code: names is indexed by the source index, so the name is wrong or the call panics, and the original line is 0-based.)", "quantifier": "all maps, queries and biases", "why_tests_cant": "quantifies over all maps", "anchors": ["src/consumer.rs: BasicConsumer::generated_position_for"]}
{"id": "C35", "title": "all_generated_position_for returns all and only the exact matches", "statement": "If the map has mappings for the given source, original line and column, exactly these are returned; for an unknown source the result is empty. (Line part false of the code: the 1-based query line is used as a 0-based line, so the mappings of the following line are returned.) Without a column the query is for column 0.", "quantifier": "all maps and queries", "why_tests_cant": "quantifies over all maps", "anchors": ["src/consumer.rs: BasicConsumer::all_generated_position_for"]}
{"id": "C36", "title": "each_mapping visits every mapping once in order", "statement": "each_mapping in generated order visits exactly the mappings encoded in the map, each once, by non-decreasing generated position; in original order exactly those with an original, sorted by source, line, column; on an undecodable mappings string it visits nothing and does not panic.", "quantifier": "all maps", "why_tests_cant": "unbounded maps", "anchors": ["src/consumer.rs: BasicConsumer::each_mapping"]}
{"id": "C37", "title": "Undecodable or missing mappings", "statement": "On a map whose mappings string is undecodable, the lookup functions panic on any in-range query for a known source instead of returning a wrong answer; on one without a mappings field every function needing mappings panics.", "quantifier": "all maps, queries", "why_tests_cant": "quantifies over all malformed strings", "anchors": ["src/consumer.rs: parse_mappings, original_position_for, compute_column_spans"]}
{"id": "C38", "title": "compute_column_spans is idempotent and transparent", "statement": "Calling compute_column_spans again changes nothing; it changes no lookup result except last_generated_column.", "quantifier": "all maps and call histories", "why_tests_cant": "unbounded histories", "anchors": ["src/consumer.rs: BasicConsumer::compute_column_spans"]}
{"id": "C39", "title": "Source contents", "statement": "has_contents_of_all_sources is true iff there are at least as many contents as sources; then source_content_for never panics for a known source and returns the content at the index of the source's first occurrence. For an unknown source it panics or returns None as requested. If the list of contents ends before the index of a known source, the call panics whatever was requested.", "quantifier": "all maps and source strings", "why_tests_cant": "all maps and strings", "anchors": ["src/consumer.rs: has_contents_of_all_sources, source_content_for"]}
{"id": "C40", "title": "Indexed map: sections are validated in order under every schedule", "statement": "Constructing an IndexedConsumer accepts a sections array iff its offsets are non-decreasing, whatever order the parallel workers run in. (False of the code: the check runs in worker order. It accepts iff the offsets are non-decreasing along the schedule, so a valid map can be rejected and an invalid one accepted.)", "quantifier": "all sections arrays, all schedules of the parallel iterator", "why_tests_cant": "schedules of a parallel iterator cannot be enumerated by tests", "anchors": ["src/consumer.rs: IndexedConsumer::from_source_map_json"]}
{"id": "C41", "title": "Indexed map: the constructed consumer does not depend on the schedule", "statement": "Whenever construction succeeds, the resulting consumer is the same under every schedule: sections in file order with offsets shifted to 1-based; a section with a url, or an unsupported version, is always rejected.", "quantifier": "all sections arrays, all pairs of schedules", "why_tests_cant": "pairs of schedules", "anchors": ["src/consumer.rs: IndexedConsumer::from_source_map_json"]}
{"id": "C42", "title": "Indexed map: the right section answers a query", "statement": "original_position_for consults the last section whose offset is at or before the queried position, with the position rebased to that section. (False of the code for a query at exactly the section's first column: the stored column is 1-based, the query 0-based. True with the boundary shifted by one column.) Of several sections with the same offset the first is asked.", "quantifier": "all sorted section lists and queries", "why_tests_cant": "unbounded section lists", "anchors": ["src/consumer.rs: IndexedConsumer::original_position_for", "src/binary_search.rs: search"]}
{"id": "C43", "title": "Indexed map: lookups never return with the default bias", "statement": "original_position_for on an indexed map answers queries. (False of the code: with the default bias it returns None or panics on every input.)", "quantifier": "all indexed maps and queries", "why_tests_cant": "all maps", "anchors": ["src/consumer.rs: IndexedConsumer::original_position_for"]}
{"id": "C44", "title": "Indexed map: reverse lookups are usable", "statement": "generated_position_for, all_generated_position_for and each_mapping on an indexed map return. (False of the code: with at least one section each of them panics with a RefCell borrow error before producing any result.) A consumer without sections answers every query with nothing.", "quantifier": "all indexed maps with at least one section, all queries", "why_tests_cant": "all maps", "anchors": ["src/consumer.rs: IndexedConsumer::find_source_index, generated_position_for, all_generated_position_for, each_mapping"]}
{"id": "C45", "title": "Indexed map: sources list", "statement": "get_sources is the concatenation of the sections' source lists in order. The entries are the raw strings of the section maps, not the resolved ones a BasicConsumer reports.", "quantifier": "all indexed maps", "why_tests_cant": "unbounded section lists", "anchors": ["src/consumer.rs: IndexedConsumer::get_sources"]}
{"id": "C46", "title": "Indexed map: source contents", "statement": "source_content_for returns the content from the first section that has it, if any section has. (False of the code by default: an earlier section with contents but without the source makes it panic. True with panic_on_missing = false.) (Also false, whatever panic_on_missing, if an earlier section knows the source but its list of contents ends before it: index panic.)", "quantifier": "all indexed maps and source strings", "why_tests_cant": "unbounded section lists", "anchors": ["src/consumer.rs: IndexedConsumer::source_content_for, has_contents_of_all_sources"]}
{"id": "C47", "title": "Unsupported versions are rejected", "statement": "A map whose version is not 3 is rejected. (True for indexed maps; false of the code for basic maps, including those nested in sections.)", "quantifier": "all maps", "why_tests_cant": "all version numbers", "anchors": ["src/consumer.rs: IndexedConsumer::from_source_map_json, BasicConsumer::from_source_map_json"]}
{"id": "C48", "title": "URL classification", "statement": "Every string of at least two characters is classified as exactly one of scheme-relative (starts //), path-absolute (starts / but not //), absolute (scheme characters then :/) or path-relative; shorter strings panic.", "quantifier": "all strings", "why_tests_cant": "all strings", "anchors": ["src/util.rs: get_url_type"]}
{"id": "C49", "title": "The safe segment is fresh and minimal", "statement": "build_unique_segment terminates and returns the prefix followed by the smallest number such that the result does not occur in the input.", "quantifier": "all inputs and prefixes", "why_tests_cant": "an unbounded loop over all strings", "anchors": ["src/util.rs: build_unique_segment"]}
{"id": "C50", "title": "The safe base is deep enough", "statement": "build_safe_base returns http://host/ followed by one copy of the safe segment per non-overlapping '..' in the input; so resolving a path-relative input against it never climbs above the base's host root.", "quantifier": "all inputs", "why_tests_cant": "all strings", "anchors": ["src/util.rs: build_safe_base"]}
{"id": "C51", "title": "Computed relative paths resolve back", "statement": "For two URL paths on one host, resolving the computed relative path against the root directory gives the target path, provided the target is not an ancestor-or-equal file of the root and has no empty segment at the split.", "quantifier": "all pairs of paths of any depth", "why_tests_cant": "unbounded path depth", "anchors": ["src/util.rs: compute_relative_url"]}
{"id": "C52", "title": "Relative URLs keep query and fragment", "statement": "A query or fragment of the target survives in the relative URL. (False of the code: they are appended without ? and #.)", "quantifier": "all targets", "why_tests_cant": "all strings", "anchors": ["src/util.rs: compute_relative_url"]}
{"id": "C53", "title": "relative() is usable for non-absolute roots", "statement": "relative(root, target) returns a value for path-relative or path-absolute root and target. (False of the code: whenever both have the same non-absolute type it panics, because the raw strings are parsed without a base.)", "quantifier": "all pairs of strings", "why_tests_cant": "all strings", "anchors": ["src/util.rs: relative, replace_if_possible, compute_relative_url"]}
{"id": "C54", "title": "Normalisation is the identity on clean paths and idempotent", "statement": "Normalising a path-relative URL of at least two characters without dot segments or special characters returns it unchanged; normalising any plain URL twice equals normalising it once, whenever the first result has at least two characters. (If it has fewer, e.g. for './a' or 'a/..', the second call panics.)", "quantifier": "all plain relative paths", "why_tests_cant": "unbounded paths", "anchors": ["src/util.rs: NORMALIZE, create_safe_handler"]}
{"id": "C55", "title": "sourceRoot is joined with exactly one slash", "statement": "sourceRoot R or R/ with source p or /p all resolve to R/p (in normal form), for plain path-absolute or path-relative R and plain p of at least two characters, also in normal form (C82 has the others). A root or source of fewer than two characters, among them the empty sourceRoot, panics.", "quantifier": "all plain roots and sources", "why_tests_cant": "unbounded strings", "anchors": ["src/util.rs: compute_source_url, join, ENSURE_DIRECTORY"]}
{"id": "C56", "title": "Absolute sources ignore sourceRoot", "statement": "join(root, path) returns an absolute path argument unchanged whatever the root, whenever it returns, and it returns for every plain root of each kind; under a plain sourceRoot an absolute source resolves as without it.", "quantifier": "all roots and absolute URLs", "why_tests_cant": "all strings", "anchors": ["src/util.rs: join, with_base"]}
{"id": "C57", "title": "The map URL's directory is the base for sources", "statement": "With a map URL, sources resolve against the directory of the map. (False of the code whenever that directory is at least two levels deep: the path segments are concatenated without slashes; and it panics for a map URL that is a bare file name or an absolute path of one segment.)", "quantifier": "all plain map URLs", "why_tests_cant": "unbounded path depth", "anchors": ["src/util.rs: TRIM_FILENAME, compute_source_url"]}
{"id": "C58", "title": "Sources listed by the consumer can be looked up", "statement": "Every plain source string of the map, and every entry of get_sources(), is recognised by source_content_for and refers to the same index (first occurrence), for a map built without a map URL. (False of the code in two cases: under a sourceRoot a raw source that equals another source's resolved form gets the other's index; and looking up any string shorter than two characters panics when the map has contents.)", "quantifier": "all maps with plain sources", "why_tests_cant": "unbounded arrays and strings", "anchors": ["src/consumer.rs: find_source_index, source_content_for, get_sources", "src/util.rs: compute_source_url"]}
{"id": "C59", "title": "Generator to consumer end to end", "statement": "Feeding a generator's output to a BasicConsumer and iterating in generated order visits exactly the generator's segments; iterating reports, through sources and names, exactly the mappings added. Making the consumer returns exactly if the generator holds no content or no source is of the kind of the source root (C63), and every text looked at while locating the sources has two characters at least; its sources are those of the mappings, located under the root and the map URL.", "quantifier": "all histories of valid mappings; plain source roots, sources and map URLs of every kind for when it returns", "why_tests_cant": "composition over unbounded histories", "anchors": ["src/consumer.rs: BasicConsumer::from_source_map, each_mapping", "src/generator.rs: as_string"]}
{"id": "C60", "title": "A consumer with a map URL recognises the raw sources of its map", "statement": "For a consumer built with a map URL and no sourceRoot, every raw source string of the map is recognised by source_content_for, with the index of the first entry of get_sources() it resolves to. (True of BasicConsumer::new. False of from_source_map_json, which create_consumer uses: it drops the map URL, so plain relative sources of an http(s) map URL are not recognised.)", "quantifier": "all maps, map URLs and call histories", "why_tests_cant": "unbounded sources, URLs and histories", "anchors": ["src/consumer.rs: BasicConsumer::new, from_source_map_json, find_source_index, source_content_for"]}
{"id": "C61", "title": "Fixed fields of the generator's output", "statement": "Every map given by as_json/as_string of a generator has version 3, exactly the file and source root given to new, and no sections, whatever was called before; skip_validation has no influence on the output or on whether a call panics.", "quantifier": "all histories of generator calls", "why_tests_cant": "unbounded histories", "anchors": ["src/generator.rs: new, as_json, add_mapping"]}
{"id": "C62", "title": "Alphabet and line structure of emitted mappings", "statement": "The emitted mappings string consists only of base64 digits, commas and semicolons, and has exactly n-1 semicolons where n is the greatest generated line among the mappings added.", "quantifier": "all histories of valid mappings", "why_tests_cant": "unbounded histories and lines", "anchors": ["src/generator.rs: serialize_mappings", "src/base64_vlq.rs: base64vlq_encode"]}
{"id": "C63", "title": "Source contents under a source root", "statement": "With a source root given to new, set_source_content and serialising return, and the emitted contents are those of the latest call for each source, as without a root. (False of the code: recording content panics exactly if root and source are of the same kind, on the same host and not both full URLs; and once any content is recorded, serialising panics for every mapping with such a source. Under a full URL the content of a relative reference is emitted for the URL it would lead to; sources with query or fragment, and the root itself as file and directory, can share a place. True in all other cases, for roots of every kind, where two ways of writing a source count as the same.)", "quantifier": "all plain roots and sources, all histories", "why_tests_cant": "unbounded strings and histories", "anchors": ["src/generator.rs: set_source_content, generate_sources_contents", "src/util.rs: relative"]}
{"id": "C64", "title": "create_consumer does not panic", "statement": "create_consumer returns a consumer or an error for every JSON text; for a v3 map the sources of the consumer are the sources of the map resolved against sourceRoot, in order. (False of the code: it panics for a map without sources, for a source or a sourceRoot of fewer than two characters, and for a map URL that is a bare file name.)", "quantifier": "all JSON texts, source roots and map URLs", "why_tests_cant": "unbounded texts and strings", "anchors": ["src/consumer.rs: create_consumer, BasicConsumer::from_source_map_json", "src/util.rs: compute_source_url, get_url_type"]}
{"id": "C65", "title": "How the JSON text is read", "statement": "Reading a map from text depends neither on the order of the fields of any object at any depth, nor on unknown fields; null is the same as a missing field for every field other than version; a text with one of the eight fields twice, or without an i32 version, is rejected. Exactly: for values nested at most 127 levels deep, a map is read if and only if the value holds it - every field, and every section with its offset, url and map at every level, is what the value has under that name, or at that place of an array with one element per field; whatever the depth, a map that is read is the one the value holds.", "quantifier": "all JSON values and field orders", "why_tests_cant": "unbounded values and permutations", "anchors": ["src/source_map.rs: SourceMapJson", "src/consumer.rs: create_consumer"]}
{"id": "C66", "title": "Answers of an IndexedConsumer do not depend on history or scheduling", "statement": "Two indexed consumers of the same map and URL, built under any two thread schedules, give the same answer or the same panic to every public call (span ends apart) after any two call histories; no call changes the map, the number of sections, their offsets or their maps.", "quantifier": "all maps, schedules and pairs of call histories", "why_tests_cant": "unbounded histories and schedules", "anchors": ["src/consumer.rs: IndexedConsumer (all methods)"]}
{"id": "C67", "title": "IndexedConsumer::computed_column_spans", "statement": "It returns exactly if the mappings of every section are present and can be parsed; calling it again after any further calls changes nothing; it changes no answer except last_generated_column.", "quantifier": "all maps, schedules and call histories", "why_tests_cant": "unbounded histories", "anchors": ["src/consumer.rs: IndexedConsumer::computed_column_spans, BasicConsumer::compute_column_spans"]}
{"id": "C68", "title": "IndexedConsumer::has_contents_of_all_sources", "statement": "It returns true exactly if the map of every section has at least as many contents as sources; true for a map without sections; after any history.", "quantifier": "all maps, schedules and call histories", "why_tests_cant": "unbounded number of sections and histories", "anchors": ["src/consumer.rs: IndexedConsumer::has_contents_of_all_sources"]}
{"id": "C69", "title": "Where last_generated_column comes from", "statement": "generated_position_for reports the end of the span the mappings library has for the mapping found; if it has none, -1 when compute_column_spans has been called before and None otherwise, so after compute_column_spans everything found has a last column. original_position_for reports the library's end or None, never a -1 of its own.", "quantifier": "all maps, call histories, queries and biases", "why_tests_cant": "unbounded histories of calls before the query", "anchors": ["src/consumer.rs: BasicConsumer::generated_position_for, original_position_for, compute_column_spans"]}
{"id": "C70", "title": "Original positions of added mappings lead back to their generated positions", "statement": "In a consumer made from a generator, generated_position_for of the source and original position of an added mapping returns the generated position of an added mapping with that source and original position (the mapping itself if it is the only one), and in general that of the nearest added mapping of the source. (False of the code if the source comes after more distinct sources than there are distinct names: the call panics.)", "quantifier": "all generator histories, call histories on the consumer, queries and biases", "why_tests_cant": "quantifies over all histories of two objects", "anchors": ["src/generator.rs: add_mapping, as_json", "src/consumer.rs: BasicConsumer::from_source_map, generated_position_for"]}
{"id": "C71", "title": "Generated positions of added mappings lead to their original positions", "statement": "In a consumer made from a generator, original_position_for the generated position of an added mapping returns the original position, source and name of an added mapping at that position. (False of the code: for the generated position of an added mapping it returns None with either bias; all it can find, with the bias to the least upper bound, is the first mapping of the line after the one asked about.)", "quantifier": "all generator histories, call histories on the consumer, positions and biases", "why_tests_cant": "quantifies over all histories of two objects; an example that returns None shows nothing about the others", "anchors": ["src/generator.rs: add_mapping, as_json", "src/consumer.rs: BasicConsumer::from_source_map, original_position_for"]}
{"id": "C72", "title": "Contents set in the generator are read back by the consumer", "statement": "In a consumer made from a generator, source_content_for a source returns the content last set for it, and has_contents_of_all_sources tells whether every source of an added mapping has one. (False of the code if only some sources have a content: the contents present are handed out by position, so a source may get the content of a later one, and the call panics for the last ones.)", "quantifier": "all generator histories, call histories on the consumer and sources", "why_tests_cant": "quantifies over all histories of two objects", "anchors": ["src/generator.rs: set_source_content, generate_sources_contents, as_json", "src/consumer.rs: BasicConsumer::from_source_map, source_content_for, has_contents_of_all_sources"]}
{"id": "C73", "title": "Exact order of the list returned by MappingList::to_array", "statement": "If every mapping added since to_array last returned (or ever) is generated at or after all mappings added before it, to_array returns the previous result followed by the new mappings in order of insertion. If one is not, it returns all mappings ordered by generated position, source, original position and name, mappings equal in all of these in the order they had; so then the result depends only on which mappings were added.", "quantifier": "all histories of add and to_array over valid mappings", "why_tests_cant": "unbounded histories; the two cases differ only among mappings at one position", "anchors": ["src/mapping_list.rs: MappingList::add, to_array", "src/util.rs: compare_by_generated_pos_inflated"]}
{"id": "C74", "title": "Exact sequence of emitted segments", "statement": "If mappings are added in generated order, the segments of the emitted map denote, one by one, the added mappings in order of addition, leaving out those equal to their predecessor, wherever else the generator was serialised. If they are added in order since a serialisation, the segments are those emitted then, followed by the added ones. If since the last serialisation one was added out of order, they denote the added mappings ordered by generated position, source, original position and name.", "quantifier": "all generator histories of encodable mappings", "why_tests_cant": "unbounded histories", "anchors": ["src/generator.rs: add_mapping, serialize_mappings, as_json", "src/mapping_list.rs: add, to_array"]}
{"id": "C75", "title": "Generator output for large coordinates", "statement": "For every history of mappings of the documented shapes, serialisation succeeds and the emitted mappings decode to segments that denote exactly the added mappings, whatever the size of the coordinates.", "quantifier": "all histories of accepted mappings with i32 coordinates, both pointer widths", "why_tests_cant": "the failure needs coordinates of 2^30 or more, and depends on the target", "anchors": ["src/base64_vlq.rs: base64vlq_encode, to_vlq_signed", "src/generator.rs: serialize_mappings"]}
{"id": "C76", "title": "All generated positions of an original position, end to end", "statement": "In a consumer made from a generator, all_generated_position_for the source and original position of added mappings returns exactly the mappings added there (each once, if no two added mappings agree in all compared fields). (False of the code: the mappings of the next original line are returned instead, whenever there are some in that column.)", "quantifier": "all histories of both objects, all sources known to the consumer, all positions", "why_tests_cant": "unbounded histories; the existing tests ask about lines as the code counts them", "anchors": ["src/consumer.rs: all_generated_position_for", "src/generator.rs: serialize_mappings"]}
{"id": "C77", "title": "Iterating in original order, end to end", "statement": "In a consumer made from a generator, each_mapping in original order visits exactly the added mappings that have an original position (each once, if no two added mappings agree in all compared fields), by source in order of first use, then by original line and column.", "quantifier": "all histories of both objects with encodable mappings", "why_tests_cant": "unbounded histories", "anchors": ["src/consumer.rs: each_mapping", "src/generator.rs: add_mapping, serialize_mappings"]}
{"id": "C78", "title": "The emitted text determines what was added", "statement": "If two generators end in the same text, they were given the same file and source root, the same sources and names in the same order of first use, and the same set of mappings.", "quantifier": "all pairs of histories with encodable mappings, any options", "why_tests_cant": "a statement about all pairs of histories", "anchors": ["src/generator.rs: as_string, serialize_mappings", "src/base64_vlq.rs: base64vlq_encode"]}
{"id": "C79", "title": "consume runs the callback on a consumer of the text", "statement": "consume calls its callback exactly once, with a consumer of the map in the text whose sources are located by the given map URL as in C82, and returns or panics as the callback does; if the text is no source map, or no consumer can be made of the map (C64, C85), it panics without calling it. Consuming the text of a generator and visiting the mappings visits exactly those added to the generator.", "quantifier": "all texts, callbacks and orders of the workers; maps with plain sources, source roots and map URLs of all kinds", "why_tests_cant": "all callbacks, including those that panic", "anchors": ["src/consumer.rs: ConsumerTrait::consume for BasicConsumer and IndexedConsumer"]}
{"id": "C80", "title": "join means the path in the directory of the root", "statement": "For a root and a path of any two kinds (relative reference, absolute path, scheme-relative, full URL), join gives a URL that on every page means what the path means in the directory the root means there, followed by the path's query and fragment; a full URL as path is returned untouched, and otherwise the result carries scheme and host only if one of the two does. (For two relative references the path has no query or fragment: join drops their ? and #, see C52.)", "quantifier": "all plain roots without query and all plain paths of two characters or more, all pages on which the result is read, every url library meeting the contract", "why_tests_cant": "sixteen combinations of kinds, arbitrary dot segments and arbitrary pages", "anchors": ["src/util.rs: join, with_base, ENSURE_DIRECTORY"]}
{"id": "C81", "title": "The emitted mappings text is as short as possible", "statement": "No text that decodes to the same segments is shorter than the mappings text the generator emits: it contains no superfluous digits or separators.", "quantifier": "all histories of calls on the generator with encodable mappings, all texts with the same segments", "why_tests_cant": "quantifies over all texts describing the same mappings", "anchors": ["src/generator.rs: serialize_mappings", "src/base64_vlq.rs: base64vlq_encode"]}
{"id": "C82", "title": "compute_source_url, whatever the kinds of source, source root and map URL", "statement": "A source URL is computed from the source, the source root if there is one and the URL of the map if there is one: the source (under a source root without its leading slash) joined below the source root, and that joined below the directory of the map. So wherever the page is, the computed URL means what the source means in the directory that the source root means in the directory of the map. This holds if the URL of the map names at most one directory: the code takes for the directory of the map the names of its directories run together without slashes, so with two or more not even a bare file name is found beside the map. A panic occurs exactly if one of the texts looked at on the way (source, source without leading slash, normalized source, source root, map URL, directory of the map, source under the source root) is shorter than two characters.", "quantifier": "all plain relative, path-absolute, scheme-relative and absolute URLs for source, source root and map URL, each of the latter two possibly absent, any query and fragment on a source that is not relative, all pages, every url library satisfying the contract", "why_tests_cant": "a product of four kinds of source, five of root and five of map URL over all paths with any dot segments", "anchors": ["src/util.rs: compute_source_url", "src/util.rs: join", "src/util.rs: normalize", "src/util.rs: TRIM_FILENAME"]}
{"id": "C83", "title": "The whole table of relative", "statement": "relative(root, target): a target of another kind than the root (relative, path, scheme-relative, absolute) or on another host (or another port or scheme) is only brought to normal form; for two absolute URLs on one host the result is a relative reference that leads from the root, seen as a directory, to the target (if the target is the root or a directory above it, written without a final slash, it leads there with one), followed by query and fragment without their marks; for two URLs of one kind on one host that are not absolute it panics, as it does for texts of fewer than two characters.", "quantifier": "all plain roots and targets of all four kinds, also with ports and other schemes than http, with any dot segments, any query and fragment on the target, every url library satisfying the contract", "why_tests_cant": "sixteen combinations of kinds, each over all paths with any dot segments", "anchors": ["src/util.rs: relative", "src/util.rs: replace_if_possible", "src/util.rs: compute_relative_url"]}
{"id": "C84", "title": "Mappings that were not validated can be put in order", "statement": "Any mappings that a generator accepts without validation are put in order by MappingList: the comparison is a total preorder of them. (False of the code in two ways. The comparison leaves out the original positions if one is missing, so three mappings at one place, one with a source but no original position, can be less than each other in a circle; no arrangement is sorted and sort_by is unspecified. And coordinates 2^31 apart overflow: adding panics in a debug build and the order is wrong in a release build. True if, of the mappings with one generated position and one source, all have an original position or none has, and all coordinates, negative ones included, lie among 2^31 consecutive numbers.)", "quantifier": "all histories of add and to_array, all mappings with i32 coordinates, valid or not, both build profiles", "why_tests_cant": "the law is about all triples and all histories, and the sort only misbehaves on some inputs and some versions of the standard library", "anchors": ["src/util.rs: compare_by_generated_pos_inflated", "src/mapping_list.rs: add, to_array"]}
{"id": "C85", "title": "When an indexed map is accepted, exactly", "statement": "For an indexed map whose sections have plain sources, with any plain source roots and map URL: under every order of the workers, constructing an IndexedConsumer returns exactly if the version is 3, no section has a url, every text looked at while locating the sources has two characters at least, no offset is the greatest i32 (in a build with overflow checks) and the offsets do not decrease in the order of the workers; otherwise it panics. The consumer holds one section for each, in the order of the file, at the offset plus one, with the map of the section and its sources located as in C82.", "quantifier": "all indexed maps with plain sources, roots and map URLs, all schedules, both build profiles, every url library satisfying the contract", "why_tests_cant": "the number of sections, their texts and the order of the workers are unbounded, and the order cannot be chosen by a test", "anchors": ["src/consumer.rs: IndexedConsumer::from_source_map_json", "src/util.rs: compute_source_url"]}
{"id": "C86", "title": "Indexed map: a mapping found is reported at its place in the generated file", "statement": "With the bias to the least upper bound, a mapping that original_position_for of an IndexedConsumer finds is one of the section that answers, is the first on the line after the one asked about, and is reported with the generated position it has in the whole generated file: its position within the section, moved by the offset of the section. It is found whenever that line has a first mapping with a source and nothing of the section is at or after the position asked about on its own line.", "quantifier": "all indexed maps whose offsets are in order, all schedules, all histories of queries, all positions, sections from any text or from any generator history, both build profiles", "why_tests_cant": "the number of sections, their offsets and their mappings are unbounded, and a test whose section begins on the first line cannot tell the two positions apart", "anchors": ["src/consumer.rs: IndexedConsumer::original_position_for", "src/consumer.rs: BasicConsumer::original_position_for"]}
{"id": "C87", "title": "Additions in order only extend the map emitted before", "statement": "If everything added since a serialisation came in order (nothing before something added earlier), the next serialisation emits lists of sources and names and a mappings text that each begin with the ones emitted before: nothing emitted before changes.", "quantifier": "all histories of add_mapping, set_source_content and serialisations with valid mappings, with or without a source root, both build profiles", "why_tests_cant": "histories are unbounded, and the text emitted for a mapping depends on all mappings before it", "anchors": ["src/generator.rs: SourceMapGenerator::serialize_mappings", "src/generator.rs: SourceMapGenerator::as_json", "src/mapping_list.rs: MappingList::to_array"]}
{"id": "C88", "title": "What is emitted for mappings that validation would refuse", "statement": "add_mapping stores mappings that validate_mapping refuses, and serialising does not refuse them either. A mapping without a source is emitted as its generated position alone: its original position and its name are dropped, though the name stays listed among the names; everything else is emitted as usual, all of it, in generated order. A mapping on a generated line below 1 makes serialising panic in a debug build, and in a release build, if it returns, emit at least 2^31 - 1 line separators.", "quantifier": "all histories of add_mapping, set_source_content and serialisations; for the first part with coordinates in range and, of the mappings with one generated position and one source, either all or none having an original position; for the second any i32 lines whatever; both build profiles", "why_tests_cant": "histories are unbounded; the text of a release build with a line below 1 is gigabytes long", "anchors": ["src/generator.rs: SourceMapGenerator::add_mapping", "src/generator.rs: SourceMapGenerator::serialize_mappings", "src/generator.rs: SourceMapGenerator::validate_mapping"]}
{"id": "C89", "title": "last_generated_column of added mappings has no influence", "statement": "Two generator histories that differ in nothing but the last_generated_column of the mappings added give the same map in the end, or panic alike.", "quantifier": "all pairs of histories of add_mapping, set_source_content and serialisations with valid mappings, any options, both build profiles", "why_tests_cant": "quantifies over pairs of unbounded histories", "anchors": ["src/generator.rs: SourceMapGenerator::add_mapping", "src/generator.rs: SourceMapGenerator::serialize_mappings", "src/mapping_list.rs: MappingList::add", "src/util.rs: compare_by_generated_pos_inflated"]}
{"id": "C90", "title": "An indexed map put together from generator outputs answers for its parts", "statement": "Let several generators without a source root each write a map, and let an indexed map have these maps as its sections, at offsets in order. create_consumer accepts the text of the indexed map when the workers run in file order. Whatever the order in which the workers ran, if it is accepted, then after any calls get_sources gives the sources of the parts in the order of their first use, part after part; has_contents_of_all_sources is true exactly if every part has a content and a content for each of its sources; and, if every part has a content for each of its sources, source_content_for(s, Some(false)) gives the content last set for s in the first part of which s is a source, and None if s is a source of no part.", "quantifier": "all lists of parts, all their histories with encodable mappings and plain source URLs, all offsets in range, all schedules, all calls in between", "why_tests_cant": "quantifies over unbounded lists of unbounded histories and over thread schedules", "anchors": ["src/consumer.rs: create_consumer", "src/consumer.rs: IndexedConsumer::from_source_map_json", "src/consumer.rs: IndexedConsumer::get_sources", "src/consumer.rs: IndexedConsumer::has_contents_of_all_sources", "src/consumer.rs: IndexedConsumer::source_content_for", "src/generator.rs: SourceMapGenerator::as_json", "src/source_map.rs: SourceMapJson"]}
{"id": "C91", "title": "How the JSON text is written", "statement": "The text of a map is the JSON of an object that holds the map, has some of the eight fields in the order version, sources, names, mappings, file, sourceRoot, sourcesContent, sections, none twice, always version and file, and null nowhere but in file; every section has exactly the fields offset, map and url, an offset exactly line and column, and the map of a section is written likewise. No other JSON value has these properties.", "quantifier": "all maps, nested to any depth, all JSON libraries that read back what they print", "why_tests_cant": "quantifies over all maps of unbounded nesting", "anchors": ["src/source_map.rs: SourceMapJson", "src/source_map.rs: Section", "src/source_map.rs: Position", "src/generator.rs: SourceMapGenerator::as_string"]}
{"id": "C92", "title": "The generator's text is a source map of revision 3", "statement": "The text given by as_string is the JSON of a source map of revision 3: version 3, lists of strings sources and names, mappings that decode and whose indices are inside these lists, no field twice, file and sourceRoot strings if present, sourcesContent, if present, with an entry for each source, no sections. (False of the code: without a file, null is written for it; and when some content is set but not every source has one, sourcesContent is too short. True exactly otherwise.)", "quantifier": "all histories of encodable mappings, contents and serialisations, any file, source root and skip_validation", "why_tests_cant": "quantifies over unbounded histories", "anchors": ["src/generator.rs: SourceMapGenerator::as_string", "src/generator.rs: SourceMapGenerator::as_json", "src/generator.rs: SourceMapGenerator::serialize_mappings", "src/source_map.rs: SourceMapJson"]}
{"id": "C93", "title": "The section workers: every interleaving has the outcome of some order of the lock", "statement": "Let the parallel closures of IndexedConsumer::from_source_map_json (version 3, sections present) be interleaved step by step in any way: check of the url, taking the lock, comparison with the last offset, assignment, making the section and giving the lock back; a panic with the lock held poisons it, and taking a poisoned lock panics. Then: if all come to their end, the consumer is the one made when the closures run one after the other in some order, and each such order is an interleaving; all executions that come to their end make the same consumer; some interleaving has a closure panic exactly if the construction panics in some order; there is no deadlock, no closure takes more than five steps, two are never both holding the lock, and an execution that cannot go on has made all sections or has a closure that panicked. For sections that are fine and in order, two of them at different offsets, there are both an execution that makes them all and one in which a closure panics.", "quantifier": "all lists of sections, all map URLs, all interleavings of the workers' steps", "why_tests_cant": "quantifies over all thread interleavings of unboundedly many workers", "anchors": ["src/consumer.rs: IndexedConsumer::from_source_map_json"]}
{"id": "C94", "title": "Sources with spaces or letters outside ASCII are known by their percent-encoded names as well", "statement": "Let a source, the sourceRoot and the URL of the map contain, after any host, spaces (not at the ends), double quotes, angle brackets or characters outside ASCII, and be two characters or longer. Then compute_source_url gives the same result or panic as for the three with these characters percent-encoded as UTF-8, and hence the place C82 describes. A BasicConsumer of a map with such names is made exactly if the one of the encoded map is, and lists the same sources. After any history of calls, source_content_for, generated_position_for and all_generated_position_for answer (or panic) alike for the name and for the encoded name, so two names of the same encoding cannot be told apart; so does source_content_for of an IndexedConsumer. Under a source root, set_source_content does the same for both.", "quantifier": "all such sources, roots and map URLs, all maps and histories, every URL library that percent-encodes these characters", "why_tests_cant": "all strings of Unicode characters and all histories of calls", "anchors": ["src/util.rs: compute_source_url, create_safe_handler, get_url_type, build_safe_base", "src/consumer.rs: BasicConsumer::find_source_index", "src/generator.rs: set_source_content"]}
{"id": "C95", "title": "A consumer survives panics", "statement": "Let any calls be made on a BasicConsumer or an IndexedConsumer, each returning or panicking, the panics being caught: unknown sources, lines 0, a callback of each_mapping that panics at any of its calls, or an unimplemented branch. Afterwards the consumer answers every call as a new consumer of the same map: the same result but for column spans, or the same panic; sources and has_contents_of_all_sources are the same. On such a BasicConsumer each_mapping calls its callback with the mappings a new consumer reports, in their order, once each, up to and including the first call that panics, and panics as the callback did; if the new consumer panics it panics alike and the callback is not called. On an IndexedConsumer the reverse lookups and each_mapping leave the consumer as it was, and the callback is never called.", "quantifier": "all maps, all histories of calls that return or panic, all callbacks, all schedules", "why_tests_cant": "quantifies over all histories with caught panics and all callbacks", "anchors": ["src/consumer.rs: BasicConsumer, IndexedConsumer (all methods on &mut self)"]}
{"id": "C96", "title": "A generator survives panics", "statement": "A call on a SourceMapGenerator that panics, the panic being caught, has no effect: the maps emitted later are those of a generator on which only the calls that returned were made.", "quantifier": "all histories of calls that return or panic, all mappings, all source roots, both overflow modes", "why_tests_cant": "quantifies over all histories with caught panics", "anchors": ["src/generator.rs: add_mapping, set_source_content, as_json, serialize_mappings", "src/mapping_list.rs: add, to_array"]}
{"id": "C97", "title": "Binary search: the calls of the comparators", "statement": "For comparators with arbitrary effects and answers, search on n elements calls the first comparator at most floor(log2 n) + 1 times (exactly that often if the needle is greater than every element), each time with the needle and an element at another position; after that it calls the second comparator only with neighbouring elements, downwards from one position without a gap, once more than it moves (or as often, if it gets to the front), hence at most once if no two elements compare equal, and at most n - 1 times; it panics only if a comparator does. If the answers depend on the arguments only, the effects do not influence the result.", "quantifier": "all haystacks of at most 2^31 - 2 elements, all needles, all comparators whether or not they have effects, contradict each other or panic, all biases", "why_tests_cant": "quantifies over all comparators, including stateful ones, and all lengths", "anchors": ["src/binary_search.rs: search, recursive_search"]}
{"id": "C98", "title": "Assignments to the public field source_map", "statement": "The public field source_map of a BasicConsumer can be assigned between calls; the consumer then answers like a newly built one with the last assigned map in its field, column spans apart. (False for assignments that change mappings or sourceRoot: the mappings are read once, at the first call that needs them, and found sources are remembered. Exactly: whatever is assigned, names and contents are those of the last map, the mappings are those in the field at the first call that read them, the root for a source is that in the field when it was first found, as long as none of this has happened those of the last map, and get_sources never changes.) Assigning the field of an IndexedConsumer has no effect on any method.", "quantifier": "all maps, all sequences of returning calls and assignments, all later calls, whether they return or panic", "why_tests_cant": "quantifies over all interleavings of calls and assignments", "anchors": ["src/consumer.rs: BasicConsumer.source_map (116), IndexedConsumer.source_map (478)", "src/consumer.rs: find_source_index, parse_mappings, source_content_for, original_position_for, generated_position_for"]}
{"id": "C99", "title": "A map can be copied mapping by mapping", "statement": "Visiting the mappings of any BasicConsumer with each_mapping in generated order, looking their sources up in get_sources and their names in the map, and adding them to a new generator gives a map whose segments, resolved through its own sources and names, are exactly the visited mappings in the order visited, repetitions in a row left out; serialising it returns. If no two mappings share a generated position, a consumer of the copy that lists the sources as they are written visits the same mappings again, and copying the copy gives the same map once more.", "quantifier": "all maps with decodable mappings whose indices are in range and whose numbers are in the range of the encoder, all call histories of either consumer", "why_tests_cant": "quantifies over all maps", "anchors": ["src/consumer.rs: each_mapping, get_sources", "src/generator.rs: add_mapping, as_json", "src/generator.rs: from_source_map (not implemented)"]}
{"id": "C100", "title": "Of the texts naming sources and names only their order counts", "statement": "If all sources in a history of add_mapping, set_source_content and as_json calls are renamed by a function that keeps the order of texts, and all names by another, then as_json afterwards returns the same map with its sources and names so renamed, and everything else, mappings text included, unchanged to the letter; or both histories panic alike. The order does count: a one-to-one renaming that does not keep it can change the text of the mappings.", "quantifier": "all histories of valid mappings (C09), all order-preserving renamings; under a source root only histories that set no contents", "why_tests_cant": "quantifies over all renamings and all histories", "anchors": ["src/generator.rs: add_mapping, set_source_content, as_json, serialize_mappings", "src/util.rs: strcmp", "src/array_set.rs"]}
{"id": "C101", "title": "Lines put before the generated text are semicolons put before its mappings", "statement": "If all mappings in a history of add_mapping, set_source_content and as_json calls are moved k lines down in the generated text, as_json afterwards returns the same map with k semicolons put before its mappings text (nothing if no mapping was added) and everything else unchanged to the letter; or both histories panic alike. A reader of that text sees the same segments, each k lines further down.", "quantifier": "all histories of valid mappings (C09) on lines 1 to 2^31-1-k, all k", "why_tests_cant": "quantifies over all histories and all k", "anchors": ["src/generator.rs: add_mapping, as_json, serialize_mappings", "src/mapping_list.rs: add, to_array", "src/util.rs: compare_by_generated_pos_inflated"]}
{"id": "C102", "title": "Setting contents and adding mappings do not get in each other's way", "statement": "Two histories of calls to a generator that make the same set_source_content calls in the same order, and the same other calls (add_mapping, as_json) in the same order, but interleave the former with the latter differently, leave the same generator behind if both return. Without a source root they end alike in any case, panics included; under a source root whether a serialisation panics may depend on the interleaving.", "quantifier": "all generators, all histories, mappings valid or not", "why_tests_cant": "quantifies over all interleavings", "anchors": ["src/generator.rs: add_mapping, set_source_content, as_json, generate_sources_contents"]}
{"id": "C103", "title": "The numbers the comparisons return", "statement": "strcmp returns 0 for equal texts (or both absent), -1 if the first is smaller or only the second is absent, 1 otherwise. compare_by_generated_pos_inflated returns the first difference that is not 0 among generated line, generated column, source, original line, original column (the two only if both mappings have an original position) and name: coordinates as the difference of the numbers, texts as strcmp; 0 if there is none. If that difference is no i32, a build with overflow checks panics and another returns it off by 2^32, with the wrong sign.", "quantifier": "all pairs of mappings with i32 coordinates, valid or not; all pairs of optional texts; both overflow settings", "why_tests_cant": "quantifies over all pairs; the failing pairs are 2^31 or more apart", "anchors": ["src/util.rs: strcmp, compare_by_generated_pos_inflated"]}
{"id": "C104", "title": "Semicolons put before the mappings of a map move its answers down", "statement": "Take a map, and the same map with k semicolons before its mappings. After any histories of calls on consumers of the two: original_position_for k lines further down on the second answers as on the first, panics included, with the generated line k more; generated_position_for for a known source answers as on the first with the generated line k more; each_mapping hands out the same mappings k lines further down, in the same sequence if in generated order; all_generated_position_for returns the same mappings k lines further down where there are any at the position.", "quantifier": "all maps with well-formed mappings without two segments at one generated position (for original_position_for and each_mapping) or one original position (for generated_position_for), all k and lines that stay below 2^31, all histories, all positions and biases", "why_tests_cant": "quantifies over maps, shifts, histories and positions", "anchors": ["src/consumer.rs: original_position_for, generated_position_for, all_generated_position_for, each_mapping"]}
{"id": "C105", "title": "A map wrapped as the only section of an indexed map answers like the map, except at the start of line 1", "statement": "Take an indexed map whose only section has offset (0, 0) and no URL. It is accepted exactly when a BasicConsumer of the map in the section is, and rejected with the same panic. After every history of calls, and the same calls on the BasicConsumer: original_position_for gives the answer of the BasicConsumer, panics included, for every position after line 1 column 0; for line 1 column 0 (where the BasicConsumer may have a mapping) and everything before it, which the BasicConsumer rejects, the answer is None. has_contents_of_all_sources is the same, and so is every content found by source_content_for; where the BasicConsumer answers None, the call panics unless the caller passed Some(false). Column spans can be computed exactly when the BasicConsumer can compute them, and get_sources lists the sources as they stand in the map.", "quantifier": "all maps, base URLs, histories, i32 positions, biases, sources", "why_tests_cant": "quantifies over maps, histories and positions", "anchors": ["src/consumer.rs: IndexedConsumer::from_source_map_json, original_position_for, source_content_for, has_contents_of_all_sources, computed_column_spans, get_sources"]}
{"id": "C106", "title": "Which mappings an answer depends on", "statement": "Take two maps with the same sources, names and sourceRoot, and consumers of them with the same URL after any histories. original_position_for answers the same for a position, panics included, if the two maps have the same segments from that position to the end of the line after it. generated_position_for for a known source answers the same for an original position if the two maps have the same segments of that source on the side of the position that the bias asks for.", "quantifier": "all pairs of maps with well-formed mappings (in the first no two segments at one generated, or original, position), all histories, all valid positions and biases", "why_tests_cant": "quantifies over pairs of maps, histories and positions", "anchors": ["src/consumer.rs: original_position_for, generated_position_for"]}
{"id": "C107", "title": "For which questions an answer is the answer", "statement": "If original_position_for with the upper bias finds a mapping, it finds the same mapping from every later column of the same line, after whatever other calls. If generated_position_for finds a mapping, it finds the same mapping from every original position between the one asked for and the mapping's own (whose line is reported counted from 0), after whatever other calls.", "quantifier": "all maps with well-formed mappings and distinct positions, all histories, all valid positions, both biases for generated_position_for", "why_tests_cant": "quantifies over maps, histories and positions", "anchors": ["src/consumer.rs: original_position_for, generated_position_for"]}
{"id": "C108", "title": "Characters put before a line of the generated text change one number of the map", "statement": "Take any history of calls on a fresh generator, and the same with the mappings on line L of the generated text moved k columns to the right, as when k characters are put before that line. If both serialise, the two maps are the same to the letter except for one number, at the very beginning of the line of the mappings that belongs to L: it decodes to the smallest column added on L in the first and to k more in the second. Or both panic alike. The segments a reader decodes from the second are those of the first, those on the line k columns further right.", "quantifier": "all histories of valid mappings on lines from 1 on, in any order and with serialisations in between, with some mapping on line L, all k for which the columns on L stay in the range in which VLQ encoding is right, all configurations", "why_tests_cant": "quantifies over histories, lines and shifts", "anchors": ["src/generator.rs: add_mapping, serialize_mappings, as_json", "src/mapping_list.rs: add, to_array"]}
{"id": "C109", "title": "Generated text spread out within its lines moves the answers with it", "statement": "Take two maps with the same sources, names and source root whose segments differ only in the generated columns, these having been moved within each line without changing their order. After any histories of calls on consumers of the two: original_position_for for the moved position on the second answers as on the first, with the generated column moved; generated_position_for for a known source answers as on the first with the generated column moved; each_mapping hands out the same mappings, moved, in the same sequence if in generated order; all_generated_position_for returns the same mappings, moved, where there are any at the position. Characters put before one line (C108) are a case of this.", "quantifier": "all such pairs of maps with well-formed mappings without two segments at one generated position (for original_position_for and each_mapping) or one original position (for generated_position_for), all strictly increasing moves of columns, line by line, with lines and columns below 2^31, all histories, all positions and biases", "why_tests_cant": "quantifies over maps, moves, histories and positions", "anchors": ["src/consumer.rs: original_position_for, generated_position_for, all_generated_position_for, each_mapping"]}
{"id": "C110", "title": "The map depends on which mappings were added, not on their order or how often", "statement": "Take two histories of calls on two generators made with the same file and source root. If the same valid mappings were added in both (last_generated_column aside), in whatever order and however often, if sources and names are first used in the same order, if no two different mappings share a generated position and if the contents were set by the same calls in the same order, then the two generators serialise to the same map, letter by letter, or fail with the same panic. It does not matter where the generators were serialised in between, nor whether they validate. In particular adding a mapping once more changes nothing. Where two different mappings share a generated position this fails: adding the first of them again emits a third segment.", "quantifier": "all pairs of such histories, of any length; all URL libraries; with and without overflow checks", "why_tests_cant": "quantifies over pairs of histories of unbounded length, over every order and multiplicity of additions", "anchors": ["src/generator.rs: add_mapping, serialize_mappings, as_json", "src/mapping_list.rs: add, to_array"]}
{"id": "C111", "title": "Text moved in the original sources moves the answers with it", "statement": "Take two maps with the same sources, names and source root whose segments differ only in the original positions, these having been moved source by source (lines inserted into a source, for example). After any histories of calls on consumers of the two: original_position_for answers for every position as on the first, with the original position moved as is said for the source reported; if the moves keep the order of positions within each source, generated_position_for for the moved position answers as on the first with the original position moved, each_mapping in either order hands out the same sequence of mappings, moved, and all_generated_position_for for the moved position returns the same mappings, moved, where there are any.", "quantifier": "all such pairs of maps with well-formed mappings without two segments at one generated position (for original_position_for and each_mapping in generated order) or at one original position of a source (for generated_position_for and each_mapping in original order), all moves with lines and columns below 2^31, all histories, all positions and biases", "why_tests_cant": "quantifies over maps, moves, histories and positions", "anchors": ["src/consumer.rs: original_position_for, generated_position_for, all_generated_position_for, each_mapping"]}
{"id": "C112", "title": "The emitted mappings are linear in the number of lines and mappings", "statement": "Whatever was added, valid or not: if serialising returns, the characters of the mappings text other than semicolons are at most 8 for each mapping added without a source, 29 for each with a source and no name, 36 for each with both. If all mappings are valid and on lines 1 to n, the whole text has at most (n - 1) + 36 * (number of additions) characters. (For lines below 1 there is no such bound: a release build emits more than 2^31 semicolons for one mapping, C88.)", "quantifier": "all histories of calls, of any length, all URL libraries, with and without overflow checks, both pointer widths", "why_tests_cant": "a bound over all histories and all values of the coordinates, including those that overflow", "anchors": ["src/generator.rs: serialize_mappings", "src/base64_vlq.rs: base64vlq_encode, to_vlq_signed"]}
{"id": "C113", "title": "The numbering of sources and names does not matter", "statement": "Take two maps that say the same, each through its own lists of sources and names: with the numbers replaced by the resolved sources and the names they stand for, their segments are the same mappings, though the lists may be ordered differently and the segments carry other numbers. After any histories of calls on consumers of the two, original_position_for answers the same for every position and bias, or fails the same way; each_mapping in generated order tells the callback the same mappings in the same order; generated_position_for answers the same for every source, position and bias. In particular the consumers of two generators to which the same mappings were added, in any orders and with any repetitions, answer original_position_for the same.", "quantifier": "all such pairs of maps with well-formed mappings, numbers in range and lines and columns below 2^31 - 1, without two different mappings about one generated position (original_position_for, each_mapping) or one position of a source (generated_position_for, distinct resolved sources), all histories, all positions and biases; all pairs of histories of generator calls adding the same set of mappings", "why_tests_cant": "quantifies over pairs of maps, renumberings, histories and positions", "anchors": ["src/consumer.rs: original_position_for, generated_position_for, each_mapping", "src/generator.rs: add_mapping, as_json"]}
{"id": "C114", "title": "When the program of the crate ends without a panic, and what it visits", "statement": "The program bench/main.rs (the binary `main` of the crate) ends without a panic exactly if its file can be read and parses as a map, and: if the map has sections, an IndexedConsumer of it can be built; otherwise it has sources that can all be resolved, and mappings, well-formed or not. If it ends, it has visited every segment of the map once, by generated position; of an indexed map none.", "quantifier": "all contents of the file, all schedules of the workers", "why_tests_cant": "quantifies over all files; the program has no tests", "anchors": ["bench/main.rs: main", "src/consumer.rs: create_consumer, each_mapping"]}
{"id": "C115", "title": "Lines put before the sources change one number of the map", "statement": "If the original positions of a history of calls of a SourceMapGenerator, some mapping of which has one, are moved k lines down (as when k lines are put before every source), one number of the mappings that as_json returns is k larger and the map is otherwise the same, to the letter; or both histories panic alike. The number is the third one of the first segment with more than one number; it was the original line, counted from zero, of an added mapping before which no added mapping with an original position is generated. (Original lines count from one, and are i32 and, counted from zero, encodable before and after the move.)", "quantifier": "all histories of calls, all k, all build configurations", "why_tests_cant": "relates two runs for every history and every k", "anchors": ["src/generator.rs: add_mapping, serialize_mappings, as_json", "src/mapping_list.rs: add, to_array", "src/base64_vlq.rs: base64vlq_encode"]}
{"id": "C116", "title": "A map of texts put one below the other answers like the maps of the texts", "statement": "Let one SourceMapGenerator be given the mappings of several texts put one below the other (each text's generated lines moved down by the number of lines above it), in any order and as often as one likes, with other calls between, and another one those of one of the texts alone. Then original_position_for of a consumer of the first, asked on a line of that text other than its last (any line, if it is the last text), answers as a consumer of the second asked on that line of the text alone, with the number of lines above added to the generated line: the same source, original position and name, whatever the other texts are. For consumers of any two maps: it is enough that the maps agree, k lines apart, on the line asked for and on the next; and if they agree on all mappings of a source, generated_position_for answers for it k lines further down, apart from the name. On the last line of a text the answer may be a mapping of the next text.", "quantifier": "all lists of texts, all histories of calls of the generators and the consumers, all positions and biases, all build configurations", "why_tests_cant": "relates two maps for every list of texts and every position asked for", "anchors": ["src/generator.rs: add_mapping, as_json", "src/consumer.rs: from_source_map, original_position_for, generated_position_for"]}
{"id": "C117", "title": "An indexed map and the flat map of the same texts", "statement": "Let several SourceMapGenerators without a source root each write the map of a text, and let these maps be the sections of an indexed map, one text below the other from column 0 on; and let one generator be given the mappings of all the texts, moved to their places in the whole, in any order and as often as one likes. Then, if create_consumer accepts the indexed map, and whatever is called on the two consumers before, original_position_for of the IndexedConsumer gives the answer of the consumer of the whole, for every position on a line of a text other than its last (any line, if it is the last text) except the first position of the text: the same source, original position, name and generated column; the generated line reported is the one within the text. On the last line of a text the consumer of the whole may find a mapping of the next text, and for the first position of a text the IndexedConsumer asks the section before.", "quantifier": "all lists of texts, all histories of calls of the generators and the consumers, all positions and biases, all schedules of the workers, all build configurations", "why_tests_cant": "relates two kinds of consumers for every list of texts, every history and every position", "anchors": ["src/consumer.rs: create_consumer, IndexedConsumer::original_position_for, BasicConsumer::original_position_for", "src/generator.rs: add_mapping, as_json"]}
{"id": "C118", "title": "What a line of the emitted mappings depends on", "statement": "The text of a line of the mappings in the map of a SourceMapGenerator (what stands between two semicolons) depends only on the mappings generated on that line, on the source and original position of the last mapping with a source before the line, and on the last name written before it, with the numbers of these sources and names. In any two histories of calls in which these are the same, the line is the same to the letter, whatever else was added, in whatever order, however often, and wherever the generators were serialised in between, as long as valid mappings were added, on lines from 1 on, and one only at each generated position. In particular one more mapping changes no line before its own, and no line after the one on which another mapping with a source (and, if it has a name, another with a name) has followed it.", "quantifier": "all pairs of histories of add_mapping, set_source_content and as_json, all mappings, all lines, all build configurations", "why_tests_cant": "compares one line of the output for all pairs of histories that agree about that line", "anchors": ["src/generator.rs: SourceMapGenerator::serialize_mappings, add_mapping, as_json", "src/mapping_list.rs: MappingList::to_array"]}
{"id": "C119", "title": "Of an indexed map an answer depends on one section", "statement": "original_position_for of an IndexedConsumer depends on the map of one section and on the position relative to the place of that section: if in two indexed maps (read with the same map URL) the sections that two positions fall in, by C42, have the same map, and the positions are the same relative to them, then the answers are the same, span ends apart, or the same panic, whatever other sections there are, under whatever schedule the consumers were built and whatever was called on them before. So sections that begin at or after a position have no influence on its answer; and if all sections are moved down by k lines, the position k lines further down has the answer the position had.", "quantifier": "all pairs of accepted indexed maps with ordered sections, all schedules, all histories of calls, all positions and biases", "why_tests_cant": "compares arbitrary pairs of indexed maps with arbitrary other sections and histories", "anchors": ["src/consumer.rs: IndexedConsumer::from_source_map_json, IndexedConsumer::original_position_for"]}
{"id": "C120", "title": "join and relative undo each other", "statement": "For an absolute root URL: relative(root, join(root, path)) is the path again, to the letter, for every plain relative path of at least two characters without dot segments; with dot segments it is a path that leads to the same place from the root (with a final slash, if that is the root or a directory above it). And join(root, relative(root, target)) is the target in normal form, for every plain target on the same host (with a final slash, if it is the root or a directory above it), provided relative gives at least two characters; if it gives fewer, as for a file with a name of one character in the directory of the root, join panics.", "quantifier": "all plain root URLs, relative paths and targets, all url libraries that satisfy the contract", "why_tests_cant": "a round trip for all URLs", "anchors": ["src/util.rs: join, relative, compute_relative_url"]}
{"id": "C121", "title": "Visiting the mappings of texts put one below the other, and asking back from their sources", "statement": "Let one SourceMapGenerator be given the mappings of several texts put one below the other, in any order and as often as one likes, with other calls between, and others those of the texts, each its own, with the same source root. Then each_mapping in generated order, on a consumer of the first made with the same map URL, visits exactly what it visits on consumers of the others, text after text in their order, with the lines above added to the generated lines: the same sources, original positions and names. And if a source is used by one of the texts only, generated_position_for of the consumer of the whole answers for it as the consumer of the text alone, with the lines above added to the generated line, for every position and bias, apart from the name. (Encodable mappings, one only at each generated position; for the second part, one only at each position of a source, and sources that are located differently.)", "quantifier": "all lists of texts, all histories of calls of the generators and the consumers, all positions and biases, all build configurations", "why_tests_cant": "all lists of texts and all histories", "anchors": ["src/generator.rs: add_mapping, serialize_mappings", "src/consumer.rs: each_mapping, generated_position_for"]}
{"id": "C122", "title": "Which sessions with a consumer end without a panic, and what they answer", "statement": "Calls made one after the other on a BasicSourceMapConsumer answer, call by call, what a fresh consumer asked only that call would answer (the span ends computed by compute_column_spans apart), and a session panics exactly if one of its calls would panic on a fresh consumer, then at the first such call and with its panic. If the segments of the map are within the i32 range and refer to entries that exist, a session returns if and only if each of its calls has what it needs: positions that count from line 1 and column 0 (for calls about a source: unless the source is unknown); a source that is known, or that is found to be unknown; for generated_position_for of a known source moreover as many names as the number of the source requires, unless no mapping answers; for source_content_for, if the map has contents, a content under the number of the source, or panic_on_missing given as false for an unknown source. each_mapping and compute_column_spans need nothing.", "quantifier": "all maps, all map URLs, all lists of calls with arguments of their types, all build configurations", "why_tests_cant": "all maps and all sessions of any length; the condition is exact", "anchors": ["src/consumer.rs: original_position_for, generated_position_for, all_generated_position_for, source_content_for, each_mapping, compute_column_spans"]}
{"id": "C123", "title": "Which sessions with an indexed consumer end without a panic", "statement": "Calls made one after the other on an IndexedConsumer end with a panic exactly if one of them would panic on the new consumer, then at the first such call and with its panic. For sections with offsets in order, whose maps have segments within the i32 range that refer to entries that exist, and positions that count from line 1 and column 0: original_position_for and computed_column_spans always return; source_content_for returns if and only if some section has a content for the source and the sections before it have no contents at all or, if panic_on_missing is false, do not know the source, or panic_on_missing is false and every section has no contents or does not know the source; generated_position_for, all_generated_position_for and each_mapping return if and only if there are no sections. A session returns if and only if each call of it does.", "quantifier": "all indexed maps, all map URLs, all schedules of the workers, all lists of calls, all build configurations", "why_tests_cant": "all indexed maps and all sessions of any length; the condition is exact", "anchors": ["src/consumer.rs: IndexedConsumer: original_position_for, source_content_for, generated_position_for, all_generated_position_for, each_mapping, computed_column_spans"]}
{"id": "C124", "title": "Which sessions with a generator end without a panic", "statement": "Calls of add_mapping, set_source_content and as_json/as_string made one after the other on a SourceMapGenerator, with mappings that validate_mapping accepts, all return if and only if every call has what it needs after the calls before it: add_mapping needs nothing; set_source_content needs, if there is a source root, that relative(root, source) returns; serialising needs the same of the source of every mapping added so far, but only if some content is held, that is, was set and not taken back with None since by a call for a source with the same name under the root. Under a root written in the usual way a source can be named if and only if it is not written like the root (both as references, both as paths, or both with the same host).", "quantifier": "all sessions (lists of calls of any length and order), all roots, all build configurations", "why_tests_cant": "all sessions of any length; the condition is exact", "anchors": ["src/generator.rs: add_mapping, set_source_content, generate_sources_contents, as_json", "src/util.rs: relative"]}
{"id": "C125", "title": "Which programs that build a map and ask it end without a panic", "statement": "Take any calls on a SourceMapGenerator without source root whose mappings can be encoded and whose sources are plain relative references, build a consumer with from_source_map, and make any calls on it, one after the other, asking for sources that are plain relative references. Building always returns; the calls all return if and only if every one has what it needs, in terms of what was added and set only: each_mapping and compute_column_spans need nothing; original_position_for needs line >= 1 and column >= 0; the reverse lookups need the same, but only if the source asked is in the map; generated_position_for needs moreover that the source asked was, in order of first appearance among the added sources, numbered below the number of distinct names added, unless no mapping of that source is on the side asked; source_content_for, if some content is held, needs that the source asked is numbered below the number of sources with a content, or that it is not in the map and panic_on_missing is Some(false).", "quantifier": "all lists of generator calls, all lists of consumer calls, all build configurations", "why_tests_cant": "all programs of the kind, of any length; the condition is exact", "anchors": ["src/generator.rs: add_mapping, set_source_content, as_json", "src/consumer.rs: from_source_map, each_mapping, original_position_for, generated_position_for, all_generated_position_for, source_content_for, compute_column_spans"]}
{"id": "C126", "title": "What programs that ask an indexed map put together from generated maps get, and which end without a panic", "statement": "Take maps written by SourceMapGenerators without source root (encodable mappings, sources that are plain relative references, any calls) and put them as sections, with offsets in order, into an indexed map; let create_consumer accept its text, with the workers run in any order. Then, after any calls, source_content_for of a plain relative reference answers exactly this: the parts are asked one after the other; a part without contents is passed over; a part that has the source answers with the n-th of its contents, n being the number of the source and the contents those held for its sources in their order, and the call panics if there are not that many; a part with contents that has not the source is passed over if panic_on_missing is Some(false), otherwise the call panics; when no part is left, the answer is None or a panic likewise. And a session returns if and only if every source_content_for in it is one that answers, and it has no generated_position_for, all_generated_position_for or each_mapping, unless there are no parts.", "quantifier": "all lists of parts, all histories of their generators, all orders of the workers, all sessions, all build configurations", "why_tests_cant": "all bundles, all schedules and all sessions; the condition is exact", "anchors": ["src/consumer.rs: create_consumer, IndexedConsumer::source_content_for, original_position_for, generated_position_for, all_generated_position_for, computed_column_spans, each_mapping", "src/generator.rs: set_source_content, generate_sources_contents"]}
{"id": "C127", "title": "From the calls of a generator to the answers of a consumer", "statement": "Take any calls on a SourceMapGenerator without source root whose mappings can be encoded and whose sources are plain relative references, build a consumer with from_source_map, and make any calls on it, one after the other, asking for sources that are plain relative references. If they return, every answer is one that what was added and set allows (span ends apart): original_position_for gives the added mapping nearest to the position asked, on the side asked, whole, but only if it has an original position and is on the line after the one asked, and otherwise None; generated_position_for gives the nearest added mapping of the source asked, with the original line counted from 0 and with the name that has, in order of first use, the number of the source, or None; source_content_for gives the content that, among the contents held of the added sources in their order, has the number of the source asked, or None; all_generated_position_for gives only added mappings of the source asked and, if some are at the column asked of the line after the one asked, exactly these; each_mapping gives exactly the added mappings (in original order those with an original position), in order, each once if none was added twice. If no two different mappings were added for one generated position, or for one position of one source, there is only one answer allowed to calls of the first three kinds.", "quantifier": "all lists of generator calls, all lists of consumer calls, all build configurations", "why_tests_cant": "all programs of the kind, of any length and in any order of calls", "anchors": ["src/generator.rs: add_mapping, set_source_content, as_json", "src/consumer.rs: from_source_map, each_mapping, original_position_for, generated_position_for, all_generated_position_for, source_content_for, compute_column_spans"]}
{"id": "C128", "title": "Programs with a source root and a map URL: which calls return, and what they answer", "statement": "Take any calls on a SourceMapGenerator, with or without source root, whose mappings can be encoded, such that the names under which contents are kept can be made, and build a consumer with from_source_map and any map URL or none, where the added sources can be located and no two of them are located at the same place; make any calls on the consumer, one after the other, asking for sources that can be located with and without the source root. What is meant by a source asked is the source of the map located where it is located without the source root, or, if there is none, with the source root. The calls all return if and only if each has what it needs, and then each answer is one that is allowed, exactly as in C125 and C127 for programs without source root and map URL, asking for what is meant instead, with the added mappings told with the locations of their sources and the contents under the names made from the source root.", "quantifier": "all lists of generator calls, all source roots and map URLs, all lists of consumer calls, all build configurations", "why_tests_cant": "all programs of the kind; the condition is exact", "anchors": ["src/generator.rs: add_mapping, set_source_content, as_json", "src/consumer.rs: from_source_map, find_source_index, each_mapping, original_position_for, generated_position_for, all_generated_position_for, source_content_for, compute_column_spans", "src/util.rs: compute_source_url, relative"]}
{"id": "C129", "title": "From the calls of several generators to the answers of an indexed consumer", "statement": "Take maps written by SourceMapGenerators without source root (encodable mappings, sources that are plain relative references, any calls), put them as sections, with offsets in order, into an indexed map, and let create_consumer accept its text, with the workers run in any order. Make any calls on the consumer, one after the other. They all return if and only if each has what it needs (C126), and then each answer, span ends apart, is one that is allowed by what was added and set in the parts. original_position_for: None, if the position is not behind the first position of any part; otherwise what is allowed by C127 for the map of one part, the last of the parts whose first position is before the one asked (of several at one place the first), asked for the position within that part; so the generated position in the answer is the one within the part. source_content_for: what C126 says. generated_position_for, all_generated_position_for and each_mapping return only if there are no parts, and then give nothing. If in no part two different mappings were added for one generated position, only one answer is allowed to each call.", "quantifier": "all lists of parts, all histories of their generators, all orders of the workers, all lists of consumer calls, all build configurations", "why_tests_cant": "all programs of the kind; the answers are given for every call after every other", "anchors": ["src/generator.rs: add_mapping, set_source_content, as_json", "src/consumer.rs: create_consumer, IndexedConsumer: original_position_for, source_content_for, generated_position_for, all_generated_position_for, each_mapping, computed_column_spans"]}
{"id": "C130", "title": "Indexed maps of parts with source roots, read with a map URL", "statement": "As C129, but every SourceMapGenerator may have a source root, and create_consumer gets any map URL; the sources of a part can be located with its source root and that URL, no two of them at the same place, and contents can be looked up under that root. Such maps can be written, and create_consumer accepts the whole if the parts are in order and the workers run in order. Make any calls on the consumer, one after the other, with any accepted order of the workers. They all return if and only if each has what it needs, and then each answer, span ends apart, is one that is allowed by what was added and set in the parts. original_position_for: None, if the position is not behind the first position of any part; otherwise the nearest mapping added to the part asked (C129), if it is on the line after the one asked and has an original position, with its source as located by the part's source root and the URL of the whole. source_content_for(s): the parts are asked in order, those without contents pass; in each s means s as it is without the URL, if that is where a source of the part is located, and otherwise s under the part's source root, again without the URL; a part that has it answers with the content under its number among the contents that were set, and panics if there are not so many; one that has not ends the search with a panic, unless panic_on_missing is Some(false). generated_position_for, all_generated_position_for and each_mapping return only if there are no parts. If in no part two different mappings were added for one generated position, only one answer is allowed to each call.", "quantifier": "all lists of parts, all source roots, all map URLs, all histories of the generators, all orders of the workers, all lists of consumer calls, all build configurations", "why_tests_cant": "all programs of the kind, with the roots and URLs free; the answers are given for every call after every other", "anchors": ["src/generator.rs: new, add_mapping, set_source_content, as_json", "src/consumer.rs: create_consumer, IndexedConsumer::new, BasicConsumer::from_source_map_json, find_source_index, original_position_for, source_content_for", "src/util.rs: compute_source_url, relative"]}
{"id": "C131", "title": "A map of texts put one right after the other", "statement": "Let one SourceMapGenerator be given the mappings of several texts put one right after the other, each text beginning where the one before ends, within a line if need be (generated lines moved by the line ends before; generated columns of the first line of a text moved by the characters before it on that line), in any order and as often as one likes, with other calls between; and others those of the texts, each its own, with the same source root. Consumers are made with the same map URL, and anything may be called on them before. original_position_for of a consumer of the first, asked at a position of a text the next line of which ends within that text (at any position, if it is the last text), answers as a consumer of the map of that text alone asked at that position, with the generated position moved to the place of the text: the same source, original position and name, and it panics alike. each_mapping in generated order visits exactly what it visits on consumers of the others, text after text, moved. If a source is used by one of the texts only, generated_position_for of the consumer of the whole answers for it as the consumer of the text alone, moved, apart from the name. If the maps of the texts (without source roots) are the sections of an indexed map at these places, and create_consumer accepts it, original_position_for of the IndexedConsumer gives, for the positions named but the first of a text, the answer of the consumer of the whole, with the generated position within the text. (Encodable mappings into the characters of the texts, one only at each generated position; for generated_position_for one only at each position of a source, and sources that are located differently.)", "quantifier": "all lists of texts and their mappings, all histories of the generators, all call histories and positions, all build configurations", "why_tests_cant": "any number of texts of any shape, with any mappings in them", "anchors": ["src/generator.rs: add_mapping, as_json, serialize_mappings", "src/consumer.rs: original_position_for, generated_position_for, each_mapping, IndexedConsumer::original_position_for"]}
{"id": "C132", "title": "The emitted mappings of two texts put one right after the other", "statement": "Let one SourceMapGenerator be given the mappings of two texts put one right after the other (the second beginning where the first ends, within a line if need be), in any order and as often as one likes, with other calls between, and two others those of each text alone. If in the sources and names emitted by the first generator those of the first text have the numbers they have alone, and those of the second text numbers greater by a fixed amount, then the mappings string it emits is that of the first text, then the line ends that are missing (or one comma, if both texts have mappings on the line they share), then that of the second text with at most five of its numbers changed: the column of the first segment, if it is on the line shared (by the characters between the last mapping of the first text and its end); the source, original line and original column of the first segment with a source (to be relative to the last mapping of the first text with a source); and the name of the first segment with a name. If the texts have different sources and different names and are given one after the other, this is so, and the sources and names emitted are those of the first text followed by those of the second. The division of a mappings string into segments and numbers is unique. (Encodable mappings, one only at each generated position; at least one mapping in the second text.)", "quantifier": "all pairs of texts and their mappings, all histories of the three generators, all build configurations", "why_tests_cant": "any number of mappings, anywhere in texts of any shape", "anchors": ["src/generator.rs: add_mapping, as_json, serialize_mappings", "src/base64_vlq.rs: base64vlq_encode", "src/array_set.rs: add, index_of"]}
{"id": "C133", "title": "What one more mapping changes in the emitted mappings", "statement": "Let two SourceMapGenerators be given the same mappings, in any order and as often as one likes, with other calls between, except that the first is given one more, at a generated position where there is none yet, and let the sources and names of the others have the same numbers in both (always so if the mapping is the last one added). Then the mappings string emitted by the first is that emitted by the second with one more segment put in, after exactly as many segments as there are generated positions before it and before as many as there are after it, with the comma or the line ends it needs, and with at most five numbers of the segments after it changed: each number of the new segment is subtracted from the next number of the same kind (its column from the column of the next segment, if on the same line; its source, original line and original column from those of the next segment with a source; its name from that of the next segment with a name). All else stays as it is to the letter. (Encodable mappings, one only at each generated position.)", "quantifier": "all histories of the generators, all mappings added, all build configurations", "why_tests_cant": "any number of mappings before and after the new one", "anchors": ["src/generator.rs: add_mapping, as_json, serialize_mappings", "src/base64_vlq.rs: base64vlq_encode"]}
{"id": "C134", "title": "What changing one mapping changes in the emitted mappings", "statement": "Let two SourceMapGenerators be given the same mappings, in any order and as often as one likes, with other calls between, except for one mapping, which has the same generated position in both but may have another source, original position or name, or none; and let the sources and names of the others have the same numbers in both. Then the two emitted mappings strings have the same segments, separated by the same commas and semicolons, and the segments before that of the changed mapping are the same to the letter. The column of its own segment is the same in both, and after it at most four numbers differ, none of them a column: the next source, original line, original column and name, from which the numbers of the changed segment are taken back. If only the name differs (and the source has the same number), only the number of that name and the next number of a name differ. (Encodable mappings, one only at each generated position.)", "quantifier": "all histories of the generators, all mappings added, all build configurations", "why_tests_cant": "any number of mappings before and after the changed one", "anchors": ["src/generator.rs: add_mapping, as_json, serialize_mappings", "src/base64_vlq.rs: base64vlq_encode"]}
{"id": "C135", "title": "How far into the mappings string an answer looks", "statement": "Take two maps, each written by anyone, the mappings strings of which begin with the same lines (the lines are separated by semicolons; each string ends there or goes on with a semicolon), and of the sources lists (as listed by get_sources) and of the names lists one begins with the other. Both strings decode, and all source and name numbers are within the lists. Anything may have been called on the consumers before. original_position_for asked at a position for which the common lines reach as far as the next line answers alike on both, whatever follows in the two strings, with both biases and without, and it panics alike. generated_position_for asked for a source which in neither map is named after the common lines answers alike, apart from the name. each_mapping in generated order visits the same mappings on the common lines, in the same order if no two mappings of one of the maps are at one generated position. What is left of a mappings string cut off after any line decodes again, to the first of its segments. (All numbers below 2^31; for original_position_for no two different mappings of one of the maps at one generated position, for generated_position_for none at one original position.) That what follows decodes is needed: one wrong character at the end of the string and no question is answered any more.", "quantifier": "all maps and mappings strings, all histories of calls on both consumers, all positions and biases", "why_tests_cant": "any number of lines may follow, with any mappings, and the running values of the decoder pass from line to line", "anchors": ["src/consumer.rs: BasicConsumer::original_position_for", "src/consumer.rs: BasicConsumer::generated_position_for", "src/consumer.rs: BasicConsumer::each_mapping"]}
{"id": "C136", "title": "Two mappings strings put together with a semicolon", "statement": "Let the mappings string of a map be that of one map, then a semicolon, then that of another, each written by anyone, without any change. It decodes, to the segments of the first and after them those of the second, moved down by the number of lines of the first, with the numbers of source, original line, original column and name counted on from the last ones of the first (those of its last segment with a source, and its last name number; zero if there is none). each_mapping in generated order on a consumer of the whole visits what it visits on consumers of the two, changed thus. If in the whole map the sources and names of the second have numbers greater by the last source and name number of the first, original_position_for on the lines of the second answers as a consumer of the second alone, with the generated line moved down, the same source and name, and the original line and column increased by the last ones of the first; it panics alike. (On the lines of the first it answers as a consumer of the first: C135.) So maps are not put together by putting their strings together, unless the first ends with zeros. Anything may have been called on the consumers before. (All numbers below 2^31; no two mappings of one map at one generated position.)", "quantifier": "all maps and mappings strings, all histories of calls on the consumers, all positions and biases", "why_tests_cant": "any number of lines and segments before, and the numbers counted on pass through all segments after", "anchors": ["src/consumer.rs: BasicConsumer::original_position_for", "src/consumer.rs: BasicConsumer::each_mapping"]}
{"id": "C137", "title": "Two maps put one below the other", "statement": "Maps, written by anyone, are put one below the other by changing at most four numbers of the second mappings string. Take the mappings strings of two maps, a semicolon between them, where in the second the first segment with a source has added to its source number the number of sources that are to come before, less the last source number of the first map, and has taken from its original line and column the last ones of the first map, and the first segment with a name has added to its name number the number of names before, less the last name number of the first map; nothing else changes. The string decodes, to the segments of the first and after them those of the second, moved down by the number of lines of the first, source and name numbers increased by those numbers, original positions as they were. each_mapping in generated order on a consumer of the whole visits what consumers of the two visit, changed thus (no two mappings of one map at one generated position). If the sources and names of the second come in the whole after that many others, original_position_for on the lines of the second answers as a consumer of the second alone with generated lines moved down, same source, name and original position, and panics alike; if those of the first come first, it answers on all lines of the first but its last as a consumer of the first alone. If sources have different places, and of the second map no two mappings of a source are at one original position, generated_position_for, asked for a source that only the second speaks of, finds, where both return, what a consumer of the second finds, the generated line moved down (names apart). Anything may have been called on the consumers before. (The numbers of the second string are in the shortest base 64 spelling; all numbers below 2^31.)", "quantifier": "all maps and mappings strings, all numbers of sources and names before, all histories of calls on the consumers, all positions and biases", "why_tests_cant": "any number of lines and segments before and after; that four numbers are enough depends on the running values through all later segments", "anchors": ["src/consumer.rs: BasicConsumer::original_position_for", "src/consumer.rs: BasicConsumer::each_mapping", "src/consumer.rs: BasicConsumer::generated_position_for"]}
{"id": "C138", "title": "Text inserted into the generated text or taken out of it", "statement": "After an insertion into the generated text, or a deletion of text where no segment begins, a map, written by anyone, is put right by changing one place of its mappings string: the semicolons and commas before one segment and the first number of that segment (its segments in order of their generated positions, before and after; numbers in the shortest base 64 spelling). The string then decodes to the same segments with the same sources, names and original positions, where those before the segment are where they were, those on its line from it on have kept their distance from it, and those on later lines have moved by the lines it has moved. each_mapping in generated order visits them so. original_position_for, asked from the segment on for a position moved in this way, answers as a consumer of the old map asked for the old position, with the generated position of the answer moved, everything else the same, and panics alike; asked for a line at least two above the segment, before and after, it answers as it did. generated_position_for finds what it found, its generated position moved (names apart; no two mappings of one source at one original position, no two sources alike). Anything may have been called on the consumers before. (All numbers below 2^31.)", "quantifier": "all maps and mappings strings, all segments, separators and numbers, all histories of calls on the consumers, all positions and biases", "why_tests_cant": "any number of lines and segments before and after; that no other segment needs a change depends on the running values through all of them", "anchors": ["src/consumer.rs: BasicConsumer::original_position_for", "src/consumer.rs: BasicConsumer::generated_position_for", "src/consumer.rs: BasicConsumer::each_mapping"]}
{"id": "C139", "title": "What the numbers of a mappings string add up to", "statement": "What a mappings string says can be read off by adding, whoever wrote it. Let its segments have one, four or five numbers each. Then the generated line of a segment is the number of semicolons before it, its column the sum of the first numbers of the segments since the last semicolon, up to and with its own; if it has four numbers or five, its source number, original line and original column are the sums of all second, third and fourth numbers so far, and if it has five, its name number is the sum of all fifth numbers so far; lines count from 0. If the string decodes, it decodes to as many segments as it has, each with these values; and if there are only semicolons before the first segment and one comma or only semicolons before each other one, and these values are all from 0 to 2^31 - 1, then it decodes, to these. each_mapping in generated order visits just these, in some order, and in the order of the string if that is the order of generated positions, whatever was called on the consumer before.", "quantifier": "all mappings strings with numbers in their shortest spelling, all histories of calls on the consumer", "why_tests_cant": "any number of segments, lines and numbers; a sum depends on all segments before", "anchors": ["src/consumer.rs: BasicConsumer::parse_mappings", "src/consumer.rs: BasicConsumer::each_mapping"]}
{"id": "C140", "title": "Lines inserted into a source or taken out of it", "statement": "A map can be corrected for a source to which lines were added by changing two numbers of its mappings string. Let the third number of one segment be increased by l, which may be negative, and that of a later segment, if there is one to be changed, be decreased by l; both segments have four numbers or five. If both strings decode, they decode to the same segments, except that the original lines of those from the first of the two up to but without the second are increased by l. If the segments are in order of their generated positions, each_mapping in generated order visits the same, so changed; original_position_for answers the same for every position and bias, except that an answer with a generated position from that of the first segment to before that of the second has its original line increased by l; generated_position_for answers the same, names aside, in every source none of whose segments is between the two. If moreover l is not negative and the segments so changed are just those in one source from some line on, then generated_position_for, asked in that source with the line increased by l if it is that line or a later one, answers as it did before, with the original line of the answer increased by l if it is from that line on. All this whatever was called on the two consumers before.", "quantifier": "all mappings strings with numbers in their shortest spelling, all pairs of segments, all l, all histories of calls on both consumers, all queries", "why_tests_cant": "any number of segments between and after the two, any number of lines", "anchors": ["src/consumer.rs: BasicConsumer::parse_mappings", "src/consumer.rs: BasicConsumer::original_position_for", "src/consumer.rs: BasicConsumer::generated_position_for", "src/consumer.rs: BasicConsumer::each_mapping"]}
{"id": "C141", "title": "Mappings left out", "statement": "Take two maps with the same sources, names and sourceRoot, the segments of the second being some of those of the first, and consumers of them with the same URL after any histories. If original_position_for finds a mapping in the first map and the segment at its generated position is one of the second map, the second consumer gives the same answer, last columns aside; likewise generated_position_for, if a segment with the source asked for and the original position found is one of the second map; and where generated_position_for finds nothing in the first map, it finds nothing in the second. (Where original_position_for finds nothing, leaving mappings out can make it find one.) each_mapping in generated order visits the segments left, in the order they had, if the segments are in order of generated positions. In the mappings string a segment that is not the last is left out by adding its numbers to those of the next, the first number only if that is on the same line, and keeping the semicolons of both: if such a string decodes, then to the other segments; and a string without its last segment, if it decodes, decodes to the others.", "quantifier": "all pairs of maps of which one has some of the segments of the other (no two segments of that at one generated, or original, position), all histories of calls on both consumers, all valid queries; all mappings strings with numbers in their shortest spelling, all segments", "why_tests_cant": "any selection of segments, any histories and queries", "anchors": ["src/consumer.rs: BasicConsumer::original_position_for", "src/consumer.rs: BasicConsumer::generated_position_for", "src/consumer.rs: BasicConsumer::each_mapping", "src/consumer.rs: BasicConsumer::parse_mappings"]}
{"id": "C142", "title": "Text inserted into a line of a source or taken out of it", "statement": "A map can be corrected for a source in which text was inserted within a line by changing two numbers of its mappings string. Let the fourth number of one segment be increased by l, which may be negative, and that of a later segment, if there is one to be changed, be decreased by l; both segments have four numbers or five. If both strings decode, they decode to the same segments, except that the original columns of those from the first of the two up to but without the second are increased by l. If the segments are in order of their generated positions, each_mapping in generated order visits the same, so changed; original_position_for answers the same for every position and bias, except that an answer with a generated position from that of the first segment to before that of the second has its original column increased by l; generated_position_for answers the same, names aside, in every source none of whose segments is between the two. If the segments between are just those on one line of one source from some column on, and l is not negative, generated_position_for in that source, asked where the text now is, finds what it found, with its original position at its new place. All this whatever was called on the two consumers before.", "quantifier": "all mappings strings with numbers in their shortest spelling, all pairs of segments, all l, all histories of calls on both consumers, all queries", "why_tests_cant": "any number of segments between and after the two, any number of columns", "anchors": ["src/consumer.rs: BasicConsumer::parse_mappings", "src/consumer.rs: BasicConsumer::original_position_for", "src/consumer.rs: BasicConsumer::generated_position_for", "src/consumer.rs: BasicConsumer::each_mapping"]}
{"id": "C143", "title": "Sources and names put in front of those of a map", "statement": "Sources can be put in front of those of a map, and names in front of its names, by changing two numbers of its mappings string: the second number of the first segment with a source is increased by the number of sources put in front, and the fifth number of the first segment with a name by the number of names. If both strings decode, the segments of the changed one are those of the other with all sources and names so much further back, and each_mapping in generated order visits them so if they are in order of their generated positions. Then original_position_for answers the same for every position and bias, sources and names included, and generated_position_for answers the same in every source of the map, names aside: the name that is reported is looked up under the number of the source (C34) and may be another. All this whatever was called on the two consumers before.", "quantifier": "all mappings strings with numbers in their shortest spelling, all lists of sources and names put in front, all histories of calls on both consumers, all queries", "why_tests_cant": "any number of segments, sources and names", "anchors": ["src/consumer.rs: BasicConsumer::parse_mappings", "src/consumer.rs: BasicConsumer::original_position_for", "src/consumer.rs: BasicConsumer::generated_position_for", "src/consumer.rs: BasicConsumer::each_mapping"]}
