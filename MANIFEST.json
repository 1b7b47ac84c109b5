{"claims":[
{"property": "C01", "status": "proved", "theorems": ["RSM.C01_vlq_roundtrip"], "note": "Decoder in Spec/Vlq.lean, written from the format description."},
{"property": "C02", "status": "proved", "theorems": ["RSM.C02_vlq_wellformed", "RSM.C02_vlq_minimal"], "note": "Well-formedness and minimality."},
{"property": "C03", "status": "proved", "theorems": ["RSM.C03_vlq_sequences_decode", "RSM.C03_vlq_sequences_injective"], "note": "Decoding of concatenations, hence injectivity."},
{"property": "C04", "status": "partial", "theorems": ["RSM.C04_vlq_full_range_refuted", "RSM.C04_vlq_full_range_partial", "RSM.C04_vlq_min"], "note": "False of the code: refuted with witnesses; _partial gives the exact range on each pointer width and the behaviour at MIN."},
{"property": "C05", "status": "proved", "theorems": ["RSM.C05_base64_digit", "RSM.C05_base64_injective"], "note": "Whole table."},
{"property": "C06", "status": "proved", "theorems": ["RSM.C06_arrayset_refines"], "note": "All histories of add."},
{"property": "C07", "status": "proved", "theorems": ["RSM.C07_arrayset_distinct", "RSM.C07_arrayset_duplicates", "RSM.C07_arrayset_history", "RSM.C07_arrayset_size"], "note": "Contents for every history of additions with and without duplicates, and size."},
{"property": "C08", "status": "proved", "theorems": ["RSM.C08_arrayset_stable", "RSM.C08_arrayset_at"], "note": "Index stability and at()."},
{"property": "C09", "status": "proved", "theorems": ["RSM.C09_compare_antisymmetric", "RSM.C09_compare_transitive", "RSM.C09_compare_zero_iff", "RSM.C09_compare_position_first", "RSM.C09_compare_is_lexicographic"], "note": "Antisymmetry, transitivity, zero iff equal fields, and negative iff lexicographically smaller."},
{"property": "C10", "status": "proved", "theorems": ["RSM.C10_mappinglist_permutation", "RSM.C10_unsorted_for_each"], "note": "No hypothesis on the mappings."},
{"property": "C11", "status": "proved", "theorems": ["RSM.C11_mappinglist_sorted"], "note": "Valid mappings: original present iff source present, non-negative i32 coordinates."},
{"property": "C12", "status": "partial", "theorems": ["RSM.C12_mappinglist_canonical_refuted", "RSM.C12_mappinglist_canonical_partial"], "note": "False of the code among mappings sharing a position (refuted); _partial proves the rest."},
{"property": "C13", "status": "proved", "theorems": ["RSM.C13_search_glb"], "note": "Any bias other than LEAST_UPPER_BOUND, which is 2; Consistent is the independent notion of a sorted haystack."},
{"property": "C14", "status": "proved", "theorems": ["RSM.C14_search_lub"], "note": ""},
{"property": "C15", "status": "proved", "theorems": ["RSM.C15_search_total", "RSM.C15_search_only_comparator_panics", "RSM.C15_search_bound_sharp"], "note": "Arbitrary comparators, including panicking ones; the bound 2^31-2 on the length is shown to be sharp."},
{"property": "C16", "status": "proved", "theorems": ["RSM.C16_generator_tables"], "note": "Any history that returns; any source root."},
{"property": "C17", "status": "proved", "theorems": ["RSM.C17_generator_sound"], "note": "Independent v3 decoder in Spec/Mappings.lean; encodable mappings (below the VLQ limit of the target), tables below the same limit."},
{"property": "C18", "status": "proved", "theorems": ["RSM.C18_generator_complete"], "note": "Same hypotheses as C17."},
{"property": "C19", "status": "proved", "theorems": ["RSM.C19_serialize_twice"], "note": "Every generator state, not only reachable ones."},
{"property": "C20", "status": "partial", "theorems": ["RSM.C20_serialize_observes_refuted", "RSM.C20_serialize_observes_partial", "RSM.C20_exact_partial", "RSM.C20_after_disorder"], "note": "False of the code (refuted with a concrete history); C20_exact_partial says exactly when two histories that differ in where they serialise emit the same segments; the others prove what survives always."},
{"property": "C21", "status": "partial", "theorems": ["RSM.C21_any_root", "RSM.C21_contents_aligned_refuted", "RSM.C21_contents_aligned_partial", "RSM.C21_shifted"], "note": "False of the code (refuted). C21_any_root: for every history and root, as long as sources exactly if every source has a content; C21_shifted: where each content is emitted; _partial: aligned when every source has content."},
{"property": "C22", "status": "proved", "theorems": ["RSM.C22_any_root", "RSM.C22_latest_content", "RSM.C22_latest_content_root"], "note": "C22_any_root: for every history that returns, with or without a root."},
{"property": "C23", "status": "partial", "theorems": ["RSM.C23_validate_mapping_partial", "RSM.C23_add_mapping_validates_refuted"], "note": "validate_mapping characterised; that add_mapping validates is refuted."},
{"property": "C24", "status": "proved", "theorems": ["RSM.C24_serialize_total", "RSM.C24_serialize_panics", "RSM.C24_returns_iff", "RSM.C24_root"], "note": "C24_serialize_total: without source root. C24_returns_iff: with any root, exactly when serialising returns; C24_root: under a plain root, it panics exactly if some content is held and some mapping has a source that cannot be named relative to the root. C24_serialize_panics: a source without original position, unless shadowed."},
{"property": "C25", "status": "proved", "theorems": ["RSM.C25_advance_up", "RSM.C25_advance_down"], "note": "All pairs of i32 lines, debug and release."},
{"property": "C26", "status": "partial", "theorems": ["RSM.C26_roundtrip_partial", "RSM.C26_roundtrip_flat_partial", "RSM.C26_roundtrip_refuted", "RSM.C26_injective_partial"], "note": "Refuted for records nesting more than 127 JSON containers (serde_json recursion limit); _partial proves the rest, for every JSON library satisfying Dep/Json.lean, with a concrete reader/printer as instance."},
{"property": "C27", "status": "proved", "theorems": ["RSM.C27_err_iff", "RSM.C27_dispatch", "RSM.C27_accessors"], "note": "Any JSON library satisfying the contract of Dep/Json.lean; accessors included."},
{"property": "C28", "status": "proved", "theorems": ["RSM.C28_sources", "RSM.C28_sources_stable"], "note": "Resolution stated through the model of util::compute_source_url; all histories."},
{"property": "C29", "status": "proved", "theorems": ["RSM.C29_history_independent", "RSM.C29_history_independent_total", "RSM.C29_lookup"], "note": "All histories of all operations, for any mappings library satisfying Dep/Mappings.lean; with totality also panics agree."},
{"property": "C30", "status": "partial", "theorems": ["RSM.C30_default_bias_refuted", "RSM.C30_returns_none_refuted"], "note": "False of the code; refuted for every map, history and query."},
{"property": "C31", "status": "partial", "theorems": ["RSM.C31_lub_refuted", "RSM.C31_lub_converse", "RSM.C31_returns"], "note": "False of the code; refuted, and the exact behaviour proved in both directions."},
{"property": "C32", "status": "proved", "theorems": ["RSM.C32_original_guard", "RSM.C32_reverse_guard", "RSM.C32_reverse_no_value"], "note": "All histories."},
{"property": "C33", "status": "proved", "theorems": ["RSM.C33_generated_position"], "note": "All histories."},
{"property": "C34", "status": "partial", "theorems": ["RSM.C34_name_and_line_refuted", "RSM.C34_returns_partial", "RSM.C34_too_few_names_refuted"], "note": "False of the code; the exact reported name and line are proved, and when the call returns."},
{"property": "C35", "status": "partial", "theorems": ["RSM.C35_all_generated_partial", "RSM.C35_line_refuted", "RSM.C35_unknown", "RSM.C35_default_column"], "note": "Line part false of the code (refuted); _partial proves all and only the exact matches of the following line."},
{"property": "C36", "status": "proved", "theorems": ["RSM.C36_each_generated", "RSM.C36_each_original", "RSM.C36_each_undecodable"], "note": "All histories."},
{"property": "C37", "status": "proved", "theorems": ["RSM.C37_lookups_panic", "RSM.C37_each_missing"], "note": "All histories."},
{"property": "C38", "status": "proved", "theorems": ["RSM.C38_spans_idempotent", "RSM.C38_spans_transparent", "RSM.C38_spans_transparent_total"], "note": "All histories, on both sides of the call."},
{"property": "C39", "status": "proved", "theorems": ["RSM.C39_has_contents", "RSM.C39_content", "RSM.C39_content_at", "RSM.C39_unknown", "RSM.C39_no_contents"], "note": "All histories."},
{"property": "C40", "status": "partial", "theorems": ["RSM.C40_accepts_iff_along_schedule", "RSM.C40_sequential_partial", "RSM.C40_valid_map_rejected_refuted", "RSM.C40_invalid_map_accepted_refuted"], "note": "False of the code (refuted in both directions); exact acceptance condition along the schedule proved."},
{"property": "C41", "status": "proved", "theorems": ["RSM.C41_schedule_independent", "RSM.C41_sections", "RSM.C41_rejects"], "note": "All pairs of schedules."},
{"property": "C42", "status": "partial", "theorems": ["RSM.C42_section_partial", "RSM.C42_boundary_refuted"], "note": "False of the code at the boundary (refuted); _partial proves it with the boundary shifted by one column."},
{"property": "C43", "status": "partial", "theorems": ["RSM.C43_default_bias_refuted"], "note": "False of the code; refuted for every indexed map, history and query."},
{"property": "C44", "status": "partial", "theorems": ["RSM.C44_reverse_lookups_panic_refuted", "RSM.C44_all_histories_refuted", "RSM.C44_no_sections"], "note": "False of the code; refuted for every indexed map with a section, every history and query."},
{"property": "C45", "status": "proved", "theorems": ["RSM.C45_sources"], "note": "All histories."},
{"property": "C46", "status": "partial", "theorems": ["RSM.C46_content_partial", "RSM.C46_default_refuted", "RSM.C46_default_partial", "RSM.C46_short_refuted", "RSM.C46_exact"], "note": "False of the code by default (refuted). C46_exact: for both settings, exactly when it returns which content, when None, and that it panics otherwise, in terms of the maps of the sections."},
{"property": "C47", "status": "partial", "theorems": ["RSM.C47_indexed_version_partial", "RSM.C47_basic_version_refuted", "RSM.C47_nested_version_refuted"], "note": "True for indexed maps; refuted for basic maps and maps nested in sections."},
{"property": "C48", "status": "proved", "theorems": ["RSM.C48_classification", "RSM.C48_short"], "note": "All texts; texts shorter than two characters panic (C48_short)."},
{"property": "C49", "status": "proved", "theorems": ["RSM.C49_unique_segment"], "note": "All prefixes and inputs; minimality of the index included."},
{"property": "C50", "status": "proved", "theorems": ["RSM.C50_safe_base", "RSM.C50_never_above"], "note": "All inputs."},
{"property": "C51", "status": "proved", "theorems": ["RSM.C51_relative_path", "RSM.C51_ancestor", "RSM.C51_root_file", "RSM.C51_relative"], "note": "relative_path of util::compute_relative_url for all plain locations; C51_relative for util::relative under the url contract of Dep/Url.lean."},
{"property": "C52", "status": "partial", "theorems": ["RSM.C52_source_refuted", "RSM.C52_collision_refuted", "RSM.C52_relative_refuted", "RSM.C52_kept_partial"], "note": "False of the code for relative sources and util::relative (refuted, with collisions); _partial proves the other kinds of sources."},
{"property": "C53", "status": "partial", "theorems": ["RSM.C53_references_refuted", "RSM.C53_paths_refuted", "RSM.C53_only_normalises"], "note": "False of the code: panics for plain references and plain absolute paths (refuted); otherwise only normalises the target."},
{"property": "C54", "status": "proved", "theorems": ["RSM.C54_identity", "RSM.C54_references", "RSM.C54_paths", "RSM.C54_urls"], "note": "All plain URLs of each kind, under the url contract."},
{"property": "C55", "status": "proved", "theorems": ["RSM.C55_relative_root", "RSM.C55_absolute_root", "RSM.C55_one_slash", "RSM.C55_short"], "note": "All plain roots and sources, under the url contract."},
{"property": "C56", "status": "proved", "theorems": ["RSM.C56_unchanged", "RSM.C56_returns", "RSM.C56_source"], "note": "All roots; that it returns is proved for plain roots of each kind."},
{"property": "C57", "status": "partial", "theorems": ["RSM.C57_root_partial", "RSM.C57_actual", "RSM.C57_shallow_partial", "RSM.C57_deep_refuted", "RSM.C57_root_path_refuted", "RSM.C57_bare_name_refuted", "RSM.C57_relative_partial"], "note": "False of the code for maps two or more directories deep and for bare file names (refuted); _partial proves maps at most one directory deep, with and without a source root."},
{"property": "C58", "status": "partial", "theorems": ["RSM.C58_entries", "RSM.C58_raw", "RSM.C58_raw_rooted_partial", "RSM.C58_collision_refuted", "RSM.C58_short_refuted"], "note": "Entries of get_sources() and raw sources without a sourceRoot: all plain sources. Under a sourceRoot _partial needs that no other entry equals the raw source (collision refuted); strings under two characters panic (refuted)."},
{"property": "C59", "status": "proved", "theorems": ["RSM.C59_end_to_end", "RSM.C59_returns", "RSM.C59_returns_iff"], "note": "All histories of encodable mappings, under the serde_json and mappings contracts. C59_returns_iff: exactly when it returns, for plain source roots, sources and map URLs of every kind, and which sources the consumer then has."},
{"property": "C60", "status": "partial", "theorems": ["RSM.C60_rooted_partial", "RSM.C60_new_partial", "RSM.C60_create_refuted"], "note": "Proved for BasicConsumer::new without a sourceRoot, and with one if the source without it is not the URL of another (collisions: C58); refuted for from_source_map_json with an http(s) map URL."},
{"property": "C61", "status": "proved", "theorems": ["RSM.C61_fixed_fields", "RSM.C61_skip_validation"], "note": ""},
{"property": "C62", "status": "proved", "theorems": ["RSM.C62_alphabet", "RSM.C62_line_count"], "note": ""},
{"property": "C63", "status": "partial", "theorems": ["RSM.C63_relative_refuted", "RSM.C63_path_refuted", "RSM.C63_serialise_refuted", "RSM.C63_other_kind_partial", "RSM.C63_url_root_partial", "RSM.C63_returns_iff", "RSM.C63_any_root_partial", "RSM.C63_together_refuted", "RSM.C63_mixed_refuted", "RSM.C63_query_refuted", "RSM.C63_root_file_refuted"], "note": "Refuted: C63_returns_iff says exactly when recording content panics, C63_mixed_refuted, C63_query_refuted and C63_root_file_refuted show shared places. C63_any_root_partial proves the claim for roots of every kind and all plain sources without query and fragment outside these cases."},
{"property": "C64", "status": "partial", "theorems": ["RSM.C64_missing_sources_refuted", "RSM.C64_short_refuted", "RSM.C64_bare_url_refuted", "RSM.C64_returns_partial", "RSM.C64_exact", "RSM.C64_indexed_exact", "RSM.C64_map_url_partial"], "note": "C64_exact: returns with the located sources exactly if every text looked at has two characters at least, for plain sources, roots and map URLs of all kinds; C64_indexed_exact says the same of indexed maps under every order of the workers (C85). The panics refute the claim as stated."},
{"property": "C65", "status": "proved", "theorems": ["RSM.C65_exact", "RSM.C65_field_order", "RSM.C65_unknown_ignored", "RSM.C65_null_absent", "RSM.C65_duplicate_rejected", "RSM.C65_version_required", "RSM.C65_fields"], "note": ""},
{"property": "C66", "status": "proved", "theorems": ["RSM.C66_history_independent", "RSM.C66_shape_kept"], "note": "Total: the library operations return (DESIGN.md)."},
{"property": "C67", "status": "proved", "theorems": ["RSM.C67_spans_idempotent", "RSM.C67_spans_transparent", "RSM.C67_spans_returns_iff"], "note": ""},
{"property": "C68", "status": "proved", "theorems": ["RSM.C68_has_contents"], "note": ""},
{"property": "C69", "status": "proved", "theorems": ["RSM.C69_spans_reported", "RSM.C69_generated_last", "RSM.C69_original_last"], "note": "The spans themselves are the library's (DESIGN.md)."},
{"property": "C70", "status": "partial", "theorems": ["RSM.C70_nearest_added", "RSM.C70_returns_partial", "RSM.C70_few_names_refuted", "RSM.C70_found_partial"], "note": "Proved when there are as many names as sources; otherwise the call panics, which is proved too."},
{"property": "C71", "status": "partial", "theorems": ["RSM.C71_lub_added", "RSM.C71_exact_refuted", "RSM.C71_default_refuted", "RSM.C71_returns", "RSM.C71_lub_found"], "note": "False of the code: never found at its own position (refuted); what is found instead, and when, is proved."},
{"property": "C72", "status": "partial", "theorems": ["RSM.C72_contents_shifted", "RSM.C72_contents_partial", "RSM.C72_found_partial", "RSM.C72_some_contents_refuted"], "note": "Proved when every source has a content; otherwise the exact shifted answers are proved and a witness refutes the claim."},
{"property": "C73", "status": "proved", "theorems": ["RSM.C73_order_determined", "RSM.C73_history_determines", "RSM.C73_exact", "RSM.C73_in_order", "RSM.C73_out_of_order", "RSM.C73_canonical"], "note": "Valid mappings (C09). C73_exact describes the list after every history, C73_history_determines says that this leaves one list."},
{"property": "C74", "status": "proved", "theorems": ["RSM.C74_exact", "RSM.C74_in_order", "RSM.C74_out_of_order", "RSM.C74_appended"], "note": "Encodable mappings. C74_exact: for every history at once. Also C74_appended: after a serialisation, in-order additions are appended to the list emitted before."},
{"property": "C75", "status": "partial", "theorems": ["RSM.C75_faithful_partial", "RSM.C75_large_columns_refuted", "RSM.C75_exact_partial", "RSM.C75_faithful_exact_partial"], "note": "False with 64-bit pointers (C75_large_columns_refuted: a whole family of histories). Exactly when it holds: C75_exact_partial (the emitted segments are the right ones iff, with 64-bit pointers, every number to be written is below 2^30 in absolute value) and C75_faithful_exact_partial (Faithful iff the same, for different generated positions); C75_faithful_partial: all i32 coordinates with 32-bit pointers and those below 2^30 with 64-bit ones."},
{"property": "C76", "status": "partial", "theorems": ["RSM.C76_all_added_partial", "RSM.C76_line_refuted", "RSM.C76_returns"], "note": "Line part false of the code (refuted, end to end); _partial proves all and only the mappings added on the next line."},
{"property": "C77", "status": "proved", "theorems": ["RSM.C77_each_original", "RSM.C77_returns"], "note": "Encodable mappings; any JSON and mappings libraries satisfying their contracts."},
{"property": "C78", "status": "proved", "theorems": ["RSM.C78_text_determines"], "note": "Encodable mappings, fewer than 2^30 of them; mappings equal in all compared fields are not told apart."},
{"property": "C79", "status": "proved", "theorems": ["RSM.C79_basic_shallow", "RSM.C79_invalid", "RSM.C79_generator", "RSM.C79_indexed_in_order", "RSM.C79_exact", "RSM.C79_indexed"], "note": "C79_exact (basic) and C79_indexed (indexed, every order of the workers): runs the callback once on the consumer or panics without running it, exactly. That sources of maps two or more directories deep are not located where they are is C57, that acceptance depends on the workers is C40."},
{"property": "C80", "status": "proved", "theorems": ["RSM.C80_join", "RSM.C80_meaning"], "note": "Roots without query or fragment. Two relative references: path without query (otherwise C52_source_refuted shows what happens). Not a scheme-relative path below a file URL."},
{"property": "C81", "status": "proved", "theorems": ["RSM.C81_shortest"], "note": "Encodable mappings, as in C17. The text is not the only one of its length: zero can also be written as B."},
{"property": "C82", "status": "proved", "theorems": ["RSM.C82_source_url", "RSM.C82_panics", "RSM.C82_meaning", "RSM.C82_deep_refuted"], "note": "Plain: dirs and file of any characters the contract knows not to be escaped. A relative map URL has no two dots in a row. No scheme-relative URL is used from a file URL. The exact result and the exact condition for a panic are proved; the meaning is proved for map URLs of at most one directory and refuted for all others."},
{"property": "C83", "status": "proved", "theorems": ["RSM.C83_apart", "RSM.C83_together_refuted", "RSM.C83_url", "RSM.C83_short"], "note": "Exact results and exact panics. That it panics for two relative references, two paths or two scheme-relative URLs on one host is a defect (C53)."},
{"property": "C84", "status": "partial", "theorems": ["RSM.C84_mappings_ordered_partial", "RSM.C84_cycle_refuted", "RSM.C84_no_arrangement", "RSM.C84_wide_refuted", "RSM.C84_exact_partial", "RSM.C84_history_determines"], "note": "C84_cycle_refuted and C84_no_arrangement refute it for mappings of which only some have an original position, C84_wide_refuted for coordinates 2^31 apart; C84_mappings_ordered_partial proves the rest, negative coordinates included, and C84_exact_partial with C84_history_determines says which list it is."},
{"property": "C85", "status": "proved", "theorems": ["RSM.C85_accepts_exactly"], "note": "That acceptance depends on the order of the workers is a defect (C40)."},
{"property": "C86", "status": "partial", "theorems": ["RSM.C86_found_refuted", "RSM.C86_place_refuted", "RSM.C86_first_line_partial", "RSM.C86_finds", "RSM.C86_returns", "RSM.C86_generator_found", "RSM.C86_generator_finds"], "note": "False of the code: the position reported is the one within the section, so it is on a wrong line whenever the section does not begin on the first line (C86_place_refuted). Proved: which mapping is found, when one is found, that the call returns, and the place for sections that begin on the first line (C86_first_line_partial)."},
{"property": "C87", "status": "proved", "theorems": ["RSM.C87_extends"], "note": "Valid mappings (C09). The histories before and after are arbitrary; the one after the earlier serialisation may itself contain serialisations."},
{"property": "C88", "status": "proved", "theorems": ["RSM.C88_debug_lines", "RSM.C88_release_lines", "RSM.C88_line_zero", "RSM.C88_without_source", "RSM.C88_returns"], "note": "C88_without_source and C88_returns for what is emitted (C88_returns without a source root), C88_debug_lines and C88_release_lines for lines below 1, C88_line_zero a computed case. The condition on original positions is that of C84, without which the order is not defined."},
{"property": "C89", "status": "proved", "theorems": ["RSM.C89_last_column_ignored"], "note": ""},
{"property": "C90", "status": "proved", "theorems": ["RSM.C90_writes", "RSM.C90_accepted", "RSM.C90_answers"], "note": ""},
{"property": "C91", "status": "proved", "theorems": ["RSM.C91_written", "RSM.C91_only"], "note": ""},
{"property": "C92", "status": "partial", "theorems": ["RSM.C92_iff", "RSM.C92_file_refuted"], "note": "False of the code without a file (null is written, C92_file_refuted) and when only some sources have a content. C92_iff says exactly when it holds, for every history and source root."},
{"property": "C93", "status": "proved", "theorems": ["RSM.C93_returns", "RSM.C93_panics", "RSM.C93_progress", "RSM.C93_finite", "RSM.C93_exclusion", "RSM.C93_outcome", "RSM.C93_same", "RSM.C93_race"], "note": ""},
{"property": "C94", "status": "proved", "theorems": ["RSM.C94_source_url", "RSM.C94_located", "RSM.C94_lists", "RSM.C94_lists_json", "RSM.C94_answers", "RSM.C94_same_place", "RSM.C94_indexed", "RSM.C94_content_key"], "note": "Relative to the contract UrlLib.Encodes on the url crate: parsing or joining a text gives the same URL as for the percent-encoded text."},
{"property": "C95", "status": "proved", "theorems": ["RSM.C95_models_agree", "RSM.C95_basic", "RSM.C95_each", "RSM.C95_indexed", "RSM.C95_indexed_untouched"], "note": "The operations of source-map-mappings return (MapLib.Total); what they would leave behind if they panicked themselves is not described. C95_models_agree ties this model of the methods to that of the other properties."},
{"property": "C96", "status": "partial", "theorems": ["RSM.C96_models_agree", "RSM.C96_left_behind", "RSM.C96_no_trace_refuted", "RSM.C96_no_trace_partial"], "note": "False of the code: an add_mapping that panics leaves its source and name in the tables (C96_no_trace_refuted). C96_left_behind: exactly what is left, for all histories; C96_no_trace_partial: the property for mappings that validate_mapping would accept, whatever the source root and the contents."},
{"property": "C97", "status": "proved", "theorems": ["RSM.C97_calls", "RSM.C97_sharp", "RSM.C97_models_agree", "RSM.C97_result"], "note": "C97_calls: the recorded calls, in order; C97_sharp: both bounds are attained (the second comparator makes the search linear on equal elements); C97_result: effects do not influence the result; C97_models_agree: this model and that of C13-C15 agree."},
{"property": "C98", "status": "partial", "theorems": ["RSM.C98_exactly", "RSM.C98_follows_partial", "RSM.C98_one_of_them", "RSM.C98_sticks", "RSM.C98_unread", "RSM.C98_mappings_refuted", "RSM.C98_root_refuted", "RSM.C98_indexed"], "note": "Holds if the assigned maps keep mappings and sourceRoot (C98_follows_partial), refuted if they change either (C98_mappings_refuted, C98_root_refuted). C98_exactly: what is answered after any assignments whatever. C98_one_of_them, C98_sticks, C98_unread: readable consequences for assignments that keep sourceRoot. C98_indexed: the indexed consumer never reads its field."},
{"property": "C99", "status": "proved", "theorems": ["RSM.C99_copy", "RSM.C99_faithful", "RSM.C99_again"], "note": "C99_copy for every map; C99_faithful through a consumer of the copy; C99_again: the copy of the copy is the copy. Numbers below 2^30 (2^31 on 32-bit targets), fewer mappings than that."},
{"property": "C100", "status": "proved", "theorems": ["RSM.C100_renaming", "RSM.C100_order_needed"], "note": "C100_renaming; C100_order_needed is the witness that the order counts. Under a source root contents are kept by relative URLs, so histories that set contents there are outside."},
{"property": "C101", "status": "proved", "theorems": ["RSM.C101_lines_before", "RSM.C101_segments"], "note": "C101_lines_before; C101_segments for what is read from the result."},
{"property": "C102", "status": "proved", "theorems": ["RSM.C102_interleaving", "RSM.C102_no_root", "RSM.C102_root_panics"], "note": "C102_interleaving, C102_no_root; C102_root_panics is the witness for the last sentence."},
{"property": "C103", "status": "proved", "theorems": ["RSM.C103_strcmp", "RSM.C103_comparison", "RSM.C103_determined"], "note": "C103_strcmp, C103_comparison, and C103_determined: the list of differences and the first of them are unique."},
{"property": "C104", "status": "proved", "theorems": ["RSM.C104_original", "RSM.C104_generated", "RSM.C104_each", "RSM.C104_all"], "note": "C104_original, C104_generated, C104_each, C104_all; column spans are left out of the comparison, as the contract of the mappings library does not say what they are."},
{"property": "C105", "status": "proved", "theorems": ["RSM.C105_accepts", "RSM.C105_original", "RSM.C105_content", "RSM.C105_spans_sources"], "note": "C105_accepts, C105_original, C105_content, C105_spans_sources; a position at the end of the i32 range, where comparing it with the offset overflows, makes the call panic (last part of C105_original). The calls that reach the section are given by innerOp."},
{"property": "C106", "status": "proved", "theorems": ["RSM.C106_original", "RSM.C106_generated"], "note": "C106_original, C106_generated; column spans are left out of the comparison, as the contract of the mappings library does not say what they are."},
{"property": "C107", "status": "proved", "theorems": ["RSM.C107_original", "RSM.C107_generated"], "note": "C107_original, C107_generated; with the lower bias original_position_for never finds a mapping (C30)."},
{"property": "C108", "status": "proved", "theorems": ["RSM.C108_text_before_line", "RSM.C108_segments"], "note": "C108_text_before_line, C108_segments."},
{"property": "C109", "status": "proved", "theorems": ["RSM.C109_original", "RSM.C109_generated", "RSM.C109_each", "RSM.C109_all", "RSM.C109_text_before_line"], "note": "C109_original, C109_generated, C109_each, C109_all, C109_text_before_line; column spans are left out of the comparison, as the contract of the mappings library does not say what they are."},
{"property": "C110", "status": "proved", "theorems": ["RSM.C110_added_determines", "RSM.C110_added_again", "RSM.C110_positions_needed"], "note": "C110_added_determines; C110_added_again: the case of one mapping added again; C110_positions_needed: the condition on generated positions is needed."},
{"property": "C111", "status": "proved", "theorems": ["RSM.C111_original", "RSM.C111_generated", "RSM.C111_each", "RSM.C111_all", "RSM.C111_lines_inserted"], "note": "C111_original (any moves), C111_generated, C111_each, C111_all (moves that keep the order); C111_lines_inserted: inserting lines keeps the order. Column spans are left out of the comparison, as in C109. generated_position_for reports original lines counted from zero and all_generated_position_for compares with lines counted from zero (C34, C35); the statements say so."},
{"property": "C112", "status": "proved", "theorems": ["RSM.C112_size", "RSM.C112_linear"], "note": "C112_size: without any condition on the mappings; C112_linear: with the semicolons counted."},
{"property": "C113", "status": "partial", "theorems": ["RSM.C113_original", "RSM.C113_generated_partial", "RSM.C113_each", "RSM.C113_added", "RSM.C113_name_depends_refuted"], "note": "C113_original, C113_each, C113_added as stated. C113_generated_partial: the same answer apart from its name; the code looks the name up under the number of the source (C34), so the name does depend on the numbering, and C113_name_depends_refuted exhibits two maps that say the same with different names in the answer. Column spans are left out of the comparison, as in C109."},
{"property": "C114", "status": "proved", "theorems": ["RSM.C114_ends", "RSM.C114_visits", "RSM.C114_panics"], "note": "C114_ends (exactly when), C114_visits, C114_panics (the two fields without which it panics). The clock and the output are left out of the model."},
{"property": "C115", "status": "proved", "theorems": ["RSM.C115_lines_before_sources"], "note": "C115_lines_before_sources. The place of the number is given by BeforeOrigin, a grammar of the text before it that mentions no part of the model. The consumer side is C111."},
{"property": "C116", "status": "proved", "theorems": ["RSM.C116_original", "RSM.C116_generated", "RSM.C116_texts", "RSM.C116_last_line"], "note": "C116_texts, from C116_original (any two maps, windows of two lines); C116_generated for the other direction, where the name is left out because the code looks it up under the number of the source (C34). C116_last_line is the witness for the exclusion of the last line. No two mappings of the text alone may claim different things of one generated position. Column spans are left out (stripMapping)."},
{"property": "C117", "status": "proved", "theorems": ["RSM.C117_indexed_flat", "RSM.C117_last_line", "RSM.C117_first_position"], "note": "C117_indexed_flat, from C42, C90 and C116; C117_last_line and C117_first_position are the witnesses for what is left out. The natural claim without the exceptions is false of the code for the reasons given in C42, C86 and C30. Column spans are left out."},
{"property": "C118", "status": "proved", "theorems": ["RSM.C118_line_local", "RSM.C118_one_more", "RSM.C118_lines", "RSM.C118_positions_needed"], "note": "C118_line_local, C118_one_more; C118_lines is a case written out, C118_positions_needed shows that with two mappings at one position the order of the additions matters. That as_json succeeds in both histories is assumed (C34, C35 say when)."},
{"property": "C119", "status": "proved", "theorems": ["RSM.C119_section_only", "RSM.C119_sections_behind", "RSM.C119_moved_down", "RSM.C119_case"], "note": "C119_section_only, C119_sections_behind, C119_moved_down; C119_case computes a case. The sections are ordered and have offsets from 0 to the largest i32 less one; ordered is more than what is checked when the consumer is built, under some schedules (C40)."},
{"property": "C120", "status": "proved", "theorems": ["RSM.C120_relative_of_join", "RSM.C120_relative_of_join_leads", "RSM.C120_join_of_relative", "RSM.C120_cases"], "note": "C120_relative_of_join, C120_relative_of_join_leads, C120_join_of_relative; C120_cases computes cases. Without query and fragment: relative drops their marks (C52). With roots that are not absolute, relative panics (C53)."},
{"property": "C121", "status": "proved", "theorems": ["RSM.C121_visits", "RSM.C121_generated", "RSM.C121_visit_case", "RSM.C121_generated_case"], "note": "C121_visits, C121_generated; C121_visit_case and C121_generated_case compute a case, upper_fine shows that it meets the hypotheses. The name of generated_position_for is left out because the code looks it up under the number of the source (C34); when the call returns is C70. Column spans are left out."},
{"property": "C122", "status": "proved", "theorems": ["RSM.C122_session", "RSM.C122_call", "RSM.C122_returns_iff", "RSM.C122_case"], "note": "C122_session (answers and first panic), C122_call (one call), C122_returns_iff (sessions); C122_case: a map of the tests of the crate with a session of calls of every kind that returns, and a map without names on which a session returns or panics depending on its last call. The condition on names is the defect of C34: a map written without names panics on every generated_position_for that finds something. Panics of the source map library within its contract Total are excluded as in C31."},
{"property": "C123", "status": "proved", "theorems": ["RSM.C123_first_panic", "RSM.C123_call", "RSM.C123_returns_iff", "RSM.C123_case"], "note": "C123_first_panic, C123_call, C123_returns_iff; C123_case computes a session that returns and one that does not. What the calls answer is independent of the session by C66. That the reverse lookups return on no map with sections is the defect of C44, that source_content_for panics by default at the first section that has contents and not the source that of C46."},
{"property": "C124", "status": "proved", "theorems": ["RSM.C124_returns_iff", "RSM.C124_named", "RSM.C124_case"], "note": "C124_returns_iff, C124_named; C124_case computes a session that panics when serialising and returns after the content has been taken back. Mappings that validation would refuse are C84 and C88; fewer than 2^31 sources and names. C24 is one serialisation at the end of a session that returned so far."},
{"property": "C125", "status": "proved", "theorems": ["RSM.C125_returns_iff", "RSM.C125_case"], "note": "C125_returns_iff; C125_case is a program with calls of every kind and one call more that panics. The condition says which programs meet the two bugs found: a name looked up under the number of the source (C34, C70) and contents numbered without the sources that have none (C72). With source roots and map URLs see C59 and C122."},
{"property": "C126", "status": "proved", "theorems": ["RSM.C126_content", "RSM.C126_returns_iff", "RSM.C126_case"], "note": "C126_content, C126_returns_iff; C126_case is a bundle in which the content of one source is given for another, and that of the second part only if asked not to panic. C90 has the contents for parts in which every source has a content; here they may be missing. Positions asked count from 1 and 0."},
{"property": "C127", "status": "proved", "theorems": ["RSM.C127_answers", "RSM.C127_unique", "RSM.C127_case"], "note": "C127_answers, C127_unique; the hypotheses are those of C125 and hold together in C125_case, C127_case shows answers that are and answers that are not allowed. With C125, which says which calls return, a complete account of such programs, in terms of the calls only; the two bugs (line after the one asked, C30/C31/C35; name under the number of the source, C34) are in it. Where no added mapping is at the position asked, what all_generated_position_for gives is left open by the contract of the library."},
{"property": "C128", "status": "proved", "theorems": ["RSM.C128_answers", "RSM.C128_case"], "note": "C128_answers; C128_case is a program with a source root and a map URL that asks for sources by name, path and location. That building returns is assumed: for the generator see C124, for the consumer C59."},
{"property": "C129", "status": "proved", "theorems": ["RSM.C129_original", "RSM.C129_answers", "RSM.C129_unique", "RSM.C129_case"], "note": "C129_original, C129_answers, C129_unique; C129_case gives the only answers for two positions of a bundle of two parts. That a position on the very first place of a part is asked of the part before is the defect of C42, that the position answered is within the part that of C86. Positions asked count from 1 and 0."},
{"property": "C130", "status": "proved", "theorems": ["RSM.C130_accepted", "RSM.C130_original", "RSM.C130_content", "RSM.C130_answers", "RSM.C130_unique", "RSM.C130_case"], "note": "C130_accepted, C130_original, C130_content, C130_answers, C130_unique. C130_case: two parts with different roots and a map URL. It also shows that the content of a source is found under its absolute location but not under a name relative to the map, under which the consumer of a single map has it (C128): the consumers of sections do not keep the URL."},
{"property": "C131", "status": "proved", "theorems": ["RSM.C131_original", "RSM.C131_visits", "RSM.C131_generated", "RSM.C131_indexed_flat", "RSM.C131_original_case", "RSM.C131_last_line", "RSM.C131_visit_case", "RSM.C131_indexed_case"], "note": "C131_original, C131_visits, C131_generated, C131_indexed_flat. C116, C117 and C121 are the case of texts that end with a line end. C131_original_case, C131_visit_case, C131_indexed_case: two texts, the second beginning in the last line of the first. C131_last_line: why positions on the line before the last are left out."},
{"property": "C132", "status": "proved", "theorems": ["RSM.C132_segments_unique", "RSM.C132_joined", "RSM.C132_bundle", "RSM.C132_case"], "note": "C132_joined (any histories), C132_bundle (different sources and names, one after the other, with the tables), C132_segments_unique. C132_case: EAIAA;A;OAHC and AAAA;IAECA give EAIAA;A;OAHC,CCDD;IAECC."},
{"property": "C133", "status": "proved", "theorems": ["RSM.C133_one_segment", "RSM.C133_added", "RSM.C133_case"], "note": "C133_one_segment (any histories), C133_added (the mapping added last). C133_case: AAAAA;ICEE;CDCA;ECCFA becomes AAAAA;ICEE,KDKD;CAJC;ECCFA. That the segments are determined by the text is C132_segments_unique."},
{"property": "C134", "status": "proved", "theorems": ["RSM.C134_one_changed", "RSM.C134_case"], "note": "C134_one_changed (any histories). C134_case: AAAAA;ICEE;CDCA;ECCFA becomes AAAAA;IACA;CAEE;ECCFA with another origin, AAAAA;ICEEC;CDCA;ECCFD with a name. one_changed_fits: the hypotheses hold of it. That the segments are determined by the text is C132_segments_unique."},
{"property": "C135", "status": "proved", "theorems": ["RSM.C135_cut", "RSM.C135_original", "RSM.C135_generated", "RSM.C135_visits", "RSM.C135_generated_case", "RSM.C135_case", "RSM.C135_fault_spoils_all"], "note": "C135_original, C135_generated, C135_visits, C135_cut. first_lines_fit: the hypotheses hold of the demo map and a longer one; C135_case, C135_generated_case: their answers, and where the answers part. C135_fault_spoils_all: a character that is no digit at the end of the string. The generated_position_for name is the wrong one in both (C34)."},
{"property": "C136", "status": "proved", "theorems": ["RSM.C136_decodes", "RSM.C136_segments", "RSM.C136_original", "RSM.C136_visits", "RSM.C136_case"], "note": "C136_decodes, C136_segments (the whole is a map), C136_visits, C136_original. put_below_fits: the hypotheses hold of the demo map with a small map below it; C136_case: its answers alone and in the whole."},
{"property": "C137", "status": "proved", "theorems": ["RSM.C137_decodes", "RSM.C137_segments", "RSM.C137_original", "RSM.C137_generated", "RSM.C137_first", "RSM.C137_visits", "RSM.C137_case", "RSM.C137_generated_case"], "note": "belowChange: the numbers added. C137_decodes, C137_segments (the whole is a map), C137_visits, C137_original (lines of the second), C137_first (lines of the first), C137_generated. put_together_fits: the hypotheses hold of the demo map with a small map about a third source below it, where all four numbers change; C137_case, C137_generated_case: its answers alone and in the whole."},
{"property": "C138", "status": "proved", "theorems": ["RSM.C138_decodes", "RSM.C138_segments", "RSM.C138_original", "RSM.C138_above", "RSM.C138_generated", "RSM.C138_visits", "RSM.C138_case"], "note": "EditedAt: alike but for what is before one segment and its first number. C138_decodes, C138_segments (where the segments are), C138_visits, C138_original (from the segment on), C138_above (lines above), C138_generated. broken_fits: the hypotheses hold of the demo map and the same after a line break before its fifth segment, the new line indented; C138_case: its answers before and after. original_position_for looks on the line after the one asked for (C30), so on the line just above the segment the answers do change."},
{"property": "C139", "status": "proved", "theorems": ["RSM.C139_decodes", "RSM.C139_reads", "RSM.C139_visits", "RSM.C139_case"], "note": "Says: line, column, source, original position and name of a segment as counts and sums over the segments so far. C139_decodes (what decodes, decodes to these), C139_reads (the other way round), C139_visits. C139_case, sums_fit: the demo map with its thirteen segments meets the hypotheses; its sums."},
{"property": "C140", "status": "proved", "theorems": ["RSM.C140_segments", "RSM.C140_visits", "RSM.C140_original", "RSM.C140_other_sources", "RSM.C140_edit", "RSM.C140_generated", "RSM.C140_case"], "note": "addLines: the third number of a segment increased. C140_segments, C140_visits, C140_original (the lookups as they are, C30), C140_other_sources; C140_edit (the change is an edit of a source as in C111) and with it C140_generated. C140_case, lowered_fits, edit_fits: three lines at the top of the second source of the demo map, two lines in the middle of the first; hypotheses and answers. For original_position_for and generated_position_for the sources and names of the two maps are the same and numbers below 2^31; for generated_position_for no original position is mapped twice."},
{"property": "C141", "status": "proved", "theorems": ["RSM.C141_original", "RSM.C141_generated", "RSM.C141_segments", "RSM.C141_last", "RSM.C141_visits", "RSM.C141_case"], "note": "C141_original, C141_generated, C141_visits for any selection of segments; C141_segments (TakenOut: how the next segment changes) and C141_last for the string. Lookups as they are, including the defect of C30, because of which leaving mappings out can make original_position_for answer (C141_case, last two lines). C141_case, thin_fits: the demo map without its fifth, and without its seventh, segment. Numbers of the segments below 2^31."},
{"property": "C142", "status": "proved", "theorems": ["RSM.C142_segments", "RSM.C142_visits", "RSM.C142_original", "RSM.C142_other_sources", "RSM.C142_edit", "RSM.C142_generated", "RSM.C142_case"], "note": "addColumns: the fourth number of a segment increased. C142_segments, C142_visits, C142_original (the lookups as they are, C30), C142_other_sources, C142_edit, C142_generated. C142_case, rightward_fits: the first line of the second source of the demo map indented, two columns put into the second line of the first; hypotheses and answers. For original_position_for and generated_position_for the sources and names of the two maps are the same and numbers below 2^31; for generated_position_for no original position is mapped twice."},
{"property": "C143", "status": "proved", "theorems": ["RSM.C143_segments", "RSM.C143_visits", "RSM.C143_original", "RSM.C143_generated", "RSM.C143_case"], "note": "addAt: one number of one segment increased; FirstUses: the first segments with a source and with a name, if there are any. C143_segments, C143_visits, C143_original (the lookups as they are, C30), C143_generated. C143_case, fronted_fits: a source and two names put in front of those of the demo map; hypotheses and answers, among them one with another name. Numbers are below 2^31; for generated_position_for no original position is mapped twice, no source is twice in the table, and the source asked is found in both tables."}
]}
