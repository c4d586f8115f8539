{
 "claims": [
  {
   "property": "C01",
   "status": "proved",
   "theorems": [
    "Defmt.C01_frame_roundtrip"
   ],
   "note": ""
  },
  {
   "property": "C02",
   "status": "proved",
   "theorems": [
    "Defmt.C02_separator_unambiguous",
    "Defmt.C02_unfinished_frame_has_no_separator"
   ],
   "note": ""
  },
  {
   "property": "C03",
   "status": "proved",
   "theorems": [
    "Defmt.C03_write_splitting_irrelevant"
   ],
   "note": ""
  },
  {
   "property": "C04",
   "status": "proved",
   "theorems": [
    "Defmt.C04_frames_independent"
   ],
   "note": ""
  },
  {
   "property": "C05",
   "status": "proved",
   "theorems": [
    "Defmt.C05_overhead_bound"
   ],
   "note": ""
  },
  {
   "property": "C06",
   "status": "proved",
   "theorems": [
    "Defmt.C06_stream_meaning",
    "Defmt.C06_chunking_irrelevant"
   ],
   "note": "for every table decoder function"
  },
  {
   "property": "C07",
   "status": "proved",
   "theorems": [
    "Defmt.C07_resynchronise"
   ],
   "note": "for every table decoder function; combined with the real table decoder in C32"
  },
  {
   "property": "C08",
   "status": "proved",
   "theorems": [
    "Defmt.C08_progress"
   ],
   "note": ""
  },
  {
   "property": "C11",
   "status": "proved",
   "theorems": [
    "Defmt.C11_host_accepts_target_strings"
   ],
   "note": ""
  },
  {
   "property": "C12",
   "status": "proved",
   "theorems": [
    "Defmt.C12_indices_dense_types_consistent"
   ],
   "note": ""
  },
  {
   "property": "C13",
   "status": "proved",
   "theorems": [
    "Defmt.C13_implicit_numbering",
    "Defmt.C13_number_spec"
   ],
   "note": ""
  },
  {
   "property": "C14",
   "status": "proved",
   "theorems": [
    "Defmt.C14_text_roundtrip",
    "Defmt.C14_empty_text"
   ],
   "note": ""
  },
  {
   "property": "C15",
   "status": "partial",
   "theorems": [
    "Defmt.C15_fails",
    "Defmt.C15_exact",
    "Defmt.C15_single_braces_rejected_partial"
   ],
   "note": "the code accepts e.g. `}{{}`; C15_exact says exactly which texts are accepted; the property is proved for literals in which no opening brace is next to a closing one"
  },
  {
   "property": "C16",
   "status": "partial",
   "theorems": [
    "Defmt.C16_fails",
    "Defmt.C16_every_string",
    "Defmt.C16_exact",
    "Defmt.C16_reasons_partial",
    "Defmt.C16_no_panic_partial"
   ],
   "note": "false: `{=1}` panics in parse_range. C16_every_string says exactly which strings panic (C16_exact: the simpler form for parameters without `{` inside); C16_reasons_partial bounds the reasons"
  },
  {
   "property": "C18",
   "status": "proved",
   "theorems": [
    "Defmt.C18_write_then_parse",
    "Defmt.C18_single_parameter"
   ],
   "note": ""
  },
  {
   "property": "C10",
   "status": "proved",
   "theorems": [
    "Defmt.C10_consumed_exact"
   ],
   "note": ""
  },
  {
   "property": "C17",
   "status": "proved",
   "theorems": [
    "Defmt.C17_hints_irrelevant",
    "Defmt.C17_frame",
    "Defmt.C17_unknown_hint"
   ],
   "note": ""
  },
  {
   "property": "C19",
   "status": "proved",
   "theorems": [
    "Defmt.C19_numbers"
   ],
   "note": ""
  },
  {
   "property": "C20",
   "status": "partial",
   "theorems": [
    "Defmt.C20_fails",
    "Defmt.C20_exact",
    "Defmt.C20_pointer_sized_partial"
   ],
   "note": "on 64 bit targets usize and isize are truncated to 32 bits; C20_exact says what is decoded for every value, C20_pointer_sized_partial is the property for values that fit"
  },
  {
   "property": "C21",
   "status": "proved",
   "theorems": [
    "Defmt.C21_text_and_bytes"
   ],
   "note": ""
  },
  {
   "property": "C23",
   "status": "proved",
   "theorems": [
    "Defmt.C23_log_roundtrip"
   ],
   "note": ""
  },
  {
   "property": "C24",
   "status": "partial",
   "theorems": [
    "Defmt.C24_fails",
    "Defmt.C24_fails_decode",
    "Defmt.C24_exact",
    "Defmt.C24_discriminant_width_partial"
   ],
   "note": "target and host disagree exactly for 2^8, 2^16 and 2^32 variants (C24_exact)"
  },
  {
   "property": "C25",
   "status": "proved",
   "theorems": [
    "Defmt.C25_same_bytes",
    "Defmt.C25_index_order",
    "Defmt.C25_host_index"
   ],
   "note": ""
  },
  {
   "property": "C26",
   "status": "proved",
   "theorems": [
    "Defmt.C26_preformatted",
    "Defmt.C26_fragments"
   ],
   "note": ""
  },
  {
   "property": "C27",
   "status": "proved",
   "theorems": [
    "Defmt.C27_manual",
    "Defmt.C27_order"
   ],
   "note": ""
  },
  {
   "property": "C29",
   "status": "proved",
   "theorems": [
    "Defmt.C29_frame_from_entry",
    "Defmt.C29_level",
    "Defmt.C29_unknown_index"
   ],
   "note": ""
  },
  {
   "property": "C30",
   "status": "proved",
   "theorems": [
    "Defmt.C30_nested_not_log",
    "Defmt.C30_bad_index_malformed"
   ],
   "note": ""
  },
  {
   "property": "C31",
   "status": "proved",
   "theorems": [
    "Defmt.C31_decode_total",
    "Defmt.C31_depth"
   ],
   "note": "for tables whose strings the host parses without panic (see C16)"
  },
  {
   "property": "C32",
   "status": "proved",
   "theorems": [
    "Defmt.C32_end_to_end",
    "Defmt.C32_raw_end_to_end"
   ],
   "note": ""
  },
  {
   "property": "C22",
   "status": "proved",
   "theorems": [
    "Defmt.C22_bitfields",
    "Defmt.C22_shown",
    "Defmt.C22_shown_as_text"
   ],
   "note": ""
  },
  {
   "property": "C33",
   "status": "partial",
   "theorems": [
    "Defmt.C33_exact",
    "Defmt.C33_display_partial",
    "Defmt.C33_tame_table",
    "Defmt.C33_fails_width",
    "Defmt.C33_fails_date",
    "Defmt.C33_fails_isize",
    "Defmt.C33_fails_slice"
   ],
   "note": "some combinations of value and hint make the host panic (witnesses); C33_exact says exactly which frames cannot be displayed"
  },
  {
   "property": "C34",
   "status": "proved",
   "theorems": [
    "Defmt.C34_unsigned",
    "Defmt.C34_determines",
    "Defmt.C34_signed",
    "Defmt.C34_signed_plain"
   ],
   "note": ""
  },
  {
   "property": "C35",
   "status": "partial",
   "theorems": [
    "Defmt.C35_fails",
    "Defmt.C35_signed_hex_partial",
    "Defmt.C35_signed_radix"
   ],
   "note": "`{=isize:x}` panics; proved for the other signed types"
  },
  {
   "property": "C36",
   "status": "proved",
   "theorems": [
    "Defmt.C36_time",
    "Defmt.C36_seconds",
    "Defmt.C36_time_injective",
    "Defmt.C36_seconds_injective"
   ],
   "note": ""
  },
  {
   "property": "C37",
   "status": "proved",
   "theorems": [
    "Defmt.C37_bitflags"
   ],
   "note": ""
  },
  {
   "property": "C38",
   "status": "proved",
   "theorems": [
    "Defmt.C38_exact",
    "Defmt.C38_reversible"
   ],
   "note": ""
  },
  {
   "property": "C39",
   "status": "partial",
   "theorems": [
    "Defmt.C39_exact",
    "Defmt.C39_fails",
    "Defmt.C39_inherit",
    "Defmt.C39_own_hint_partial",
    "Defmt.C39_debug_defers"
   ],
   "note": "below a parent hint `:a` a nested format ignores its own hints; C39_exact says exactly which hint is in force"
  },
  {
   "property": "C59",
   "status": "proved",
   "theorems": [
    "Defmt.C59_line",
    "Defmt.C59_message",
    "Defmt.C59_timestamp",
    "Defmt.C59_nested",
    "Defmt.C59_sequence",
    "Defmt.C59_slice",
    "Defmt.C59_ascii_slice",
    "Defmt.C59_plain"
   ],
   "note": ""
  },
  {
   "property": "C60",
   "status": "proved",
   "theorems": [
    "Defmt.C60_bytes"
   ],
   "note": ""
  },
  {
   "property": "C09",
   "status": "proved",
   "theorems": [
    "Defmt.C09_raw_stream",
    "Defmt.C09_chunking_irrelevant"
   ],
   "note": "for tables whose strings the host parses without panic (see C16)"
  },
  {
   "property": "C54",
   "status": "proved",
   "theorems": [
    "Defmt.C54_rzcobs",
    "Defmt.C54_raw",
    "Defmt.C54_qemu_run"
   ],
   "note": ""
  },
  {
   "property": "C48",
   "status": "proved",
   "theorems": [
    "Defmt.C48_nothing_lost",
    "Defmt.C48_prefix",
    "Defmt.C48_unread_kept",
    "Defmt.C48_copies_miss_unread"
   ],
   "note": "sequentially consistent memory; C102 is the same without that assumption"
  },
  {
   "property": "C49",
   "status": "proved",
   "theorems": [
    "Defmt.C49_cursors",
    "Defmt.C49_copies",
    "Defmt.C49_available",
    "Defmt.C49_host"
   ],
   "note": ""
  },
  {
   "property": "C50",
   "status": "proved",
   "theorems": [
    "Defmt.C50_no_host",
    "Defmt.C50_no_host_bound",
    "Defmt.C50_never_stuck",
    "Defmt.C50_connected",
    "Defmt.C50_size_one",
    "Defmt.C50_mode"
   ],
   "note": ""
  },
  {
   "property": "C51",
   "status": "proved",
   "theorems": [
    "Defmt.C51_newest"
   ],
   "note": ""
  },
  {
   "property": "C52",
   "status": "proved",
   "theorems": [
    "Defmt.C52_flush",
    "Defmt.C52_flush_returns",
    "Defmt.C52_no_host",
    "Defmt.C52_fails_disable_blocking"
   ],
   "note": "blocking mode; C52_fails_disable_blocking shows that it does not hold with the feature disable-blocking-mode"
  },
  {
   "property": "C53",
   "status": "proved",
   "theorems": [
    "Defmt.C53_whole_frames",
    "Defmt.C53_one_at_a_time",
    "Defmt.C53_reentrant_panics",
    "Defmt.C53_silent_after_panic",
    "Defmt.C53_no_other_panic",
    "Defmt.C53_not_blocked",
    "Defmt.C53_released",
    "Defmt.C53_sections_kept",
    "Defmt.C53_host_sees_whole_frames"
   ],
   "note": "critical_section by its contract (a lock that can be taken again by its owner)"
  },
  {
   "property": "C43",
   "status": "proved",
   "theorems": [
    "Defmt.C43_global",
    "Defmt.C43_unset"
   ],
   "note": ""
  },
  {
   "property": "C44",
   "status": "proved",
   "theorems": [
    "Defmt.C44_later_overrides",
    "Defmt.C44_later_level_overrides",
    "Defmt.C44_other_crates"
   ],
   "note": "Equality of the built filters, or of the compile errors, for every text before, between and after."
  },
  {
   "property": "C45",
   "status": "partial",
   "theorems": [
    "Defmt.C45_exact",
    "Defmt.C45_passes",
    "Defmt.C45_off",
    "Defmt.C45_most_specific_partial",
    "Defmt.C45_some_level",
    "Defmt.C45_disagrees"
   ],
   "note": "The full statement is false in the code: with DEFMT_LOG=trace,app::inner=error (an example of the book) app::inner emits TRACE messages (C45_disagrees). Proved: exactly what is compiled in (C45_exact), nothing the level in force lets pass is lost, off is obeyed, and the full statement whenever no enclosing module is given a more verbose level than the one in force."
  },
  {
   "property": "C46",
   "status": "proved",
   "theorems": [
    "Defmt.C46_whole_segments",
    "Defmt.C46_no_effect_outside"
   ],
   "note": ""
  },
  {
   "property": "C47",
   "status": "proved",
   "theorems": [
    "Defmt.C47_severity",
    "Defmt.C47_raising"
   ],
   "note": ""
  },
  {
   "property": "C61",
   "status": "proved",
   "theorems": [
    "Defmt.C61_malformed_rejected"
   ],
   "note": "For texts without a slash: syn accepts comments around an identifier."
  },
  {
   "property": "C40",
   "status": "proved",
   "theorems": [
    "Defmt.C40_round_trip",
    "Defmt.C40_injective",
    "Defmt.C40_no_special_characters"
   ],
   "note": "serde_json is modelled after RFC 8259."
  },
  {
   "property": "C41",
   "status": "proved",
   "theorems": [
    "Defmt.C41_order",
    "Defmt.C41_rejected",
    "Defmt.C41_flags_sorted",
    "Defmt.C41_same_address"
   ],
   "note": "For files in which messages have different addresses and flags of one type different numbers (what linker and macro guarantee). C41_same_address shows that the first is needed."
  },
  {
   "property": "C42",
   "status": "proved",
   "theorems": [
    "Defmt.C42_unambiguous",
    "Defmt.C42_version",
    "Defmt.C42_encoding",
    "Defmt.C42_not_used"
   ],
   "note": ""
  },
  {
   "property": "C62",
   "status": "proved",
   "theorems": [
    "Defmt.C62_exact",
    "Defmt.C62_panics",
    "Defmt.C62_accepted",
    "Defmt.C62_messages",
    "Defmt.C62_timestamp",
    "Defmt.C62_only_symbols",
    "Defmt.C62_linked",
    "Defmt.C62_end_to_end"
   ],
   "note": "C62_exact says exactly which files are accepted; C62_panics: a flag that claims to end at or behind 2^64 panics (overflow checks on), nothing else does"
  },
  {
   "property": "C63",
   "status": "proved",
   "theorems": [
    "Defmt.C63_format_string",
    "Defmt.C63_flags",
    "Defmt.C63_shown",
    "Defmt.C63_cfg",
    "Defmt.C63_cfg_enabled",
    "Defmt.C63_cfg_attr"
   ],
   "note": ""
  },
  {
   "property": "C55",
   "status": "proved",
   "theorems": [
    "Defmt.C55_recovers",
    "Defmt.C55_join",
    "Defmt.C55_none"
   ],
   "note": ""
  },
  {
   "property": "C56",
   "status": "partial",
   "theorems": [
    "Defmt.C56_padded_partial",
    "Defmt.C56_contains_partial",
    "Defmt.C56_no_panic",
    "Defmt.C56_wide_panics",
    "Defmt.C56_fails",
    "Defmt.C56_exact",
    "Defmt.C56_width_iff",
    "Defmt.C56_panics_iff"
   ],
   "note": "False in the code for a group that has a width and a colour or style and contains coloured text (C56_fails): colored starts its style again after each reset inside, and these characters are counted as width. Proved for everything else; C56_exact says how wide any text is shown, C56_width_iff when that is right, C56_panics_iff which widths panic."
  },
  {
   "property": "C57",
   "status": "partial",
   "theorems": [
    "Defmt.C57_no_panic_partial",
    "Defmt.C57_panics_iff",
    "Defmt.C57_fails",
    "Defmt.C57_lines"
   ],
   "note": "False in the code: a message whose second last line is exactly ` left: ` followed by a backtick panics (C57_fails). C57_panics_iff says exactly which messages do."
  },
  {
   "property": "C58",
   "status": "partial",
   "theorems": [
    "Defmt.C58_exact",
    "Defmt.C58_no_panic_partial",
    "Defmt.C58_fails",
    "Defmt.C58_rejected_panics",
    "Defmt.C58_accepted",
    "Defmt.C58_default",
    "Defmt.C58_oneLine"
   ],
   "note": "False in the code: a backslash at the end inside a bracket panics (C58_fails), and making a formatter from any rejected string panics (C58_rejected_panics). C58_exact says exactly which strings panic; C58_no_panic_partial: none that does not end with a backslash."
  },
  {
   "property": "C64",
   "status": "partial",
   "theorems": [
    "Defmt.C64_exact",
    "Defmt.C64_documented_partial",
    "Defmt.C64_unambiguous",
    "Defmt.C64_book",
    "Defmt.C64_bright",
    "Defmt.C64_groups",
    "Defmt.C64_ignored_percent",
    "Defmt.C64_ignored_bracket",
    "Defmt.C64_ignored_comma",
    "Defmt.C64_ignored_group",
    "Defmt.C64_many_f",
    "Defmt.C64_many_f_panics",
    "Defmt.C64_refused",
    "Defmt.C64_refused_exact",
    "Defmt.C64_field_exact",
    "Defmt.C64_field_in_group",
    "Defmt.C64_misspelt",
    "Defmt.C64_bracket_exact",
    "Defmt.C64_grammar",
    "Defmt.C64_before_group",
    "Defmt.C64_without_effect"
   ],
   "note": "Not accepted by the code although documented: colours of two words (C64_bright), groups of only groups (C64_groups). Groups that start with a word that is also a specifier are misread (C64_ignored_group). C64_exact reduces acceptance and meaning of every string to those of single pairs of brackets. A closed pair of brackets is never ignored (C64_refused). C64_field_exact and C64_field_in_group settle every pair of brackets without brackets inside: pieces between colons, one specifier anywhere among them, no parameter twice; in a group a misspelt parameter after a colon is ignored (C64_misspelt). C64_bracket_exact settles every pair of brackets, with groups in groups to any depth, so C64_grammar is the exact grammar of what the code accepts. Parameters before a group, and those after a specifier in a group with percent signs, have no effect (C64_before_group, C64_without_effect)."
  },
  {
   "property": "C65",
   "status": "partial",
   "theorems": [
    "Defmt.C65_plain",
    "Defmt.C65_visible_partial",
    "Defmt.C65_unique",
    "Defmt.C65_println",
    "Defmt.C65_format_partial",
    "Defmt.C65_default",
    "Defmt.C65_oneLine",
    "Defmt.C65_exact",
    "Defmt.C65_plain_any",
    "Defmt.C65_hidden_panics"
   ],
   "note": "Without colours in full, also for texts with escape sequences (C65_plain_any; more than 65535 characters of them panic, C65_hidden_panics). With colours not for groups with a width and a style (C56_fails); for these, and for texts with sequences of their own that end where the text ends, C65_exact says what is shown."
  },
  {
   "property": "C66",
   "status": "partial",
   "theorems": [
    "Defmt.C66_exact",
    "Defmt.C66_last_names_partial",
    "Defmt.C66_fails_absolute",
    "Defmt.C66_fails_empty"
   ],
   "note": "False in the code for absolute paths with fewer names and for the empty path. Proved for relative and absolute paths with at least n names; C66_exact says what is shown for every path."
  },
  {
   "property": "C67",
   "status": "proved",
   "theorems": [
    "Defmt.C67_diff",
    "Defmt.C67_visible",
    "Defmt.C67_other",
    "Defmt.C67_assert_eq",
    "Defmt.C67_assert_eq_message"
   ],
   "note": "dissimilar::diff by its contract; the messages of C57_panics_iff excepted"
  },
  {
   "property": "C68",
   "status": "proved",
   "theorems": [
    "Defmt.C68_refused"
   ],
   "note": ""
  },
  {
   "property": "C69",
   "status": "partial",
   "theorems": [
    "Defmt.C69_painted_partial",
    "Defmt.C69_unique",
    "Defmt.C69_off",
    "Defmt.C69_exact"
   ],
   "note": "Not for groups with a width and a style (there the code is wrong, C56_fails). C69_exact says what is shown for these, and also for texts with sequences of their own, if they are complete and end with the one that ends all; texts that leave a colour in effect or have half a sequence at the end are not covered."
  },
  {
   "property": "C28",
   "status": "partial",
   "theorems": [
    "Defmt.C28_accepted",
    "Defmt.C28_types",
    "Defmt.C28_roundtrip_partial",
    "Defmt.C28_fails"
   ],
   "note": "That the format string parses to the types of the fields in order is proved in full (C28_types), and which definitions are accepted (C28_accepted). That the generated code encodes these types is false in the code for a field of a native type with an attribute (C28_fails) and, as in C24, for enums with 2^8, 2^16 or 2^32 variants; proved for all others (C28_roundtrip_partial)."
  },
  {
   "property": "C70",
   "status": "proved",
   "theorems": [
    "Defmt.C70_debug_text"
   ],
   "note": "raw identifiers are shown with r#"
  },
  {
   "property": "C71",
   "status": "partial",
   "theorems": [
    "Defmt.C71_exact",
    "Defmt.C71_verbatim_partial",
    "Defmt.C71_fails"
   ],
   "note": "C71_exact: the exact text for every hint. False in the code for the hint ?: the text is quoted and escaped again on the host. Proved for all other hints."
  },
  {
   "property": "C72",
   "status": "proved",
   "theorems": [
    "Defmt.C72_every_string",
    "Defmt.C72_grammar",
    "Defmt.C72_grammar_strict",
    "Defmt.C72_written_accepted"
   ],
   "note": "C72_every_string is for all strings; C72_grammar is the simpler form for strings without an opening brace inside a parameter (in strict mode only strings with the internal bitflags hint can have one). The grammar states the exact (laxer than documented, see C15) rule for braces in text."
  },
  {
   "property": "C73",
   "status": "partial",
   "theorems": [
    "Defmt.C73_message",
    "Defmt.C73_default",
    "Defmt.C73_unwrap_default",
    "Defmt.C73_dbg",
    "Defmt.C73_binop_accepted_partial",
    "Defmt.C73_assert_eq_text",
    "Defmt.C73_assert_ne_text",
    "Defmt.C73_assert_eq_default",
    "Defmt.C73_assert_ne_default",
    "Defmt.C73_fails",
    "Defmt.C73_fails_mixed_up"
   ],
   "note": "Proved in full for panic!, todo!, unreachable!, assert!, unwrap!, dbg!. assert_eq!/assert_ne! with explicit indices in the message are refused or mix up the values (witnesses); proved for messages with as many parameters without index as arguments (and without the internal bitflags hint), which is exactly when they are accepted."
  },
  {
   "property": "C74",
   "status": "proved",
   "theorems": [
    "Defmt.C74_panics",
    "Defmt.C74_dbg_values"
   ],
   "note": ""
  },
  {
   "property": "C75",
   "status": "proved",
   "theorems": [
    "Defmt.C75_exclusive",
    "Defmt.C75_received_prefix",
    "Defmt.C75_printed",
    "Defmt.C75_all_printed",
    "Defmt.C75_flush",
    "Defmt.C75_flush_printed",
    "Defmt.C75_not_blocked",
    "Defmt.C75_raw_printed"
   ],
   "note": "composition of the logger model, the RTT channel model, the stream decoder and the printer; sequentially consistent memory"
  },
  {
   "property": "C76",
   "status": "proved",
   "theorems": [
    "Defmt.C76_attach_bytes",
    "Defmt.C76_printed",
    "Defmt.C76_flush_printed"
   ],
   "note": "the host attaches at any moment at which C101 allows it, also in the middle of write_all"
  },
  {
   "property": "C77",
   "status": "proved",
   "theorems": [
    "Defmt.C77_kept",
    "Defmt.C77_panics",
    "Defmt.C77_frame",
    "Defmt.C77_println",
    "Defmt.C77_no_text",
    "Defmt.C77_host"
   ],
   "note": "serde_json's writer and reader are modelled after RFC 8259 and the crate's documentation (Model/Json)"
  },
  {
   "property": "C78",
   "status": "partial",
   "theorems": [
    "Defmt.C78_line",
    "Defmt.C78_stream_exact",
    "Defmt.C78_stream_partial",
    "Defmt.C78_version",
    "Defmt.C78_fails_skipped"
   ],
   "note": "false with --show-skipped-frames or --verbose: the note about a skipped frame is printed to stdout between the lines of JSON (witness); C78_stream_exact: the exact output for all options; C78_stream_partial: only JSON without these options"
  },
  {
   "property": "C79",
   "status": "partial",
   "theorems": [
    "Defmt.C79_exact",
    "Defmt.C79_fails",
    "Defmt.C79_no_panic_partial"
   ],
   "note": "C79_exact: exactly which records panic; false for a host record whose target is defmt@ followed by something else than the JSON of log_defmt (witness); proved for all other targets"
  },
  {
   "property": "C80",
   "status": "proved",
   "theorems": [
    "Defmt.C80_text",
    "Defmt.C80_default",
    "Defmt.C80_system",
    "Defmt.C80_system_json"
   ],
   "note": "C80_default, C80_system: default format without colours, with and without -v; texts with any characters (not more than 65535 of them in escape sequences), messages of assert_eq! as in C67"
  },
  {
   "property": "C81",
   "status": "partial",
   "theorems": [
    "Defmt.C81_exact",
    "Defmt.C81_shown_partial",
    "Defmt.C81_cells",
    "Defmt.C81_fails_cell"
   ],
   "note": "C81_exact: the exact text of every value; false for exactly the values with a Cell in them, each of which is shown with a superfluous closing parenthesis (C81_cells); the 1-tuple is shown as (x)"
  },
  {
   "property": "C82",
   "status": "partial",
   "theorems": [
    "Defmt.C82_newtype_partial",
    "Defmt.C82_newtype_ascii_partial",
    "Defmt.C82_fails",
    "Defmt.C82_fails_always",
    "Defmt.C82_fails_enum"
   ],
   "note": "C82_fails_always: in every program, for None and borrowed RefCells; delegating to an enum-like type (Option, Result, RefCell, derived enums) gives a malformed frame or shows all variants"
  },
  {
   "property": "C83",
   "status": "proved",
   "theorems": [
    "Defmt.C83_hint"
   ],
   "note": "every hint except ASCII, for which see C117"
  },
  {
   "property": "C84",
   "status": "partial",
   "theorems": [
    "Defmt.C84_panics_partial",
    "Defmt.C84_fails"
   ],
   "note": "exact characterisation: only slices and arrays over Infallible panic"
  },
  {
   "property": "C85",
   "status": "partial",
   "theorems": [
    "Defmt.C85_exact",
    "Defmt.C85_location_partial",
    "Defmt.C85_only_statements",
    "Defmt.C85_fails",
    "Defmt.C85_file",
    "Defmt.C85_file_exact",
    "Defmt.C85_file_absolute"
   ],
   "note": "exact characterisation; the module path is wrong when a nested namespace (e.g. a closure) comes before the statement in the debug information (witness)"
  },
  {
   "property": "C86",
   "status": "proved",
   "theorems": [
    "Defmt.C86_succeeds_iff",
    "Defmt.C86_located",
    "Defmt.C86_incomplete"
   ],
   "note": "debug information as a forest of entries; gimli is not modelled"
  },
  {
   "property": "C87",
   "status": "partial",
   "theorems": [
    "Defmt.C87_exact",
    "Defmt.C87_order_partial",
    "Defmt.C87_deterministic",
    "Defmt.C87_fails"
   ],
   "note": "exact for all modules; ignored tests are called by the code (witness), so the specified order holds without ignored tests"
  },
  {
   "property": "C88",
   "status": "partial",
   "theorems": [
    "Defmt.C88_verdict",
    "Defmt.C88_verdict_partial",
    "Defmt.C88_exit"
   ],
   "note": "exact; ignored tests have to return too, so the specified verdict holds for modules without them"
  },
  {
   "property": "C89",
   "status": "partial",
   "theorems": [
    "Defmt.C89_accepted_partial",
    "Defmt.C89_fails"
   ],
   "note": "exact; functions with several roles are accepted and have the last one (witness)"
  },
  {
   "property": "C90",
   "status": "proved",
   "theorems": [
    "Defmt.C90_exact",
    "Defmt.C90_statement"
   ],
   "note": "one context; values are left out"
  },
  {
   "property": "C91",
   "status": "proved",
   "theorems": [
    "Defmt.C91_only_the_log"
   ],
   "note": "formatting code only formats and terminates (hypothesis of the property)"
  },
  {
   "property": "C92",
   "status": "partial",
   "theorems": [
    "Defmt.C92_bounded",
    "Defmt.C92_shown_partial",
    "Defmt.C92_lost",
    "Defmt.C92_nested",
    "Defmt.C92_defmt_panic",
    "Defmt.C92_fails",
    "Defmt.C92_shown_iff",
    "Defmt.C92_shown_exact",
    "Defmt.C92_every_panic"
   ],
   "note": "the message of a panic in formatting code is lost (witness); when a message is shown is characterised exactly (C92_shown_iff)"
  },
  {
   "property": "C93",
   "status": "proved",
   "theorems": [
    "Defmt.C93_index",
    "Defmt.C93_disjoint",
    "Defmt.C93_distinct",
    "Defmt.C93_addresses",
    "Defmt.C93_table",
    "Defmt.C93_one_timestamp",
    "Defmt.C93_accepted",
    "Defmt.C93_flags",
    "Defmt.C93_timestamp",
    "Defmt.C93_end_to_end"
   ],
   "note": "the commands of the linker script with the documented meaning; ELF names"
  },
  {
   "property": "C94",
   "status": "proved",
   "theorems": [
    "Defmt.C94_levels",
    "Defmt.C94_order"
   ],
   "note": ""
  },
  {
   "property": "C95",
   "status": "partial",
   "theorems": [
    "Defmt.C95_end",
    "Defmt.C95_fails",
    "Defmt.C95_exact",
    "Defmt.C95_partial"
   ],
   "note": "false with bitflags!: each flag takes 16 places, in use or not (C95_fails); exact without bitflags!/timestamp!, sufficient condition in general"
  },
  {
   "property": "C96",
   "status": "partial",
   "theorems": [
    "Defmt.C96_content_partial",
    "Defmt.C96_fails",
    "Defmt.C96_factor"
   ],
   "note": "false for slices whose elements have no contents: eight bytes give up to 2^32 - 1 elements (C96_fails); everything else in a frame is bounded by its bytes (C96_content_partial)"
  },
  {
   "property": "C97",
   "status": "proved",
   "theorems": [
    "Defmt.C97_terminal",
    "Defmt.C97_loaded"
   ],
   "note": "default format without colours, with and without -v; the debug information can be read"
  },
  {
   "property": "C98",
   "status": "proved",
   "theorems": [
    "Defmt.C98_exact",
    "Defmt.C98_fuel",
    "Defmt.C98_lost",
    "Defmt.C98_reload"
   ],
   "note": "C98_lost: a frame of which a part was read when the file changes is lost; C98_reload: a file that is missing or incomplete at that moment ends the program"
  },
  {
   "property": "C99",
   "status": "proved",
   "theorems": [
    "Defmt.C99_finished",
    "Defmt.C99_over",
    "Defmt.C99_failed",
    "Defmt.C99_malformed",
    "Defmt.C99_connection",
    "Defmt.C99_again"
   ],
   "note": "C99_connection: a closed TCP or serial connection never ends the program; C99_again: with --watch-elf neither does the end of the standard input"
  },
  {
   "property": "C100",
   "status": "proved",
   "theorems": [
    "Defmt.C100_json",
    "Defmt.C100_symbol",
    "Defmt.C100_unique",
    "Defmt.C100_written",
    "Defmt.C100_line"
   ],
   "note": "serde_json is modelled after RFC 8259, without its limit on the depth of nesting"
  },
  {
   "property": "C101",
   "status": "partial",
   "theorems": [
    "Defmt.C101_enter",
    "Defmt.C101_mode",
    "Defmt.C101_bounds",
    "Defmt.C101_attach_partial",
    "Defmt.C101_prefix_partial",
    "Defmt.C101_complete_partial",
    "Defmt.C101_flush_partial",
    "Defmt.C101_fails",
    "Defmt.C101_detach"
   ],
   "note": "attaching needs room for the rest of the running non-blocking write besides the unread bytes; without it the claim is false (C101_fails)"
  },
  {
   "property": "C102",
   "status": "proved",
   "theorems": [
    "Defmt.C102_nothing_lost",
    "Defmt.C102_prefix",
    "Defmt.C102_stores_miss_visible",
    "Defmt.C102_flush",
    "Defmt.C102_bounds",
    "Defmt.C102_agree",
    "Defmt.C102_memory_never_stuck",
    "Defmt.C102_returns",
    "Defmt.C102_relaxed_fails"
   ],
   "note": "store buffers with release order; the target does not store on speculation; the host loads in program order"
  },
  {
   "property": "C103",
   "status": "partial",
   "theorems": [
    "Defmt.C103_logger",
    "Defmt.C103_timestamp",
    "Defmt.C103_panic",
    "Defmt.C103_host",
    "Defmt.C103_links",
    "Defmt.C103_complete",
    "Defmt.C103_order",
    "Defmt.C103_two_refused_partial",
    "Defmt.C103_fails_two_timestamps"
   ],
   "note": "duplicates are refused only if both get linked: two timestamp! in libraries go unnoticed and the order of the command line decides (C103_fails_two_timestamps); everything else is proved"
  },
  {
   "property": "C104",
   "status": "partial",
   "theorems": [
    "Defmt.C104_exact",
    "Defmt.C104_fails_sequence",
    "Defmt.C104_fails_padding",
    "Defmt.C104_fails_kind"
   ],
   "note": "exact for all tables without bitfields whose size is rounded up beyond bit 128 and without the enums of C24: accepted and not sendable are only frames with a manual implementation directly inside another one (C104_exact); the padding of such bitfields and the kind of a string are not looked at (witnesses)"
  },
  {
   "property": "C105",
   "status": "partial",
   "theorems": [
    "Defmt.C105_exact",
    "Defmt.C105_obeyed_partial",
    "Defmt.C105_no_overflow",
    "Defmt.C105_fails_one",
    "Defmt.C105_fails_unicode",
    "Defmt.C105_fails_lints"
   ],
   "note": "exact; false in the code: a size of 1 is built and blocks for ever (C50 is the proof that all sizes from 2 work), a value that is not Unicode is ignored, and when lints are off (dependencies) a size too large for the target is taken modulo 2^32"
  },
  {
   "property": "C106",
   "status": "partial",
   "theorems": [
    "Defmt.C106_shown",
    "Defmt.C106_status",
    "Defmt.C106_error",
    "Defmt.C106_panic",
    "Defmt.C106_ends",
    "Defmt.C106_live",
    "Defmt.C106_complete_partial",
    "Defmt.C106_program",
    "Defmt.C106_fails_signal"
   ],
   "note": "proved except that an emulator killed by a signal gives exit status 0 (C106_fails_signal)"
  },
  {
   "property": "C107",
   "status": "proved",
   "theorems": [
    "Defmt.C107_exact",
    "Defmt.C107_checks",
    "Defmt.C107_minimal",
    "Defmt.C107_accepted",
    "Defmt.C107_text",
    "Defmt.C107_recursive",
    "Defmt.C107_fails_recursive",
    "Defmt.C107_fails_shadow"
   ],
   "note": "trait resolution of the compiler is the least fixed point Holds of the specification; C107_fails_*: a recursive type, and a type parameter named like a native type"
  },
  {
   "property": "C108",
   "status": "partial",
   "theorems": [
    "Defmt.C108_log",
    "Defmt.C108_println",
    "Defmt.C108_panic",
    "Defmt.C108_assert",
    "Defmt.C108_dbg",
    "Defmt.C108_dbg_nothing",
    "Defmt.C108_binop_exact",
    "Defmt.C108_binop_plain",
    "Defmt.C108_binop_partial",
    "Defmt.C108_unwrap_exact",
    "Defmt.C108_unwrap_plain",
    "Defmt.C108_unwrap_partial",
    "Defmt.C108_write_exact",
    "Defmt.C108_write_partial",
    "Defmt.C108_timestamp_exact",
    "Defmt.C108_timestamp_partial",
    "Defmt.C108_fails",
    "Defmt.C108_fails_unwrap",
    "Defmt.C108_fails_timestamp"
   ],
   "note": "holds without condition for the log macros, println!, panic! and the like, assert! and dbg!; false for the message arguments of assert_eq!/assert_ne!/unwrap! and the arguments of write! and timestamp! (C108_fails_*), which are captured by the names of the generated code: exact theorems say in which scope they are evaluated, partial ones hold if these names do not occur"
  },
  {
   "property": "C109",
   "status": "proved",
   "theorems": [
    "Defmt.C109_unique",
    "Defmt.C109_log",
    "Defmt.C109_panic",
    "Defmt.C109_assert",
    "Defmt.C109_binop",
    "Defmt.C109_write",
    "Defmt.C109_dbg",
    "Defmt.C109_intern",
    "Defmt.C109_trailing",
    "Defmt.C109_bitflags"
   ],
   "note": "as iff, for every sequence of expressions and commas; that syn takes the whole text between two commas as one expression is trusted"
  },
  {
   "property": "C110",
   "status": "proved",
   "theorems": [
    "Defmt.C110_exact",
    "Defmt.C110_framed",
    "Defmt.C110_fixed",
    "Defmt.C110_elements",
    "Defmt.C110_slice_hint",
    "Defmt.C110_bytes",
    "Defmt.C110_interned",
    "Defmt.C110_bools"
   ],
   "note": "exact size of every frame; the savings claimed by the book for interned strings, {=[?]}, {=[?; N]} and {=[u8]} with their exact amount; booleans are not compressed, against the book (C110_bools)"
  },
  {
   "property": "C111",
   "status": "proved",
   "theorems": [
    "Defmt.C111_exact",
    "Defmt.C111_arity",
    "Defmt.C111_one_type",
    "Defmt.C111_bits",
    "Defmt.C111_bits_refused",
    "Defmt.C111_bits_unsigned",
    "Defmt.C111_bits_book_false"
   ],
   "note": "exact condition under which the model of the macros and of the functions they call accepts a call; the book's rule that a bitfield argument must be large enough holds for bits from the first octet on only (C111_bits_book_false: {=8..24} takes an u16)"
  },
  {
   "property": "C112",
   "status": "proved",
   "theorems": [
    "Defmt.C112_order",
    "Defmt.C112_disjoint",
    "Defmt.C112_during",
    "Defmt.C112_printed",
    "Defmt.C112_arguments_unordered"
   ],
   "note": "proved for all schedules by an invariant; C112_arguments_unordered: the same does not hold for a time given as an argument, which is evaluated before the logger is acquired"
  },
  {
   "property": "C113",
   "status": "partial",
   "theorems": [
    "Defmt.C113_panic_handler",
    "Defmt.C113_panic_handler_item",
    "Defmt.C113_panic_handler_symbol",
    "Defmt.C113_conflicts_partial",
    "Defmt.C113_conflicts_false",
    "Defmt.C113_visibility_false",
    "Defmt.C113_global_logger",
    "Defmt.C113_global_logger_item",
    "Defmt.C113_crate"
   ],
   "note": "exact acceptance for both attributes and for crate = path; the conflict with no_mangle and export_name is not seen inside unsafe(..) and cfg_attr (C113_conflicts_false), and the visibility of a panic handler is lost (C113_visibility_false)"
  },
  {
   "property": "C114",
   "status": "proved",
   "theorems": [
    "Defmt.C114_default",
    "Defmt.C114_system",
    "Defmt.C114_terminal",
    "Defmt.C114_any_text",
    "Defmt.C114_level_ends",
    "Defmt.C114_fails_spill"
   ],
   "note": "from log statements to what the terminal shows, with the colour of each character (Rendered is the small terminal of C69); C114_system over all schedules of contexts, RTT channel and host, C114_terminal from the source code and the linked file. For messages that leave a colour in effect at their end, which the quantifier excludes, C114_any_text says exactly what is shown: the colour goes on until the next level, also in the following lines (C114_fails_spill; the code adds no reset after texts without colour), and not beyond it (C114_level_ends)"
  },
  {
   "property": "C115",
   "status": "proved",
   "theorems": [
    "Defmt.C115_whole_frames",
    "Defmt.C115_shown",
    "Defmt.C115_panic",
    "Defmt.C115_lost",
    "Defmt.C115_defmt_panic",
    "Defmt.C115_every_panic",
    "Defmt.C115_raw_wire",
    "Defmt.C115_raw_shown",
    "Defmt.C115_raw_panic",
    "Defmt.C115_raw_unfinished"
   ],
   "note": "programs of C90 to C92 (one context) joined to the encoder and to defmt-print; that a panic in formatting code is not shown is part of the statement (C115_lost; C92_fails)"
  },
  {
   "property": "C116",
   "status": "partial",
   "theorems": [
    "Defmt.C116_log",
    "Defmt.C116_assert",
    "Defmt.C116_dbg_partial",
    "Defmt.C116_dbg_parentheses",
    "Defmt.C116_dbg_false"
   ],
   "note": "for the grammar in Spec/Splice, without precedence; dbg! puts the expression between match and braces without parentheses, so a struct literal there does not compile (exact condition in C116_dbg_partial, witness C116_dbg_false)"
  },
  {
   "property": "C117",
   "status": "partial",
   "theorems": [
    "Defmt.C117_ascii_partial",
    "Defmt.C117_plain",
    "Defmt.C117_fails",
    "Defmt.C117_ambiguous"
   ],
   "note": "exact text of every value with {:a}; false for IPv6 addresses, pointers and empty byte slices (C117_fails, C117_ambiguous)"
  }
 ]
}