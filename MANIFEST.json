{
 "claims": [
  {
   "property": "C01",
   "status": "proved",
   "theorems": [
    "Verif.Agg.C01_roundtrip",
    "Verif.Agg.C01_fails_iff",
    "Verif.Agg.C01_eq_iff"
   ],
   "note": ""
  },
  {
   "property": "C02",
   "status": "proved",
   "theorems": [
    "Verif.Agg.C02_decodes_iff",
    "Verif.Agg.C02_reencode",
    "Verif.Agg.C02_contains_iff",
    "Verif.Agg.C02_contains_iff_mem",
    "Verif.Agg.C02_default_iff"
   ],
   "note": ""
  },
  {
   "property": "C03",
   "status": "proved",
   "theorems": [
    "Verif.Agg.C03_roundtrip",
    "Verif.Agg.C03_parse_sound",
    "Verif.Agg.C03_text",
    "Verif.Agg.C03_unknown"
   ],
   "note": ""
  },
  {
   "property": "C04",
   "status": "proved",
   "theorems": [
    "Verif.Agg.C04_strings",
    "Verif.Agg.C04_quantiles",
    "Verif.Agg.C04_lookup_sound",
    "Verif.Agg.C04_lookup_inverse",
    "Verif.Agg.C04_ambiguous_lookup"
   ],
   "note": "The default float quantile printer is a parameter."
  },
  {
   "property": "C05",
   "status": "proved",
   "theorems": [
    "Verif.Agg.C05_members",
    "Verif.Agg.C05_order",
    "Verif.Agg.C05_nodup",
    "Verif.Agg.C05_duplicates_kept"
   ],
   "note": ""
  },
  {
   "property": "C06",
   "status": "proved",
   "theorems": [
    "Verif.Policy.C06_storage_policy_roundtrip",
    "Verif.Policy.C06_policy_roundtrip",
    "Verif.Policy.C06_drop_policy",
    "Verif.Policy.C06_known_values",
    "Verif.Policy.C06_drop_text"
   ],
   "note": "storage policy / policy / drop policy text; duration text of the time library is a parameter with a stated round-trip assumption"
  },
  {
   "property": "C07",
   "status": "proved",
   "theorems": [
    "Verif.Policy.C07_order",
    "Verif.Policy.C07_equal_iff_perm",
    "Verif.Policy.C07_equivalence",
    "Verif.Policy.C07_policies_equals_iff",
    "Verif.MP.C07_staged_policies",
    "Verif.Policy.C07_order_by"
   ],
   "note": "equality of storage policy lists is equality as multisets"
  },
  {
   "property": "C08",
   "status": "proved",
   "theorems": [
    "Verif.Policy.C08_roundtrip",
    "Verif.Policy.C08_toProto_spec",
    "Verif.Policy.C08_fromProto_spec",
    "Verif.Policy.C08_nil",
    "Verif.Policy.C08_list_roundtrip",
    "Verif.Policy.C08_policy_roundtrip",
    "Verif.Policy.C08_policies",
    "Verif.Policy.C08_policies_roundtrip"
   ],
   "note": "protobuf of storage policies and policies, including dirty destinations"
  },
  {
   "property": "C09",
   "status": "proved",
   "theorems": [
    "Verif.Pipe.C09_same_transform_iff",
    "Verif.Pipe.C09_equal_iff",
    "Verif.Pipe.C09_equivalence"
   ],
   "note": ""
  },
  {
   "property": "C10",
   "status": "proved",
   "theorems": [
    "Verif.Pipe.C10_equal_iff",
    "Verif.Pipe.C10_clone",
    "Verif.Pipe.C10_roundtrip",
    "Verif.Pipe.C10_proto_succeeds_iff",
    "Verif.Pipe.C10_reader_rejects",
    "Verif.Pipe.C10_unknown_aggregation",
    "Verif.Pipe.C10_sub_pipeline",
    "Verif.Pipe.C10_sub_pipelines",
    "Verif.Pipe.C10_sub_pipeline_past_end"
   ],
   "note": "the round trip needs a known aggregation type; C10_unknown_aggregation shows why. Sub-pipelines (also applied ones) are modelled with the capacity of the array: C10_sub_pipeline_past_end, positions after the end are not always refused (outside the statement)"
  },
  {
   "property": "C100",
   "status": "proved",
   "theorems": [
    "Verif.Wire.C100_message",
    "Verif.Wire.C100_stream",
    "Verif.Wire.C100_ruleSet",
    "Verif.Wire.C100_namespaces",
    "Verif.Wire.C100_store",
    "Verif.Wire.C100_types",
    "Verif.Wire.C100_unambiguous",
    "Verif.Wire.C100_stream_unambiguous"
   ],
   "note": "for known drop policies and numbers in the range of their types; fields in ascending order, as written"
  },
  {
   "property": "C101",
   "status": "proved",
   "theorems": [
    "Verif.Wire.C101_stream",
    "Verif.Wire.C101_ruleSet",
    "Verif.Wire.C101_namespaces",
    "Verif.Wire.C101_same",
    "Verif.Wire.C101_encoded"
   ],
   "note": "Bytes are related to contents by Spec.Schema.ReadAs, written after the protobuf documentation; contents to values by Spec/SchemaContents (as in C100)."
  },
  {
   "property": "C102",
   "status": "partial",
   "theorems": [
    "Verif.RuleSet.C102_edits",
    "Verif.RuleSet.C102_partial",
    "Verif.RuleSet.C102_violation",
    "Verif.RuleSet.C102_ruleset",
    "Verif.RuleSet.C102_batch_iff"
   ],
   "note": "Proved exactly which error each edit returns (C102_edits) and that batches with valid filters return InvalidInputError (C102_partial). Violated for invalid filters and for Delete/Revive of whole rule sets (C102_violation). C102_batch_iff: a batch fails without an InvalidInputError if and only if a change with an invalid filter is reached (all before it are made) whose rule is there, or whose name is not taken."
  },
  {
   "property": "C103",
   "status": "partial",
   "theorems": [
    "Verif.Configured.C103_partial",
    "Verif.Configured.C103_cache",
    "Verif.Configured.C103_settings",
    "Verif.Configured.C103_violation",
    "Verif.Configured.C103_default_key",
    "Verif.Configured.C103_exact"
   ],
   "note": "Holds for caches, and for the others as long as the key format and the arrays of types that they keep are not assigned other contents; violated otherwise, with witnesses. C103_exact says what is answered after any later assignments: what was assigned last to the format, or to the list, is in force, and all else stays; the answers are the same as before if and only if the last assignments make the same keys, or have the same elements."
  },
  {
   "property": "C104",
   "status": "proved",
   "theorems": [
    "Verif.MPMem.C104_next",
    "Verif.MPMem.C104_reset",
    "Verif.MPMem.C104_close",
    "Verif.MPMem.C104_one_holder",
    "Verif.MPMem.C104_lent",
    "Verif.MPMem.C104_stays",
    "Verif.MPMem.C104_message",
    "Verif.MPMem.C104_alone",
    "Verif.MPMem.C104_large_only"
   ],
   "note": "The unaggregated iterator on memory refines the iterator on values; arrays of the pool have one holder."
  },
  {
   "property": "C105",
   "status": "partial",
   "theorems": [
    "Verif.Yaml.C105_lists",
    "Verif.Yaml.C105_words",
    "Verif.Yaml.C105_types_config",
    "Verif.Yaml.C105_config",
    "Verif.Yaml.C105_known_partial",
    "Verif.Yaml.C105_pipeline",
    "Verif.Yaml.C105_json",
    "Verif.Yaml.C105_violation_null",
    "Verif.Yaml.C105_null_members",
    "Verif.Yaml.C105_null_number",
    "Verif.Yaml.C105_null_words",
    "Verif.Yaml.C105_number",
    "Verif.Yaml.C105_lists_exact",
    "Verif.Yaml.C105_zero_or_known"
   ],
   "note": "Full for documents without nulls; a null in a list of words is read as the zero value and not refused (C105_violation_null)."
  },
  {
   "property": "C106",
   "status": "proved",
   "theorems": [
    "Verif.ListPool.C106_types",
    "Verif.ListPool.C106_quantiles",
    "Verif.ListPool.C106_succeeds_iff",
    "Verif.ListPool.C106_pooled_iff",
    "Verif.ListPool.C106_given_back_twice"
   ],
   "note": "Pools are bags; a user gives a list back at most once. C106_given_back_twice shows what happens otherwise."
  },
  {
   "property": "C107",
   "status": "proved",
   "theorems": [
    "Verif.MP.C107_recursion",
    "Verif.MP.C107_recursion_aggregated",
    "Verif.MP.C107_message",
    "Verif.MP.C107_message_aggregated",
    "Verif.MP.C107_stopped",
    "Verif.MP.C107_stopped_aggregated",
    "Verif.MP.C107_few",
    "Verif.MP.C107_few_aggregated",
    "Verif.MP.C107_cut",
    "Verif.MP.C107_cut_aggregated"
   ],
   "note": "For every msgpack library whose functions take bytes that tell what they read (Delim; proved for the library model, std_delim). That a cut may look like the end of the stream is C21_cut_is_eof."
  },
  {
   "property": "C108",
   "status": "proved",
   "theorems": [
    "Verif.KeyMemory.C108_keys_are_copies",
    "Verif.KeyMemory.C108_not_shared",
    "Verif.KeyMemory.C108_unsafe_shares",
    "Verif.KeyMemory.C108_unsafe_panics"
   ],
   "note": "Refinement of the map with arrays to the map of values (HMap, C78), by an invariant on who holds which array. The two unsafe theorems show that SetUnsafe, which no code of the repository calls, does not have the property: without copies the entry follows the caller's array, and with NoFinalizeKey false and no pool a later Delete calls a nil function."
  },
  {
   "property": "C109",
   "status": "proved",
   "theorems": [
    "Verif.Cache.C109_linearizable",
    "Verif.Cache.C109_states",
    "Verif.Cache.C109_never_stuck",
    "Verif.Cache.C109_steps",
    "Verif.Cache.C109_work"
   ],
   "note": "Small-step model in which locks are taken and given back, list operations, notifications and questions to sources are separate steps; forward simulation to the state machine of C58 and C60 (what a call does under the lock is one step), and linearizability of the history. Mutual exclusion of the two locks and sequentially consistent memory under them are assumed (Go's sync)."
  },
  {
   "property": "C11",
   "status": "proved",
   "theorems": [
    "Verif.Applied.C11_equal_iff",
    "Verif.Applied.C11_roundtrip",
    "Verif.Applied.C11_no_history",
    "Verif.Applied.C11_fails_iff",
    "Verif.Applied.C11_clone"
   ],
   "note": ""
  },
  {
   "property": "C110",
   "status": "proved",
   "theorems": [
    "Verif.MP.C110_message",
    "Verif.MP.C110_stuck",
    "Verif.MP.C110_reset",
    "Verif.MP.C110_stream"
   ],
   "note": "The internal buffer of the aggregated encoder, a bytes.Buffer, does not fail."
  },
  {
   "property": "C111",
   "status": "partial",
   "theorems": [
    "Verif.Text.C111_pipeline_partial",
    "Verif.Text.C111_pipeline_violation",
    "Verif.Text.C111_applied_partial",
    "Verif.Text.C111_applied_violation",
    "Verif.Text.C111_filter_partial",
    "Verif.Text.C111_texts",
    "Verif.Text.C111_filter_violation",
    "Verif.Text.C111_tags_partial",
    "Verif.Text.C111_tags_violation",
    "Verif.Text.C111_pipeline_texts",
    "Verif.Text.C111_applied_texts",
    "Verif.Text.C111_tags_texts"
   ],
   "note": "False in general: the texts do not quote what they contain, so that names, tags, identifiers and patterns with the punctuation of the text imitate others, and a set of characters prints like a list of alternatives, a complement like a negation (violations). Proved for all pipelines, applied pipelines, filters and tag filters without that punctuation (no comma in names; tags not empty and without comma or bracket; no closing brace in identifiers; no bracket or quote in patterns; no colon or parenthesis in tag names)."
  },
  {
   "property": "C112",
   "status": "proved",
   "theorems": [
    "Verif.Lookups.C112_one_moment",
    "Verif.Lookups.C112_case"
   ],
   "note": "All interleavings at the level of the locks; of runtime.Value (not in the repository) it is assumed that no value is processed once Unwatch has returned."
  },
  {
   "property": "C113",
   "status": "proved",
   "theorems": [
    "Verif.Lookups.C113_dropped",
    "Verif.Lookups.C113_case",
    "Verif.Lookups.C113_outside"
   ],
   "note": "The cutover is assumed not to go back (updateMetadata sets it to a time after the edit); without that the two questions may be answered by two different values (C113_outside)."
  },
  {
   "property": "C114",
   "status": "proved",
   "theorems": [
    "Verif.MP.C114_exactly",
    "Verif.MP.C114_delivered",
    "Verif.MP.C114_unique",
    "Verif.MP.C114_written",
    "Verif.MP.C114_lenient",
    "Verif.MP.C114_stream"
   ],
   "note": "The format is Spec/MsgpackForm.lean; the library is any with Delim (std_delim of the one written from the format)."
  },
  {
   "property": "C115",
   "status": "proved",
   "theorems": [
    "Verif.MP.C115_exactly",
    "Verif.MP.C115_delivered",
    "Verif.MP.C115_unique",
    "Verif.MP.C115_raw",
    "Verif.MP.C115_written",
    "Verif.MP.C115_stream"
   ],
   "note": "As C114."
  },
  {
   "property": "C116",
   "status": "proved",
   "theorems": [
    "Verif.Wire.C116_exactly",
    "Verif.Wire.C116_published",
    "Verif.Wire.C116_next",
    "Verif.Wire.C116_store",
    "Verif.Wire.C116_lenient",
    "Verif.Wire.C116_liberties",
    "Verif.Wire.C116_all_taken",
    "Verif.Wire.C116_each_taken"
   ],
   "note": "An iff: Unmarshal succeeds exactly for the bytes of an independent description by the .proto declarations (Spec/SchemaAccept.lean), in which each rule that goes beyond the encoding documentation says so; C116_liberties and C116_each_taken say that these are all and that each is made use of (strings that are not UTF-8 apart, which the specification does not distinguish); C116_lenient has bytes that are accepted although no contents are to be read from them (C101). What is read from what follows the documentation is C101; what is read from the rest is not claimed."
  },
  {
   "property": "C117",
   "status": "proved",
   "theorems": [
    "Verif.Mig.C117_msgpack",
    "Verif.Mig.C117_msgpack_not",
    "Verif.Mig.C117_protobuf",
    "Verif.Mig.C117_frame",
    "Verif.Mig.C117_end",
    "Verif.Mig.C117_stopped",
    "Verif.Mig.C117_panics_iff",
    "Verif.Mig.C117_ends"
   ],
   "note": "For all bytes, also malformed ones; C26 has the streams that encoders write, and what goes wrong with messages of later versions."
  },
  {
   "property": "C118",
   "status": "proved",
   "theorems": [
    "Verif.Mig.C118_delivered",
    "Verif.Mig.C118_same",
    "Verif.Mig.C118_can",
    "Verif.Mig.C118_zero"
   ],
   "note": "The exception, a gauge with the value -0, is part of the statement; C118_zero shows that it is needed."
  },
  {
   "property": "C119",
   "status": "proved",
   "theorems": [
    "Verif.Policy.C119_resolution",
    "Verif.Policy.C119_storage",
    "Verif.Policy.C119_policy",
    "Verif.Policy.C119_must_parse",
    "Verif.Policy.C119_must_compress",
    "Verif.Policy.C119_must_transform"
   ],
   "note": "Durations are read by x/time of m3x, a parameter of the model."
  },
  {
   "property": "C12",
   "status": "proved",
   "theorems": [
    "Verif.Meta.C12_staged_roundtrip",
    "Verif.Meta.C12_pipeline_metadata_roundtrip",
    "Verif.Meta.C12_no_history",
    "Verif.Meta.C12_forward_roundtrip",
    "Verif.Meta.C12_timed_roundtrip",
    "Verif.Meta.C12_forward_count_truncated",
    "Verif.Meta.C12_equal_iff"
   ],
   "note": "forwarded counts outside int32 are truncated (C12_forward_count_truncated)"
  },
  {
   "property": "C120",
   "status": "partial",
   "theorems": [
    "Verif.NsOpts.C120_values_partial",
    "Verif.NsOpts.C120_configured",
    "Verif.NsOpts.C120_assign",
    "Verif.NsOpts.C120_violated"
   ],
   "note": "Proved for all programs that assign to no list that DefaultValidNamespaces returned (C120_values_partial), and without restriction for validators made from configurations (C120_configured). What is missing is false: the getter returns the array of the options, so an assignment to it shows in these options, those derived from them and their validators (C120_violated); C120_assign says exactly in which."
  },
  {
   "property": "C13",
   "status": "partial",
   "theorems": [
    "Verif.Meta.C13_clone_equal_iff",
    "Verif.Meta.C13_violated",
    "Verif.Meta.C13_clone_partial",
    "Verif.Meta.C13_clone_rest_partial"
   ],
   "note": "violated by the code: Clone loses the drop policy (C13_violated); proved exactly when it holds"
  },
  {
   "property": "C14",
   "status": "proved",
   "theorems": [
    "Verif.Meta.C14_pipelines",
    "Verif.Meta.C14_outcomes",
    "Verif.Meta.C14_invalid_value"
   ],
   "note": "for drop policy values that exist; C14_invalid_value shows the behaviour outside"
  },
  {
   "property": "C15",
   "status": "proved",
   "theorems": [
    "Verif.Meta.C15_staged",
    "Verif.Meta.C15_default_iff",
    "Verif.Meta.C15_drop_recognised"
   ],
   "note": ""
  },
  {
   "property": "C16",
   "status": "partial",
   "theorems": [
    "Verif.PIter.C16_partial",
    "Verif.PIter.C16_sequence_partial",
    "Verif.PIter.C16_violation",
    "Verif.PIter.C16_exact"
   ],
   "note": "Two iterators in any states agree on the next message unless it is hollow (names a counter, timer or gauge and contains none); for hollow messages the property fails (C16_violation). C16_exact says for every message after any delivered ones whether it is delivered: a hollow one exactly if a message delivered before contained a metric of its kind"
  },
  {
   "property": "C17",
   "status": "proved",
   "theorems": [
    "Verif.PIter.C17_stream",
    "Verif.PIter.C17_truncated",
    "Verif.PBuf.C17_encoder",
    "Verif.PIter.C17_zero_sign",
    "Verif.PIter.C17_cut_as_end"
   ],
   "note": "Byte-level round trip of streams of all message kinds, from any run of an encoder to an iterator with any pool; a stream cut anywhere yields the whole messages before the cut. Exceptions stated as theorems: the sign of zero, and cuts at a size prefix ending like a whole stream."
  },
  {
   "property": "C18",
   "status": "partial",
   "theorems": [
    "Verif.PIter.C18_outcome",
    "Verif.PIter.C18_stopped",
    "Verif.PIter.C18_stopped_forever",
    "Verif.PIter.C18_violation_negative",
    "Verif.PIter.C18_violation_length",
    "Verif.PIter.C18_partial",
    "Verif.PIter.C18_terminates",
    "Verif.PIter.C18_panics_iff",
    "Verif.PIter.C18_violation_odd"
   ],
   "note": "On arbitrary bytes: outcome is a message or a stop, stopped iterators stay stopped, decoding ends. It panics on negative sizes (every stream beginning with an odd number) and on overflowing lengths; C18_panics_iff says exactly when a call panics, and none panics on a stream shorter than 2^62 bytes without a number from 2^62 to 2^63 and without negative sizes."
  },
  {
   "property": "C19",
   "status": "proved",
   "theorems": [
    "Verif.PBuf.C19_step",
    "Verif.PBuf.C19_run",
    "Verif.PBuf.C19_alone",
    "Verif.PBuf.C19_relinquish"
   ],
   "note": "Any number of encoders sharing a pool with buffers given away, iterators and other users, any interleaving, any choice of the pool: contents and results of the encoders are those of byte lists. Limits below 2^34 bytes."
  },
  {
   "property": "C20",
   "status": "proved",
   "theorems": [
    "Verif.PBuf.C20_owner",
    "Verif.PBuf.C20_handed_over",
    "Verif.PBuf.C20_close_twice",
    "Verif.PBuf.C20_copied",
    "Verif.PBuf.C20_none_lost",
    "Verif.PBuf.C20_all_back",
    "Verif.PBuf.C20_read"
   ],
   "note": "Every array has at most one owner in every reachable state; a buffer that was given away changes only by calls on it. Copying a Buffer value and closing both is misuse outside of the runs (C20_copied)."
  },
  {
   "property": "C21",
   "status": "proved",
   "theorems": [
    "Verif.MP.C21_roundtrip",
    "Verif.MP.C21_bare",
    "Verif.MP.C21_cut_is_eof",
    "Verif.MP.std_laws",
    "Verif.MP.C21_closed",
    "Verif.MP.C21_short"
   ],
   "note": "For any library satisfying Laws (proved for the concrete std): any sequence of metrics with policies lists is read back in order, then the stream ends and stays ended; also for a used iterator after Reset. Besides: a stream cut within a message can end with io.EOF."
  },
  {
   "property": "C22",
   "status": "proved",
   "theorems": [
    "Verif.MP.C22_stream",
    "Verif.MP.C22_extra_fields",
    "Verif.MP.C22_ignored",
    "Verif.MP.C22_rejected",
    "Verif.MP.C23_stream"
   ],
   "note": "Every object at every level may have further fields of any shape; messages of higher versions are passed over or rejected; for whole streams, unaggregated and aggregated (C23_stream)."
  },
  {
   "property": "C23",
   "status": "proved",
   "theorems": [
    "Verif.MP.C23_roundtrip",
    "Verif.MP.C23_stream",
    "Verif.MP.C23_access",
    "Verif.MP.C23_first",
    "Verif.MP.C23_reset"
   ],
   "note": "Raw or chunked identifiers, with or without encode time; accessors in any order and number between calls of Next."
  },
  {
   "property": "C24",
   "status": "partial",
   "theorems": [
    "Verif.MP.C24_partial",
    "Verif.MP.C24_or_error",
    "Verif.MP.C24_reset",
    "Verif.MP.C24_violation",
    "Verif.MP.C24_first",
    "Verif.MP.C24_exact",
    "Verif.MP.C24_order_iff"
   ],
   "note": "Holds for accessor histories without error and for all accessors whose fields can be decoded (C24_partial); in any case an answer is the right one or an error (C24_or_error). Fails in general: on truncated data the identifier is answered first and an error after TimeNanos failed (C24_violation). C24_exact gives the answer after any history on any bytes: an error if an accessor called before would have failed if called first, else what would have been answered first. The order of calls does not show if and only if all fields can be read or none (C24_order_iff)."
  },
  {
   "property": "C25",
   "status": "partial",
   "theorems": [
    "Verif.MP.C25_partial",
    "Verif.MP.C25_stale",
    "Verif.MP.C25_stale_reset",
    "Verif.MP.C25_closed",
    "Verif.MP.C25_violation",
    "Verif.MP.C25_iff"
   ],
   "note": "Holds for streams without any policies lists on an iterator that is new or was closed. In general a message without policies is reported with the policies of the message before (C25_stale), also across Reset (C25_stale_reset). C25_iff: the policies reported from a stream are those of the messages if and only if before every message without policies the last list of policies is empty."
  },
  {
   "property": "C26",
   "status": "partial",
   "theorems": [
    "Verif.Mig.C26_stream",
    "Verif.Mig.C26_partial",
    "Verif.Mig.C26_violation_bare",
    "Verif.Mig.C26_violation_even",
    "Verif.Mig.C26_violation_odd",
    "Verif.Mig.C26_closed_panics",
    "Verif.Mig.C26_iff"
   ],
   "note": "All messages of the current version are dispatched to their own decoder and delivered in order (C26_stream), and are as on their own unless msgpack messages with and without policies are mixed (C26_partial; C26_violation_bare). Fails for msgpack messages of later versions although the msgpack iterator alone passes over them (C26_violation_even, C26_violation_odd). Besides: Err panics after Close (C26_closed_panics). C26_iff: a stream of messages of the current versions is read as its messages are on their own if and only if before every msgpack message without policies the last list of policies is empty."
  },
  {
   "property": "C27",
   "status": "proved",
   "theorems": [
    "Verif.Mig.C27_groups",
    "Verif.Mig.C27_staged",
    "Verif.Mig.C27_pairs"
   ],
   "note": "The result equals an independent specification of the grouping; its consequences are in C27_pairs."
  },
  {
   "property": "C28",
   "status": "partial",
   "theorems": [
    "Verif.Flt.C28_accepts_iff",
    "Verif.Flt.C28_exact_partial",
    "Verif.Flt.C28_committed",
    "Verif.Flt.C28_committed_of",
    "Verif.Flt.C28_sound",
    "Verif.Flt.C28_around_prefix_and_suffix",
    "Verif.Flt.C28_overlap_violation",
    "Verif.Flt.C28_alternatives_violation",
    "Verif.Flt.C28_empty_alternative_violation"
   ],
   "note": "Acceptance characterised exactly, and so is matching for every accepted pattern and every value (C28_committed: a reader who settles for the first alternative that fits). This is the denotation for patterns whose alternatives are unambiguous and, for p*q, strings long enough to exclude overlap. The code violates the full statement: witnesses a*a on a, {a,ab}c on abc, {a,} on the empty string."
  },
  {
   "property": "C29",
   "status": "proved",
   "theorems": [
    "Verif.Flt.C29_construction_never_panics",
    "Verif.Flt.C29_matching_never_panics",
    "Verif.Flt.C29_multi_filters"
   ],
   "note": "Index and slice expressions modelled with an explicit panic outcome."
  },
  {
   "property": "C30",
   "status": "proved",
   "theorems": [
    "Verif.TagsFlt.C30_conjunction",
    "Verif.TagsFlt.C30_disjunction",
    "Verif.TagsFlt.C30_m3",
    "Verif.TagsFlt.C30_map_order_irrelevant",
    "Verif.TagsFlt.C30_unsplit"
   ],
   "note": "For any name/tag extraction functions whose tags come in ascending order, instantiated for m3 identifiers; Go map iteration order shown irrelevant."
  },
  {
   "property": "C31",
   "status": "proved",
   "theorems": [
    "Verif.TagsFlt.C31_parse_iff",
    "Verif.TagsFlt.C31_roundtrip",
    "Verif.TagsFlt.C31_whitespace",
    "Verif.TagsFlt.C31_validate_iff",
    "Verif.TagsFlt.C31_validated_builds",
    "Verif.TagsFlt.C31_spaces"
   ],
   "note": "TrimSpace modelled on bytes with the UTF-8 encodings of all Unicode white space."
  },
  {
   "property": "C32",
   "status": "proved",
   "theorems": [
    "Verif.Id.C32_parse_back",
    "Verif.Id.C32_order_independent",
    "Verif.Id.C32_injective",
    "Verif.Id.C32_detection",
    "Verif.Id.C32_separator_needed"
   ],
   "note": "Tag names distinct; separator characters excluded, necessity shown by C32_separator_needed."
  },
  {
   "property": "C33",
   "status": "proved",
   "theorems": [
    "Verif.Id.C33_iteration_total",
    "Verif.Id.C33_parse_back",
    "Verif.Id.C33_tag_lookup",
    "Verif.Id.C33_total",
    "Verif.Id.C33_split_iff"
   ],
   "note": "Iterator modelled with explicit index state and panics."
  },
  {
   "property": "C34",
   "status": "proved",
   "theorems": [
    "Verif.Active.C34_active_snapshot",
    "Verif.Active.C34_none",
    "Verif.Active.C34_rule_times",
    "Verif.Active.C34_index_exact",
    "Verif.Active.C34_next_change"
   ],
   "note": "Active snapshot = last added with cutover <= t; cutover index exact."
  },
  {
   "property": "C35",
   "status": "proved",
   "theorems": [
    "Verif.Active.C35_forward",
    "Verif.Active.C35_reverse"
   ],
   "note": "Forward and reverse matching on the trimmed rule set equal matching on the full one, for time-ordered histories."
  },
  {
   "property": "C36",
   "status": "partial",
   "theorems": [
    "Verif.Active.C36_range_agrees_partial",
    "Verif.Active.C36_stable_filters_partial",
    "Verif.Active.C36_violated",
    "Verif.Active.C36_violated_by_deletion",
    "Verif.Active.C36_exact",
    "Verif.Active.C36_now_or_later"
   ],
   "note": "Violated in general (two witnesses: filter change, deletion of a rollup rule); proved when every change of pipelines is reported with its own time, in particular with stable filters and live rollup rules. Without conditions: C36_exact gives the whole result, and what is reported as active at t is the match at t or at a later rule time of the range."
  },
  {
   "property": "C37",
   "status": "proved",
   "theorems": [
    "Verif.Active.C37_expiry",
    "Verif.Active.C37_same_until_expiry",
    "Verif.Active.C37_unexpired"
   ],
   "note": "Expiry is the earliest rule change after start and not before end; result unchanged up to it."
  },
  {
   "property": "C38",
   "status": "proved",
   "theorems": [
    "Verif.Active.C38_ordered",
    "Verif.Active.C38_count"
   ],
   "note": "Ordered cutovers and one stage per rule change, for starts >= 0."
  },
  {
   "property": "C39",
   "status": "partial",
   "theorems": [
    "Verif.Active.C39_ids",
    "Verif.Active.C39_sorted",
    "Verif.Active.C39_history_partial",
    "Verif.Active.C39_active_partial",
    "Verif.Active.C39_m3_partial",
    "Verif.Active.C39_violated",
    "Verif.Active.C39_together",
    "Verif.Active.C39_entries",
    "Verif.Active.C39_together_model",
    "Verif.Active.C39_one_iff",
    "Verif.Active.C39_one_partial"
   ],
   "note": "Identifiers and order are proved without conditions. Without conditions, and for any sort: at the start and at each rule change the entries of an identifier together say what is generated there, each once, and else tombstones (C39_together); there are as many as are generated at most at one time (C39_entries). The metadata history of one entry is proved when at each time no identifier is generated twice; for m3 identifiers this follows when no two live targets share new name and tags. C39_violated shows the full statement fails without it. Identifier by identifier, for any sort: one has at most one entry iff at most one target generates it at the start and at each rule change inside the range (C39_one_iff), and then its entry says what is generated at each of these times, whatever happens to other identifiers (C39_one_partial)"
  },
  {
   "property": "C40",
   "status": "proved",
   "theorems": [
    "Verif.Active.C40_distinct",
    "Verif.Active.C40_complete",
    "Verif.Active.C40_sound",
    "Verif.Active.C40_default",
    "Verif.Active.C40_rollup_pipeline"
   ],
   "note": "No duplicates, nothing lost unless dropped, nothing invented, default when nothing matches."
  },
  {
   "property": "C41",
   "status": "partial",
   "theorems": [
    "Verif.Active.C41_dropped_iff_partial",
    "Verif.Active.C41_other_mapping_partial",
    "Verif.Active.C41_violated"
   ],
   "note": "Exact condition for a drop proved; the full statement is refuted by C41_violated."
  },
  {
   "property": "C42",
   "status": "proved",
   "theorems": [
    "Verif.Active.C42_must_drop"
   ],
   "note": ""
  },
  {
   "property": "C43",
   "status": "proved",
   "theorems": [
    "Verif.Active.C43_identifier",
    "Verif.Active.C43_applies",
    "Verif.Active.C43_m3"
   ],
   "note": "For any sorted tags through the abstract identifier parser, and for m3 identifiers concretely."
  },
  {
   "property": "C44",
   "status": "partial",
   "theorems": [
    "Verif.Active.C44_reverse_partial",
    "Verif.Active.C44_violated",
    "Verif.Active.C44_exact"
   ],
   "note": "Proved for rule sets in which no operation with the same new name has a subset of the tags but other policies; C44_violated refutes the full statement (nested tag sets). C44_exact says for every rule set which step an identifier is attributed to: the first in force that has its name and only tags it has."
  },
  {
   "property": "C45",
   "status": "proved",
   "theorems": [
    "Verif.Active.C45_plain",
    "Verif.Active.C45_range"
   ],
   "note": "Point form and range form."
  },
  {
   "property": "C46",
   "status": "proved",
   "theorems": [
    "Verif.RuleSet.C46_past_unchanged",
    "Verif.RuleSet.C46_delay"
   ],
   "note": "for sequences of commands including batches, forward and reverse, over ranges ending by T"
  },
  {
   "property": "C47",
   "status": "proved",
   "theorems": [
    "Verif.RuleSet.C47_mapping_stops",
    "Verif.RuleSet.C47_rollup_stops",
    "Verif.RuleSet.C47_delete_all",
    "Verif.RuleSet.C47_delete_fails",
    "Verif.RuleSet.C47_mapping_revives",
    "Verif.RuleSet.C47_rollup_revives"
   ],
   "note": "until the rule is updated or a rule is added under its name"
  },
  {
   "property": "C48",
   "status": "proved",
   "theorems": [
    "Verif.RuleSet.C48_unique_ids",
    "Verif.RuleSet.C48_append_only",
    "Verif.RuleSet.C48_failed_edit"
   ],
   "note": "failed single edits; for batches see C50"
  },
  {
   "property": "C49",
   "status": "partial",
   "theorems": [
    "Verif.RuleSet.C49_names_partial",
    "Verif.RuleSet.C49_violated",
    "Verif.RuleSet.C49_violated_by_revival",
    "Verif.RuleSet.C49_edit_exact",
    "Verif.RuleSet.C49_exact"
   ],
   "note": "violated by renaming updates; holds exactly for the sequences whose successful edits use no name of another live rule (C49_exact)"
  },
  {
   "property": "C50",
   "status": "partial",
   "theorems": [
    "Verif.RuleSet.C50_prefix_partial",
    "Verif.RuleSet.C50_violated",
    "Verif.RuleSet.C50_unchanged_iff"
   ],
   "note": "violated: a failing batch keeps the changes before the failing one; exactly the prefix is applied. C50_unchanged_iff: every change made before the failing one stays and shows as one snapshot more; the rule set is as it was if and only if the batch is empty or its first change is malformed or fails."
  },
  {
   "property": "C51",
   "status": "partial",
   "theorems": [
    "Verif.RuleSet.C51_reload_partial",
    "Verif.RuleSet.C51_violated",
    "Verif.RuleSet.C51_loaded",
    "Verif.RuleSet.C51_filters",
    "Verif.RuleSet.C46_reloaded",
    "Verif.RuleSet.C47_mapping_reloaded",
    "Verif.RuleSet.C47_rollup_reloaded",
    "Verif.RuleSet.C51_loss_iff"
   ],
   "note": "Violated in one corner (C51_violated): a mapping snapshot without storage policies (a drop rule) loses its aggregation types. Proved: a rule set can be written and read back exactly when every snapshot is acceptable and then equals the written one up to built filters, sorted rollup tags and that loss; rule sets that were read are fixed points; past matching and deletions survive edit-store-read. C51_loss_iff: aggregation types come back if and only if no mapping snapshot without storage policies has any; all else of mapping rules comes back."
  },
  {
   "property": "C52",
   "status": "partial",
   "theorems": [
    "Verif.RuleSet.C52_accepted_partial",
    "Verif.RuleSet.C52_each_validated_partial",
    "Verif.RuleSet.C52_violation_hidden",
    "Verif.RuleSet.C52_violation_targets"
   ],
   "note": "accepted rule sets can be read back iff the snapshots not shown to the validator can; edits validated one by one keep the rule set readable; violated for hidden snapshots and rollup rules without targets"
  },
  {
   "property": "C53",
   "status": "proved",
   "theorems": [
    "Verif.Val.C53_accepts_iff",
    "Verif.Val.C53_errors",
    "Verif.Val.C53_characters"
   ],
   "note": "acceptance is equivalent to the declarative predicate for all snapshots and options; kinds of errors; characters of UTF-8 texts"
  },
  {
   "property": "C54",
   "status": "proved",
   "theorems": [
    "Verif.NS.C54_add",
    "Verif.NS.C54_delete",
    "Verif.NS.C54_refines",
    "Verif.NS.C54_names_unique",
    "Verif.NS.C54_alternates",
    "Verif.NS.C54_grows",
    "Verif.NS.C54_outcomes"
   ],
   "note": "All call sequences from the empty state (and from any state with unique names): refinement to abstract per-name histories, uniqueness, growth, alternation, exact outcomes."
  },
  {
   "property": "C55",
   "status": "proved",
   "theorems": [
    "Verif.NS.C55_roundtrip",
    "Verif.NS.C55_exact",
    "Verif.NS.C55_loaded",
    "Verif.NS.C55_clone",
    "Verif.NS.C55_views"
   ],
   "note": "Round trip holds exactly for namespaces with 32-bit versions and non-nil snapshot slices; also copies and views."
  },
  {
   "property": "C56",
   "status": "proved",
   "theorems": [
    "Verif.Store.C56_write",
    "Verif.Store.C56_write_all",
    "Verif.Store.C56_no_lost_update",
    "Verif.Store.C56_no_lost_update_all",
    "Verif.Store.C56_chain",
    "Verif.Store.C56_second_is_stale",
    "Verif.Store.C56_validated"
   ],
   "note": "All interleavings of any number of clients; assumes the key-value store's documented transactions and distinct keys."
  },
  {
   "property": "C57",
   "status": "proved",
   "theorems": [
    "Verif.Store.C57_named_versions",
    "Verif.Store.C57_deleted"
   ],
   "note": "All executions of the combined-write protocol with fewer than 2^31 writes per key."
  },
  {
   "property": "C58",
   "status": "proved",
   "theorems": [
    "Verif.Cache.C58_cached_current",
    "Verif.Cache.C58_lookup",
    "Verif.Cache.C58_answers",
    "Verif.Cache.C58_refresh_clears"
   ],
   "note": "All interleavings of the cache with any number of sources that change their rules and announce the change afterwards."
  },
  {
   "property": "C59",
   "status": "partial",
   "theorems": [
    "Verif.Cache.C59_existing_partial",
    "Verif.Cache.C59_rollups_partial",
    "Verif.Cache.C59_lookup_partial",
    "Verif.Cache.C59_violated",
    "Verif.Cache.C59_earlier_start"
   ],
   "note": "Violated in general (C59_violated, a consequence of the flaw of range matching in C36; C59_earlier_start shows why the start matters). Proved where point matching reports every change of pipelines with its time, for existing and rollup identifiers, up to the answer of a lookup in any reachable state."
  },
  {
   "property": "C60",
   "status": "proved",
   "theorems": [
    "Verif.Cache.C60_consistent",
    "Verif.Cache.C60_removed",
    "Verif.Cache.C60_evict",
    "Verif.Cache.C60_bounded",
    "Verif.Cache.C60_recency",
    "Verif.Cache.C60_fresh"
   ],
   "note": "All interleavings of lookups, registrations, refreshes, unregistrations, and the eviction and deletion goroutines, as a state machine whose steps are the critical sections; capacity and batch size assumed not negative."
  },
  {
   "property": "C61",
   "status": "proved",
   "theorems": [
    "Verif.Cache.C61_refines",
    "Verif.Cache.C61_removed",
    "Verif.Cache.C61_misuse"
   ],
   "note": "The list of the cache as a doubly linked list in a heap of elements: every sequence of operations allowed by the abstract list refines it (both directions of traversal, length, ends); removed elements stay removed; C61_misuse shows that the preconditions are needed."
  },
  {
   "property": "C62",
   "status": "partial",
   "theorems": [
    "Verif.Cache.C62_gone_partial",
    "Verif.Cache.C62_orphan",
    "Verif.Cache.C62_orphans_partial",
    "Verif.Cache.C62_evicted_partial",
    "Verif.Cache.C62_pass",
    "Verif.Cache.C62_lost_iff",
    "Verif.Cache.C62_careful_partial"
   ],
   "note": "Violated: an eviction pass that meets an entry waiting to be deleted orphans the newer entry of the same identifier (C62_orphan). Proved for executions in which eviction passes run only while no entries wait to be deleted. For all executions: an entry that no map holds is never found or moved ahead again (C62_orphans_partial) and is removed by a pass that finds as many entries in front of it as the capacity (C62_evicted_partial). Exactly: a pass makes unfindable what shares namespace and identifier with an entry it removes (C62_pass); while nothing is lost, a step loses an entry iff it is an eviction pass that keeps it, finds it and removes another of the same namespace and identifier (C62_lost_iff); the property holds in all executions without such a pass (C62_careful_partial)"
  },
  {
   "property": "C63",
   "status": "proved",
   "theorems": [
    "Verif.Matcher.C63_in_update",
    "Verif.Matcher.C63_absent",
    "Verif.Matcher.C63_callbacks",
    "Verif.Matcher.C63_updated",
    "Verif.Matcher.C63_history",
    "Verif.Matcher.C63_new",
    "Verif.Matcher.C63_unknown"
   ],
   "note": "After any update, from any reachable state: which namespaces have rulesets, which are watched, what is dropped, and the calls. Watch may fail or succeed (parameter); its failure is only logged by the code and leaves the ruleset as it was."
  },
  {
   "property": "C64",
   "status": "partial",
   "theorems": [
    "Verif.Tf.C64_skips",
    "Verif.Tf.C64_rate_partial",
    "Verif.Tf.C64_empty_iff",
    "Verif.Tf.C64_never_negative",
    "Verif.Tf.C64_exact",
    "Verif.Tf.C64_absolute",
    "Verif.Tf.C64_violation_overflow",
    "Verif.Tf.C64_violation_infinite",
    "Verif.Tf.C64_wrapped",
    "Verif.Tf.C64_arithmetic",
    "Verif.Tf.C64_flat",
    "Verif.Tf.C64_order"
   ],
   "note": "Proved over an explicit model of IEEE binary64: when the datapoint is empty, that the rate is never negative, that it is within a relative error of the exact quotient when the product stays finite, and exact when representable. Fails where the product overflows and for two infinities (C64_violation_overflow, C64_violation_infinite)."
  },
  {
   "property": "C65",
   "status": "proved",
   "theorems": [
    "Verif.Msg.C65_toProto",
    "Verif.Msg.C65_fromProto",
    "Verif.Msg.C65_no_history",
    "Verif.Msg.C65_roundtrip",
    "Verif.Msg.C65_canon_equal",
    "Verif.Msg.C65_union",
    "Verif.Msg.C65_parse"
   ],
   "note": "Conversions of every message kind to and from protobuf: exact specification of the protobuf form, errors as iff, independence of the destination, round trip up to canonical form, and the union and parse functions."
  },
  {
   "property": "C66",
   "status": "proved",
   "theorems": [
    "Verif.Active.C66_existing",
    "Verif.Active.C66_rollups",
    "Verif.Active.C66_rollups_same",
    "Verif.Active.C66_range",
    "Verif.Active.C66_range_rollups",
    "Verif.Active.C66_range_twice"
   ],
   "note": "At every time: same metadata for the existing identifier (pipelines as sets up to Equal), same multiset of rollup identifiers with metadata. Over ranges: the same for the existing identifier, expiry and identifiers; same rollup metadata when no identifier is generated twice at a time (otherwise the pairing over time depends on the order, C66_range_twice)."
  },
  {
   "property": "C67",
   "status": "proved",
   "theorems": [
    "Verif.NsVal.C67_in_force",
    "Verif.NsVal.C67_follows",
    "Verif.NsVal.C67_closed",
    "Verif.NsVal.C67_close_returns",
    "Verif.NsVal.C67_static"
   ],
   "note": "Any interleaving of updates, reads, validations and closes; the configuration in force is the last one read that parsed, and it catches up with the latest one announced."
  },
  {
   "property": "C68",
   "status": "partial",
   "theorems": [
    "Verif.RuleSet.C68_history",
    "Verif.RuleSet.C68_latest_partial",
    "Verif.RuleSet.C68_deterministic",
    "Verif.RuleSet.C68_violated",
    "Verif.RuleSet.C68_exact"
   ],
   "note": "MappingRules/RollupRules show each visible rule's full history, latest first; Latest shows exactly the live rules sorted by name when uuids are distinct; independent of map order when live names are distinct. With repeated uuids rules are hidden (C68_violated).. C68_exact: what Latest shows of every rule set, and that it shows all live rules if and only if none is followed by a rule with the same uuid."
  },
  {
   "property": "C69",
   "status": "proved",
   "theorems": [
    "Verif.RuleHeap.C69_independent",
    "Verif.RuleHeap.C69_original_unchanged",
    "Verif.RuleSet.C69_equal"
   ],
   "note": "Rules as objects in one memory: any interleaving of edits, clones and activations over any number of rule sets refines value semantics; clones are observationally equal, also after equal edits."
  },
  {
   "property": "C70",
   "status": "proved",
   "theorems": [
    "Verif.Matcher.C70_match",
    "Verif.Matcher.C70_rules",
    "Verif.Matcher.C70_default",
    "Verif.Matcher.C70_m3_namespace"
   ],
   "note": "All interleavings of lookups, cache background work, namespace updates (entry by entry), ruleset updates and their announcements."
  },
  {
   "property": "C71",
   "status": "partial",
   "theorems": [
    "Verif.RuleHeap.C71_frozen_partial",
    "Verif.RuleHeap.C71_violated",
    "Verif.RuleHeap.C71_exact"
   ],
   "note": "Active sets taken when every rule has a snapshot in effect never change. activeRule returns the shared rule object when no snapshot is in effect: C71_violated. Without conditions: a rule with a snapshot in effect stays as it was, another is at every time what it is in the rule set then (C71_exact)."
  },
  {
   "property": "C72",
   "status": "proved",
   "theorems": [
    "Verif.RuleSet.C72_add_mapping",
    "Verif.RuleSet.C72_update_mapping",
    "Verif.RuleSet.C72_delete_mapping",
    "Verif.RuleSet.C72_add_rollup",
    "Verif.RuleSet.C72_update_rollup",
    "Verif.RuleSet.C72_delete_rollup",
    "Verif.RuleSet.C72_accepted",
    "Verif.RuleSet.C72_delete_revive"
   ],
   "note": "All six rule edits plus Delete and Revive; acceptance conditions as iff. Rollup views show of each pipeline step the part selected by its type."
  },
  {
   "property": "C73",
   "status": "proved",
   "theorems": [
    "Verif.Rules.C73_convert",
    "Verif.Rules.C73_roundtrip",
    "Verif.Rules.C73_mapping",
    "Verif.Rules.C73_rollup_target"
   ],
   "note": "Exact acceptance condition and result of reading v1 policies, v1 mapping snapshots and v1 rollup targets."
  },
  {
   "property": "C74",
   "status": "proved",
   "theorems": [
    "Verif.Wire.C74_ignored",
    "Verif.Wire.C74_appended",
    "Verif.Wire.C74_prepended",
    "Verif.PIter.C74_stream"
   ],
   "note": "Reading with unknown fields added anywhere and at any depth gives the same message (C74_ignored), with the cases before and after a message, and streams (C74_stream). Hypothesis: the fields before the place of insertion can be read by themselves (needed: a packed list of doubles whose length is not a multiple of eight reads past its field) and the data is shorter than 2^63 bytes."
  },
  {
   "property": "C75",
   "status": "partial",
   "theorems": [
    "Verif.MP.C75_next_partial",
    "Verif.MP.C75_stream_partial",
    "Verif.MP.C75_believed",
    "Verif.MP.C75_violation",
    "Verif.MP.C75_zeros_partial"
   ],
   "note": "Proved if Next returns true, for single calls and whole streams. It fails if Next returns false: an iterator collects as many zeros as announced (C75_believed, for every library obeying the laws; C75_violation with an input of eleven bytes). Also if Next returns false, what an iterator holds beyond the values read, each from a byte that is gone, are zeros (C75_zeros_partial)"
  },
  {
   "property": "C76",
   "status": "partial",
   "theorems": [
    "Verif.Val.C76_history",
    "Verif.Val.C76_partial",
    "Verif.Val.C76_violation"
   ],
   "note": "what is allowed after any sequence of calls; order matters when a default is set after a per-type call"
  },
  {
   "property": "C77",
   "status": "proved",
   "theorems": [
    "Verif.Tf.C77_types"
   ],
   "note": "All integers and all strings."
  },
  {
   "property": "C78",
   "status": "partial",
   "theorems": [
    "Verif.HashMap.C78_no_delete_partial",
    "Verif.HashMap.C78_no_collision_partial",
    "Verif.HashMap.C78_own_values_partial",
    "Verif.HashMap.C78_violation_lost",
    "Verif.HashMap.C78_violation_back",
    "Verif.HashMap.C78_as_modelled_partial",
    "Verif.HashMap.C78_delete_exact"
   ],
   "note": "Delete breaks the chain of probes if two keys collide (C78_violation_lost, C78_violation_back). Proved: everything without Delete for any hash function; everything if no two keys collide; for any hash function and calls, only values set for the key are found. C78_delete_exact: after any calls without Delete and for any hash function, deleting a key loses precisely the keys whose entries are behind it in the probes"
  },
  {
   "property": "C79",
   "status": "proved",
   "theorems": [
    "Verif.Wire.C79_message",
    "Verif.Wire.C79_namespaces_message",
    "Verif.Wire.C79_ruleSet",
    "Verif.Wire.C79_namespaces",
    "Verif.Wire.C79_no_panic",
    "Verif.Wire.C79_injective",
    "Verif.Wire.C79_negative_type",
    "Verif.Store.C79_store",
    "Verif.Store.C79_new_store",
    "Verif.Store.C79_missing"
   ],
   "note": "Byte-level model of the generated code for stored messages; refinement of the message store by the byte store. Outside the claim: a negative aggregation type (C79_negative_type) is not readable."
  },
  {
   "property": "C80",
   "status": "proved",
   "theorems": [
    "Verif.Val.C80_type_text",
    "Verif.Val.C80_types_fn",
    "Verif.Val.C80_options",
    "Verif.Val.C80_permitted",
    "Verif.Val.C80_permitted_range",
    "Verif.Val.C80_namespace"
   ],
   "note": "metric types, options in closed form, the types a filter may match, and what the matcher gives under accepted rules; YAML reading is outside the model"
  },
  {
   "property": "C81",
   "status": "partial",
   "theorems": [
    "Verif.Json.C81_text",
    "Verif.Json.C81_roundtrip",
    "Verif.Json.C81_writes_iff",
    "Verif.Json.C81_read",
    "Verif.Json.C81_over_older",
    "Verif.Json.C81_policies_partial",
    "Verif.Json.C81_violation_policy",
    "Verif.Json.C81_two_kinds",
    "Verif.Json.C81_form",
    "Verif.Json.C81_absent",
    "Verif.Json.C81_null",
    "Verif.Json.C81_spelling"
   ],
   "note": "Full for rule sets, namespaces, changes: read back (C81_roundtrip), written iff known types and operations (C81_writes_iff), what is read is well formed and is read back again (C81_read). Staged policies: partial, those with unknown aggregation types are written without an error but cannot be read (C81_violation_policy). C81_over_older and C81_two_kinds say what reading does with older contents and with two kinds."
  },
  {
   "property": "C82",
   "status": "proved",
   "theorems": [
    "Verif.Agg.C82_made_iff",
    "Verif.Agg.C82_names",
    "Verif.Agg.C82_lookup",
    "Verif.Agg.C82_empty"
   ],
   "note": "When options are made (C82_made_iff), the names and default types (C82_names), lookup inverse unless configured empty (C82_lookup), lookup where configured empty (C82_empty)."
  },
  {
   "property": "C83",
   "status": "partial",
   "theorems": [
    "Verif.Agg.C83_kinds_partial",
    "Verif.Agg.C83_violation_timer",
    "Verif.Agg.C83_timer_exact"
   ],
   "note": "Full for counters and gauges, and for timers on lists of known types (C83_kinds_partial); for timers unknown types are accepted (C83_violation_timer), and C83_timer_exact says exactly which lists are accepted and which of them have an aggregation ID."
  },
  {
   "property": "C84",
   "status": "proved",
   "theorems": [
    "Verif.RuleSet.C84_mapping_iff",
    "Verif.RuleSet.C84_target_iff",
    "Verif.RuleSet.C84_rollup_iff",
    "Verif.RuleSet.C84_equivalence",
    "Verif.RuleSet.C84_matches",
    "Verif.RuleSet.C84_reverse_matches",
    "Verif.RuleSet.C84_ignores_deletion"
   ],
   "note": "Closed form of the three Equal functions; equal histories of views, stored and loaded, give the same forward and reverse match results."
  },
  {
   "property": "C85",
   "status": "partial",
   "theorems": [
    "Verif.Json.C85_order_partial",
    "Verif.Json.C85_canonical_partial",
    "Verif.Json.C85_rules",
    "Verif.Json.C85_violation_cycle",
    "Verif.Json.C85_effect",
    "Verif.Json.C85_asym"
   ],
   "note": "Proved for changes as documented (adds and changes with rule data, deletes with an ID only) and for views; for deletes that carry rule data the comparison is cyclic (C85_violation_cycle)."
  },
  {
   "property": "C86",
   "status": "partial",
   "theorems": [
    "Verif.Active.C86_plain",
    "Verif.Active.C86_range_partial",
    "Verif.Active.C86_violated",
    "Verif.Active.C86_exact"
   ],
   "note": "Proved for plain identifiers without condition, for rollup identifiers if the rollup steps in force that may have generated them agree; otherwise the first rule wins (C86_violated). C86_exact: at an instant, the order does not show if and only if the first fitting steps of the rules give the same answer."
  },
  {
   "property": "C87",
   "status": "proved",
   "theorems": [
    "Verif.Deploy.C87_answers",
    "Verif.Deploy.C87_current",
    "Verif.Deploy.C87_state",
    "Verif.Deploy.C87_catches_up",
    "Verif.Deploy.C87_permitted"
   ],
   "note": "The conversions of watched values; store on bytes, watches, matcher and cache as one transition system, for all interleavings. C87_permitted joins the validator configuration (C80), storing (C88) and the answers; it is about rules whose changes all took place when they were read."
  },
  {
   "property": "C88",
   "status": "proved",
   "theorems": [
    "Verif.RuleSet.C88_revalidated",
    "Verif.RuleSet.C88_rewritable",
    "Verif.RuleSet.C88_not_conversely"
   ],
   "note": "For all validator options and all rule sets with distinct rule IDs and known drop policies; at the store as C88_rewritable. C88_not_conversely shows why only this direction holds."
  },
  {
   "property": "C89",
   "status": "proved",
   "theorems": [
    "Verif.Locks.C89_no_deadlock",
    "Verif.Locks.C89_ends",
    "Verif.Locks.C89_unlocks",
    "Verif.Locks.C89_callback_outside",
    "Verif.Locks.C89_unwatch_outside"
   ],
   "note": "Lock order over all interleavings; the two _outside theorems prove that the code's comments about lock order are needed."
  },
  {
   "property": "C90",
   "status": "proved",
   "theorems": [
    "Verif.Locks.C90_no_race",
    "Verif.Locks.C90_guarded"
   ],
   "note": "Lock discipline over all interleavings; fields and guards listed in Model/Locks.lean."
  },
  {
   "property": "C91",
   "status": "partial",
   "theorems": [
    "Verif.Pools.C91_one_user",
    "Verif.Pools.C91_once_partial",
    "Verif.Pools.C91_violated",
    "Verif.Pools.C91_reset_needed",
    "Verif.Pools.C91_again_exact"
   ],
   "note": "Proved for encoders and msgpack iterators; violated by sorted tag iterators closed twice (C91_violated), proved for them when closed once. C91_again_exact: closing a sorted tag iterator once more lets two users share it if and only if the pool has it and keeps it again"
  },
  {
   "property": "C92",
   "status": "proved",
   "theorems": [
    "Verif.Keys.C92_key",
    "Verif.Keys.C92_same",
    "Verif.Keys.C92_apart_iff",
    "Verif.Keys.C92_default",
    "Verif.Keys.C92_no_verb",
    "Verif.Keys.C92_twice"
   ],
   "note": "Formats with one %s; other verbs of Sprintf are not modelled."
  },
  {
   "property": "C93",
   "status": "partial",
   "theorems": [
    "Verif.Meta.C93_kept_partial",
    "Verif.Meta.C93_all_partial",
    "Verif.Meta.C93_now_partial",
    "Verif.Meta.C93_exact",
    "Verif.Active.C93_violated"
   ],
   "note": "Violated: a dropped stage is replaced by an earlier one that is kept. Proved: stages not dropped stay in force, all-dropped lists, the time of the answer itself, and an exact description."
  },
  {
   "property": "C94",
   "status": "partial",
   "theorems": [
    "Verif.Active.C94_partial",
    "Verif.Active.C94_violated",
    "Verif.Active.C94_iff"
   ],
   "note": "Violated: resolving works in place on the shared result. Holds if and only if no stage is kept after one that is dropped (C94_iff)."
  },
  {
   "property": "C95",
   "status": "partial",
   "theorems": [
    "Verif.MetaMem.C95_partial",
    "Verif.MetaMem.C95_violated",
    "Verif.MetaMem.C95_violated_pipelines",
    "Verif.MetaMem.C95_violated_stages",
    "Verif.MetaMem.C95_again"
   ],
   "note": "Violated: decoding into an object that reported a drop overwrites the package variable, and after elements were removed in place two elements share arrays. Proved for uses where an object in which resolving moved elements is only looked at."
  },
  {
   "property": "C96",
   "status": "partial",
   "theorems": [
    "Verif.Shared.C96_new",
    "Verif.Shared.C96_partial",
    "Verif.Shared.C96_iff",
    "Verif.Shared.C96_violated"
   ],
   "note": "Violated: edits keep the slices of the view they are given (C96_violated). Proved: views and clones have arrays of their own (C96_new); for programs that assign to no array given to a rule set, rule sets are values (C96_partial); an assignment changes a rule set iff it has the array (C96_iff)."
  },
  {
   "property": "C97",
   "status": "proved",
   "theorems": [
    "Verif.Cache.C97_ends",
    "Verif.Cache.C97_done",
    "Verif.Cache.C97_rests",
    "Verif.Cache.C97_close",
    "Verif.Cache.C97_after_close"
   ],
   "note": "For the state machine of the cache with both goroutines. Outside: lookups after Close still fill the cache without bound (C97_after_close)."
  },
  {
   "property": "C98",
   "status": "proved",
   "theorems": [
    "Verif.Sent.C98_metadatas",
    "Verif.Sent.C98_forwarded",
    "Verif.Sent.C98_encodes",
    "Verif.Sent.C98_stream",
    "Verif.Sent.C98_deployed",
    "Verif.Sent.C98_unread"
   ],
   "note": "For rule sets read from protobuf under a unit table that is one to one (UnitsOK); C98_unread shows why the rules must have been read."
  },
  {
   "property": "C99",
   "status": "partial",
   "theorems": [
    "Verif.Opts.C99_values",
    "Verif.Opts.C99_kept",
    "Verif.Opts.C99_setting",
    "Verif.Opts.C99_partial",
    "Verif.Opts.C99_all_alike",
    "Verif.Opts.C99_validator",
    "Verif.Opts.C99_violation",
    "Verif.Opts.C99_setters"
   ],
   "note": "Proved for all options but those of the validator: every program sees options as values (C99_values), options already got never change (C99_kept), a setter changes its setting only (C99_setting). Violated by the validator's options, whose setters write in place (C99_violation); for these: all options of one base hold the same (C99_all_alike), a validator goes by the options as they are now but by the namespace check of the time it was made (C99_validator), and options used once are as values (C99_partial)."
  }
 ]
}
