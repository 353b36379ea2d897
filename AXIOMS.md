# Axioms per property theorem

Output of `#print axioms` for each theorem named in MANIFEST.json.

| Property | Theorem | Axioms |
|---|---|---|
| C01 | `Verif.Agg.C01_roundtrip` | propext, Classical.choice, Quot.sound |
| C01 | `Verif.Agg.C01_fails_iff` | propext, Classical.choice, Quot.sound |
| C01 | `Verif.Agg.C01_eq_iff` | propext, Classical.choice, Quot.sound |
| C02 | `Verif.Agg.C02_decodes_iff` | propext, Classical.choice, Quot.sound |
| C02 | `Verif.Agg.C02_reencode` | propext, Classical.choice, Quot.sound |
| C02 | `Verif.Agg.C02_contains_iff` | propext, Classical.choice, Quot.sound |
| C02 | `Verif.Agg.C02_contains_iff_mem` | propext, Classical.choice, Quot.sound |
| C02 | `Verif.Agg.C02_default_iff` | propext, Classical.choice, Quot.sound |
| C03 | `Verif.Agg.C03_roundtrip` | propext, Classical.choice, Quot.sound |
| C03 | `Verif.Agg.C03_parse_sound` | propext, Classical.choice, Quot.sound |
| C03 | `Verif.Agg.C03_text` | propext, Classical.choice, Quot.sound |
| C03 | `Verif.Agg.C03_unknown` | propext, Classical.choice, Quot.sound |
| C04 | `Verif.Agg.C04_strings` | propext, Classical.choice, Quot.sound |
| C04 | `Verif.Agg.C04_quantiles` | propext, Classical.choice, Quot.sound |
| C04 | `Verif.Agg.C04_lookup_sound` | propext, Classical.choice, Quot.sound |
| C04 | `Verif.Agg.C04_lookup_inverse` | propext, Classical.choice, Quot.sound |
| C04 | `Verif.Agg.C04_ambiguous_lookup` | propext, Classical.choice, Quot.sound |
| C05 | `Verif.Agg.C05_members` | propext, Classical.choice, Quot.sound |
| C05 | `Verif.Agg.C05_order` | propext, Classical.choice, Quot.sound |
| C05 | `Verif.Agg.C05_nodup` | propext, Classical.choice, Quot.sound |
| C05 | `Verif.Agg.C05_duplicates_kept` | none |
| C06 | `Verif.Policy.C06_storage_policy_roundtrip` | propext |
| C06 | `Verif.Policy.C06_policy_roundtrip` | propext, Classical.choice, Quot.sound |
| C06 | `Verif.Policy.C06_drop_policy` | propext, Classical.choice, Quot.sound |
| C06 | `Verif.Policy.C06_known_values` | propext, Quot.sound |
| C06 | `Verif.Policy.C06_drop_text` | propext, Classical.choice, Quot.sound |
| C07 | `Verif.Policy.C07_order` | propext, Classical.choice, Quot.sound |
| C07 | `Verif.Policy.C07_equal_iff_perm` | propext, Classical.choice, Quot.sound |
| C07 | `Verif.Policy.C07_equivalence` | propext, Classical.choice, Quot.sound |
| C07 | `Verif.Policy.C07_policies_equals_iff` | propext, Classical.choice, Quot.sound |
| C07 | `Verif.MP.C07_staged_policies` | propext, Classical.choice, Quot.sound |
| C07 | `Verif.Policy.C07_order_by` | propext, Classical.choice, Quot.sound |
| C08 | `Verif.Policy.C08_roundtrip` | propext |
| C08 | `Verif.Policy.C08_toProto_spec` | propext |
| C08 | `Verif.Policy.C08_fromProto_spec` | propext, Quot.sound |
| C08 | `Verif.Policy.C08_nil` | none |
| C08 | `Verif.Policy.C08_list_roundtrip` | propext |
| C08 | `Verif.Policy.C08_policy_roundtrip` | propext, Classical.choice, Quot.sound |
| C08 | `Verif.Policy.C08_policies` | propext, Quot.sound |
| C08 | `Verif.Policy.C08_policies_roundtrip` | propext, Classical.choice, Quot.sound |
| C09 | `Verif.Pipe.C09_same_transform_iff` | propext, Classical.choice, Quot.sound |
| C09 | `Verif.Pipe.C09_equal_iff` | propext, Classical.choice, Quot.sound |
| C09 | `Verif.Pipe.C09_equivalence` | propext, Classical.choice, Quot.sound |
| C10 | `Verif.Pipe.C10_equal_iff` | propext, Classical.choice, Quot.sound |
| C10 | `Verif.Pipe.C10_clone` | propext, Classical.choice, Quot.sound |
| C10 | `Verif.Pipe.C10_roundtrip` | propext, Classical.choice, Quot.sound |
| C10 | `Verif.Pipe.C10_proto_succeeds_iff` | propext, Classical.choice, Quot.sound |
| C10 | `Verif.Pipe.C10_reader_rejects` | propext, Quot.sound |
| C10 | `Verif.Pipe.C10_unknown_aggregation` | propext, Quot.sound |
| C10 | `Verif.Pipe.C10_sub_pipeline` | propext, Quot.sound |
| C10 | `Verif.Pipe.C10_sub_pipelines` | propext, Quot.sound |
| C10 | `Verif.Pipe.C10_sub_pipeline_past_end` | propext |
| C100 | `Verif.Wire.C100_message` | propext, Classical.choice, Quot.sound |
| C100 | `Verif.Wire.C100_stream` | propext, Classical.choice, Quot.sound |
| C100 | `Verif.Wire.C100_ruleSet` | propext, Classical.choice, Quot.sound |
| C100 | `Verif.Wire.C100_namespaces` | propext, Classical.choice, Quot.sound |
| C100 | `Verif.Wire.C100_store` | propext, Classical.choice, Quot.sound |
| C100 | `Verif.Wire.C100_types` | propext, Quot.sound |
| C100 | `Verif.Wire.C100_unambiguous` | propext, Quot.sound |
| C100 | `Verif.Wire.C100_stream_unambiguous` | propext, Quot.sound |
| C101 | `Verif.Wire.C101_stream` | propext, Classical.choice, Quot.sound |
| C101 | `Verif.Wire.C101_ruleSet` | propext, Classical.choice, Quot.sound |
| C101 | `Verif.Wire.C101_namespaces` | propext, Classical.choice, Quot.sound |
| C101 | `Verif.Wire.C101_same` | propext, Classical.choice, Quot.sound |
| C101 | `Verif.Wire.C101_encoded` | propext, Quot.sound |
| C102 | `Verif.RuleSet.C102_edits` | propext, Classical.choice, Quot.sound |
| C102 | `Verif.RuleSet.C102_partial` | propext, Classical.choice, Quot.sound |
| C102 | `Verif.RuleSet.C102_violation` | propext, Classical.choice, Quot.sound |
| C102 | `Verif.RuleSet.C102_ruleset` | propext, Quot.sound |
| C102 | `Verif.RuleSet.C102_batch_iff` | propext, Classical.choice, Quot.sound |
| C103 | `Verif.Configured.C103_partial` | propext, Classical.choice, Quot.sound |
| C103 | `Verif.Configured.C103_cache` | propext, Classical.choice, Quot.sound |
| C103 | `Verif.Configured.C103_settings` | propext, Classical.choice, Quot.sound |
| C103 | `Verif.Configured.C103_violation` | propext, Classical.choice, Quot.sound |
| C103 | `Verif.Configured.C103_default_key` | propext, Classical.choice, Quot.sound |
| C103 | `Verif.Configured.C103_exact` | propext, Classical.choice, Quot.sound |
| C104 | `Verif.MPMem.C104_next` | propext, Classical.choice, Quot.sound |
| C104 | `Verif.MPMem.C104_reset` | propext |
| C104 | `Verif.MPMem.C104_close` | propext |
| C104 | `Verif.MPMem.C104_one_holder` | propext, Classical.choice, Quot.sound |
| C104 | `Verif.MPMem.C104_lent` | propext, Classical.choice, Quot.sound |
| C104 | `Verif.MPMem.C104_stays` | propext, Classical.choice, Quot.sound |
| C104 | `Verif.MPMem.C104_message` | propext, Classical.choice, Quot.sound |
| C104 | `Verif.MPMem.C104_alone` | propext, Classical.choice, Quot.sound |
| C104 | `Verif.MPMem.C104_large_only` | propext, Classical.choice, Quot.sound |
| C105 | `Verif.Yaml.C105_lists` | propext, Classical.choice, Quot.sound |
| C105 | `Verif.Yaml.C105_words` | propext, Classical.choice, Quot.sound |
| C105 | `Verif.Yaml.C105_types_config` | propext, Classical.choice, Quot.sound |
| C105 | `Verif.Yaml.C105_config` | propext, Classical.choice, Quot.sound |
| C105 | `Verif.Yaml.C105_known_partial` | propext, Classical.choice, Quot.sound |
| C105 | `Verif.Yaml.C105_pipeline` | propext, Classical.choice, Quot.sound |
| C105 | `Verif.Yaml.C105_json` | propext, Classical.choice, Quot.sound |
| C105 | `Verif.Yaml.C105_violation_null` | propext, Classical.choice, Quot.sound |
| C105 | `Verif.Yaml.C105_null_members` | propext, Classical.choice, Quot.sound |
| C105 | `Verif.Yaml.C105_null_number` | propext |
| C105 | `Verif.Yaml.C105_null_words` | propext, Classical.choice, Quot.sound |
| C105 | `Verif.Yaml.C105_number` | propext, Classical.choice, Quot.sound |
| C105 | `Verif.Yaml.C105_lists_exact` | propext, Classical.choice, Quot.sound |
| C105 | `Verif.Yaml.C105_zero_or_known` | propext, Classical.choice, Quot.sound |
| C106 | `Verif.ListPool.C106_types` | propext, Quot.sound |
| C106 | `Verif.ListPool.C106_quantiles` | propext, Quot.sound |
| C106 | `Verif.ListPool.C106_succeeds_iff` | propext, Classical.choice, Quot.sound |
| C106 | `Verif.ListPool.C106_pooled_iff` | propext, Classical.choice, Quot.sound |
| C106 | `Verif.ListPool.C106_given_back_twice` | propext |
| C107 | `Verif.MP.C107_recursion` | propext, Classical.choice, Quot.sound |
| C107 | `Verif.MP.C107_recursion_aggregated` | propext, Classical.choice, Quot.sound |
| C107 | `Verif.MP.C107_message` | propext, Classical.choice, Quot.sound |
| C107 | `Verif.MP.C107_message_aggregated` | propext, Classical.choice, Quot.sound |
| C107 | `Verif.MP.C107_stopped` | propext, Classical.choice, Quot.sound |
| C107 | `Verif.MP.C107_stopped_aggregated` | propext, Quot.sound |
| C107 | `Verif.MP.C107_few` | propext, Classical.choice, Quot.sound |
| C107 | `Verif.MP.C107_few_aggregated` | propext, Classical.choice, Quot.sound |
| C107 | `Verif.MP.C107_cut` | propext, Classical.choice, Quot.sound |
| C107 | `Verif.MP.C107_cut_aggregated` | propext, Classical.choice, Quot.sound |
| C108 | `Verif.KeyMemory.C108_keys_are_copies` | propext, Quot.sound |
| C108 | `Verif.KeyMemory.C108_not_shared` | propext, Quot.sound |
| C108 | `Verif.KeyMemory.C108_unsafe_shares` | propext, Quot.sound |
| C108 | `Verif.KeyMemory.C108_unsafe_panics` | propext, Classical.choice, Quot.sound |
| C109 | `Verif.Cache.C109_linearizable` | propext, Classical.choice, Quot.sound |
| C109 | `Verif.Cache.C109_states` | propext, Classical.choice, Quot.sound |
| C109 | `Verif.Cache.C109_never_stuck` | propext, Classical.choice, Quot.sound |
| C109 | `Verif.Cache.C109_steps` | propext |
| C109 | `Verif.Cache.C109_work` | propext |
| C11 | `Verif.Applied.C11_equal_iff` | propext, Classical.choice, Quot.sound |
| C11 | `Verif.Applied.C11_roundtrip` | propext, Classical.choice, Quot.sound |
| C11 | `Verif.Applied.C11_no_history` | propext, Classical.choice, Quot.sound |
| C11 | `Verif.Applied.C11_fails_iff` | propext, Classical.choice, Quot.sound |
| C11 | `Verif.Applied.C11_clone` | propext, Classical.choice, Quot.sound |
| C110 | `Verif.MP.C110_message` | propext, Quot.sound |
| C110 | `Verif.MP.C110_stuck` | propext |
| C110 | `Verif.MP.C110_reset` | none |
| C110 | `Verif.MP.C110_stream` | propext, Quot.sound |
| C111 | `Verif.Text.C111_pipeline_partial` | propext, Classical.choice, Quot.sound |
| C111 | `Verif.Text.C111_pipeline_violation` | propext, Classical.choice, Quot.sound |
| C111 | `Verif.Text.C111_applied_partial` | propext, Classical.choice, Quot.sound |
| C111 | `Verif.Text.C111_applied_violation` | propext, Classical.choice, Quot.sound |
| C111 | `Verif.Text.C111_filter_partial` | propext, Classical.choice, Quot.sound |
| C111 | `Verif.Text.C111_texts` | propext, Classical.choice, Quot.sound |
| C111 | `Verif.Text.C111_filter_violation` | propext, Classical.choice, Quot.sound |
| C111 | `Verif.Text.C111_tags_partial` | propext, Classical.choice, Quot.sound |
| C111 | `Verif.Text.C111_tags_violation` | propext, Classical.choice, Quot.sound |
| C111 | `Verif.Text.C111_pipeline_texts` | propext, Classical.choice, Quot.sound |
| C111 | `Verif.Text.C111_applied_texts` | propext, Classical.choice, Quot.sound |
| C111 | `Verif.Text.C111_tags_texts` | propext, Classical.choice, Quot.sound |
| C112 | `Verif.Lookups.C112_one_moment` | propext, Classical.choice, Quot.sound |
| C112 | `Verif.Lookups.C112_case` | propext, Quot.sound |
| C113 | `Verif.Lookups.C113_dropped` | propext, Classical.choice, Quot.sound |
| C113 | `Verif.Lookups.C113_case` | propext, Quot.sound |
| C113 | `Verif.Lookups.C113_outside` | propext, Quot.sound |
| C114 | `Verif.MP.C114_exactly` | propext, Classical.choice, Quot.sound |
| C114 | `Verif.MP.C114_delivered` | propext, Classical.choice, Quot.sound |
| C114 | `Verif.MP.C114_unique` | propext, Classical.choice, Quot.sound |
| C114 | `Verif.MP.C114_written` | propext, Classical.choice, Quot.sound |
| C114 | `Verif.MP.C114_lenient` | propext, Classical.choice, Quot.sound |
| C114 | `Verif.MP.C114_stream` | propext, Classical.choice, Quot.sound |
| C115 | `Verif.MP.C115_exactly` | propext, Quot.sound |
| C115 | `Verif.MP.C115_delivered` | propext, Quot.sound |
| C115 | `Verif.MP.C115_unique` | propext, Quot.sound |
| C115 | `Verif.MP.C115_raw` | propext, Classical.choice, Quot.sound |
| C115 | `Verif.MP.C115_written` | propext, Classical.choice, Quot.sound |
| C115 | `Verif.MP.C115_stream` | propext, Quot.sound |
| C116 | `Verif.Wire.C116_exactly` | propext, Classical.choice, Quot.sound |
| C116 | `Verif.Wire.C116_published` | propext, Classical.choice, Quot.sound |
| C116 | `Verif.Wire.C116_next` | propext, Classical.choice, Quot.sound |
| C116 | `Verif.Wire.C116_store` | propext, Classical.choice, Quot.sound |
| C116 | `Verif.Wire.C116_lenient` | propext, Classical.choice, Quot.sound |
| C116 | `Verif.Wire.C116_liberties` | propext, Quot.sound |
| C116 | `Verif.Wire.C116_all_taken` | propext, Classical.choice, Quot.sound |
| C116 | `Verif.Wire.C116_each_taken` | propext, Classical.choice, Quot.sound |
| C117 | `Verif.Mig.C117_msgpack` | propext, Classical.choice, Quot.sound |
| C117 | `Verif.Mig.C117_msgpack_not` | propext, Classical.choice, Quot.sound |
| C117 | `Verif.Mig.C117_protobuf` | propext, Quot.sound |
| C117 | `Verif.Mig.C117_frame` | propext, Classical.choice, Quot.sound |
| C117 | `Verif.Mig.C117_end` | propext, Quot.sound |
| C117 | `Verif.Mig.C117_stopped` | propext, Quot.sound |
| C117 | `Verif.Mig.C117_panics_iff` | propext, Classical.choice, Quot.sound |
| C117 | `Verif.Mig.C117_ends` | propext, Classical.choice, Quot.sound |
| C118 | `Verif.Mig.C118_delivered` | propext, Classical.choice, Quot.sound |
| C118 | `Verif.Mig.C118_same` | propext, Classical.choice, Quot.sound |
| C118 | `Verif.Mig.C118_can` | propext, Classical.choice, Quot.sound |
| C118 | `Verif.Mig.C118_zero` | propext, Classical.choice, Quot.sound |
| C119 | `Verif.Policy.C119_resolution` | propext, Classical.choice, Quot.sound |
| C119 | `Verif.Policy.C119_storage` | propext, Classical.choice, Quot.sound |
| C119 | `Verif.Policy.C119_policy` | propext, Classical.choice, Quot.sound |
| C119 | `Verif.Policy.C119_must_parse` | propext, Classical.choice, Quot.sound |
| C119 | `Verif.Policy.C119_must_compress` | propext, Classical.choice, Quot.sound |
| C119 | `Verif.Policy.C119_must_transform` | propext |
| C12 | `Verif.Meta.C12_staged_roundtrip` | propext, Classical.choice, Quot.sound |
| C12 | `Verif.Meta.C12_pipeline_metadata_roundtrip` | propext, Classical.choice, Quot.sound |
| C12 | `Verif.Meta.C12_no_history` | propext, Classical.choice, Quot.sound |
| C12 | `Verif.Meta.C12_forward_roundtrip` | propext, Classical.choice, Quot.sound |
| C12 | `Verif.Meta.C12_timed_roundtrip` | propext |
| C12 | `Verif.Meta.C12_forward_count_truncated` | propext |
| C12 | `Verif.Meta.C12_equal_iff` | propext, Classical.choice, Quot.sound |
| C120 | `Verif.NsOpts.C120_values_partial` | propext, Classical.choice, Quot.sound |
| C120 | `Verif.NsOpts.C120_configured` | propext, Classical.choice, Quot.sound |
| C120 | `Verif.NsOpts.C120_assign` | propext, Classical.choice, Quot.sound |
| C120 | `Verif.NsOpts.C120_violated` | propext, Quot.sound |
| C13 | `Verif.Meta.C13_clone_equal_iff` | propext, Classical.choice, Quot.sound |
| C13 | `Verif.Meta.C13_violated` | propext |
| C13 | `Verif.Meta.C13_clone_partial` | propext, Classical.choice, Quot.sound |
| C13 | `Verif.Meta.C13_clone_rest_partial` | propext, Classical.choice, Quot.sound |
| C14 | `Verif.Meta.C14_pipelines` | propext, Classical.choice, Quot.sound |
| C14 | `Verif.Meta.C14_outcomes` | propext, Classical.choice, Quot.sound |
| C14 | `Verif.Meta.C14_invalid_value` | propext |
| C15 | `Verif.Meta.C15_staged` | propext, Classical.choice, Quot.sound |
| C15 | `Verif.Meta.C15_default_iff` | propext, Quot.sound |
| C15 | `Verif.Meta.C15_drop_recognised` | propext, Classical.choice, Quot.sound |
| C16 | `Verif.PIter.C16_partial` | propext, Classical.choice, Quot.sound |
| C16 | `Verif.PIter.C16_sequence_partial` | propext, Classical.choice, Quot.sound |
| C16 | `Verif.PIter.C16_violation` | propext, Classical.choice, Quot.sound |
| C16 | `Verif.PIter.C16_exact` | propext, Classical.choice, Quot.sound |
| C17 | `Verif.PIter.C17_stream` | propext, Classical.choice, Quot.sound |
| C17 | `Verif.PIter.C17_truncated` | propext, Classical.choice, Quot.sound |
| C17 | `Verif.PBuf.C17_encoder` | propext, Classical.choice, Quot.sound |
| C17 | `Verif.PIter.C17_zero_sign` | propext, Classical.choice, Quot.sound |
| C17 | `Verif.PIter.C17_cut_as_end` | propext, Classical.choice, Quot.sound |
| C18 | `Verif.PIter.C18_outcome` | propext, Quot.sound |
| C18 | `Verif.PIter.C18_stopped` | propext |
| C18 | `Verif.PIter.C18_stopped_forever` | propext, Quot.sound |
| C18 | `Verif.PIter.C18_violation_negative` | propext, Quot.sound |
| C18 | `Verif.PIter.C18_violation_length` | propext, Quot.sound |
| C18 | `Verif.PIter.C18_partial` | propext, Classical.choice, Quot.sound |
| C18 | `Verif.PIter.C18_terminates` | propext, Quot.sound |
| C18 | `Verif.PIter.C18_panics_iff` | propext, Classical.choice, Quot.sound |
| C18 | `Verif.PIter.C18_violation_odd` | propext, Classical.choice, Quot.sound |
| C19 | `Verif.PBuf.C19_step` | propext, Classical.choice, Quot.sound |
| C19 | `Verif.PBuf.C19_run` | propext, Classical.choice, Quot.sound |
| C19 | `Verif.PBuf.C19_alone` | propext, Classical.choice, Quot.sound |
| C19 | `Verif.PBuf.C19_relinquish` | propext, Classical.choice, Quot.sound |
| C20 | `Verif.PBuf.C20_owner` | propext, Classical.choice, Quot.sound |
| C20 | `Verif.PBuf.C20_handed_over` | propext, Classical.choice, Quot.sound |
| C20 | `Verif.PBuf.C20_close_twice` | propext, Classical.choice, Quot.sound |
| C20 | `Verif.PBuf.C20_copied` | propext, Quot.sound |
| C20 | `Verif.PBuf.C20_none_lost` | propext, Classical.choice, Quot.sound |
| C20 | `Verif.PBuf.C20_all_back` | propext, Classical.choice, Quot.sound |
| C20 | `Verif.PBuf.C20_read` | propext, Classical.choice, Quot.sound |
| C21 | `Verif.MP.C21_roundtrip` | propext, Classical.choice, Quot.sound |
| C21 | `Verif.MP.C21_bare` | propext, Classical.choice, Quot.sound |
| C21 | `Verif.MP.C21_cut_is_eof` | propext, Classical.choice, Quot.sound |
| C21 | `Verif.MP.std_laws` | propext, Classical.choice, Quot.sound |
| C21 | `Verif.MP.C21_closed` | propext, Quot.sound |
| C21 | `Verif.MP.C21_short` | propext, Quot.sound |
| C22 | `Verif.MP.C22_stream` | propext, Classical.choice, Quot.sound |
| C22 | `Verif.MP.C22_extra_fields` | propext, Classical.choice, Quot.sound |
| C22 | `Verif.MP.C22_ignored` | propext, Classical.choice, Quot.sound |
| C22 | `Verif.MP.C22_rejected` | propext |
| C22 | `Verif.MP.C23_stream` | propext, Quot.sound |
| C23 | `Verif.MP.C23_roundtrip` | propext, Classical.choice, Quot.sound |
| C23 | `Verif.MP.C23_stream` | propext, Quot.sound |
| C23 | `Verif.MP.C23_access` | propext, Classical.choice, Quot.sound |
| C23 | `Verif.MP.C23_first` | propext, Quot.sound |
| C23 | `Verif.MP.C23_reset` | propext, Quot.sound |
| C24 | `Verif.MP.C24_partial` | propext, Classical.choice, Quot.sound |
| C24 | `Verif.MP.C24_or_error` | propext, Classical.choice, Quot.sound |
| C24 | `Verif.MP.C24_reset` | none |
| C24 | `Verif.MP.C24_violation` | propext, Classical.choice, Quot.sound |
| C24 | `Verif.MP.C24_first` | propext, Quot.sound |
| C24 | `Verif.MP.C24_exact` | propext, Classical.choice, Quot.sound |
| C24 | `Verif.MP.C24_order_iff` | propext, Classical.choice, Quot.sound |
| C25 | `Verif.MP.C25_partial` | propext, Classical.choice, Quot.sound |
| C25 | `Verif.MP.C25_stale` | propext, Classical.choice, Quot.sound |
| C25 | `Verif.MP.C25_stale_reset` | propext, Quot.sound |
| C25 | `Verif.MP.C25_closed` | propext, Quot.sound |
| C25 | `Verif.MP.C25_violation` | propext, Classical.choice, Quot.sound |
| C25 | `Verif.MP.C25_iff` | propext, Classical.choice, Quot.sound |
| C26 | `Verif.Mig.C26_stream` | propext, Classical.choice, Quot.sound |
| C26 | `Verif.Mig.C26_partial` | propext, Classical.choice, Quot.sound |
| C26 | `Verif.Mig.C26_violation_bare` | propext, Classical.choice, Quot.sound |
| C26 | `Verif.Mig.C26_violation_even` | propext, Classical.choice, Quot.sound |
| C26 | `Verif.Mig.C26_violation_odd` | propext, Classical.choice, Quot.sound |
| C26 | `Verif.Mig.C26_closed_panics` | propext, Quot.sound |
| C26 | `Verif.Mig.C26_iff` | propext, Classical.choice, Quot.sound |
| C27 | `Verif.Mig.C27_groups` | propext, Classical.choice, Quot.sound |
| C27 | `Verif.Mig.C27_staged` | propext, Classical.choice, Quot.sound |
| C27 | `Verif.Mig.C27_pairs` | propext, Classical.choice, Quot.sound |
| C28 | `Verif.Flt.C28_accepts_iff` | propext, Classical.choice, Quot.sound |
| C28 | `Verif.Flt.C28_exact_partial` | propext, Classical.choice, Quot.sound |
| C28 | `Verif.Flt.C28_committed` | propext, Classical.choice, Quot.sound |
| C28 | `Verif.Flt.C28_committed_of` | propext, Classical.choice, Quot.sound |
| C28 | `Verif.Flt.C28_sound` | propext, Classical.choice, Quot.sound |
| C28 | `Verif.Flt.C28_around_prefix_and_suffix` | propext, Classical.choice, Quot.sound |
| C28 | `Verif.Flt.C28_overlap_violation` | propext, Classical.choice, Quot.sound |
| C28 | `Verif.Flt.C28_alternatives_violation` | propext, Classical.choice, Quot.sound |
| C28 | `Verif.Flt.C28_empty_alternative_violation` | propext, Classical.choice, Quot.sound |
| C29 | `Verif.Flt.C29_construction_never_panics` | propext, Classical.choice, Quot.sound |
| C29 | `Verif.Flt.C29_matching_never_panics` | propext, Classical.choice, Quot.sound |
| C29 | `Verif.Flt.C29_multi_filters` | propext, Classical.choice, Quot.sound |
| C30 | `Verif.TagsFlt.C30_conjunction` | propext, Classical.choice, Quot.sound |
| C30 | `Verif.TagsFlt.C30_disjunction` | propext, Classical.choice, Quot.sound |
| C30 | `Verif.TagsFlt.C30_m3` | propext, Classical.choice, Quot.sound |
| C30 | `Verif.TagsFlt.C30_map_order_irrelevant` | propext, Classical.choice, Quot.sound |
| C30 | `Verif.TagsFlt.C30_unsplit` | propext, Classical.choice, Quot.sound |
| C31 | `Verif.TagsFlt.C31_parse_iff` | propext, Quot.sound |
| C31 | `Verif.TagsFlt.C31_roundtrip` | propext, Quot.sound |
| C31 | `Verif.TagsFlt.C31_whitespace` | propext, Quot.sound |
| C31 | `Verif.TagsFlt.C31_validate_iff` | propext, Classical.choice, Quot.sound |
| C31 | `Verif.TagsFlt.C31_validated_builds` | propext, Classical.choice, Quot.sound |
| C31 | `Verif.TagsFlt.C31_spaces` | propext, Classical.choice, Quot.sound |
| C32 | `Verif.Id.C32_parse_back` | propext, Classical.choice, Quot.sound |
| C32 | `Verif.Id.C32_order_independent` | propext, Classical.choice, Quot.sound |
| C32 | `Verif.Id.C32_injective` | propext, Classical.choice, Quot.sound |
| C32 | `Verif.Id.C32_detection` | propext, Classical.choice, Quot.sound |
| C32 | `Verif.Id.C32_separator_needed` | propext, Classical.choice, Quot.sound |
| C33 | `Verif.Id.C33_iteration_total` | propext, Classical.choice, Quot.sound |
| C33 | `Verif.Id.C33_parse_back` | propext, Classical.choice, Quot.sound |
| C33 | `Verif.Id.C33_tag_lookup` | propext, Classical.choice, Quot.sound |
| C33 | `Verif.Id.C33_total` | propext, Classical.choice, Quot.sound |
| C33 | `Verif.Id.C33_split_iff` | propext, Classical.choice, Quot.sound |
| C34 | `Verif.Active.C34_active_snapshot` | propext, Classical.choice, Quot.sound |
| C34 | `Verif.Active.C34_none` | propext, Classical.choice, Quot.sound |
| C34 | `Verif.Active.C34_rule_times` | propext, Quot.sound |
| C34 | `Verif.Active.C34_index_exact` | propext, Classical.choice, Quot.sound |
| C34 | `Verif.Active.C34_next_change` | propext, Classical.choice, Quot.sound |
| C35 | `Verif.Active.C35_forward` | propext, Classical.choice, Quot.sound |
| C35 | `Verif.Active.C35_reverse` | propext, Classical.choice, Quot.sound |
| C36 | `Verif.Active.C36_range_agrees_partial` | propext, Classical.choice, Quot.sound |
| C36 | `Verif.Active.C36_stable_filters_partial` | propext, Classical.choice, Quot.sound |
| C36 | `Verif.Active.C36_violated` | propext, Classical.choice, Quot.sound |
| C36 | `Verif.Active.C36_violated_by_deletion` | propext, Classical.choice, Quot.sound |
| C36 | `Verif.Active.C36_exact` | propext, Classical.choice, Quot.sound |
| C36 | `Verif.Active.C36_now_or_later` | propext, Classical.choice, Quot.sound |
| C37 | `Verif.Active.C37_expiry` | propext, Classical.choice, Quot.sound |
| C37 | `Verif.Active.C37_same_until_expiry` | propext, Classical.choice, Quot.sound |
| C37 | `Verif.Active.C37_unexpired` | propext, Classical.choice, Quot.sound |
| C38 | `Verif.Active.C38_ordered` | propext, Classical.choice, Quot.sound |
| C38 | `Verif.Active.C38_count` | propext, Classical.choice, Quot.sound |
| C39 | `Verif.Active.C39_ids` | propext, Classical.choice, Quot.sound |
| C39 | `Verif.Active.C39_sorted` | propext, Classical.choice, Quot.sound |
| C39 | `Verif.Active.C39_history_partial` | propext, Classical.choice, Quot.sound |
| C39 | `Verif.Active.C39_active_partial` | propext, Classical.choice, Quot.sound |
| C39 | `Verif.Active.C39_m3_partial` | propext, Classical.choice, Quot.sound |
| C39 | `Verif.Active.C39_violated` | propext, Classical.choice, Quot.sound |
| C39 | `Verif.Active.C39_together` | propext, Classical.choice, Quot.sound |
| C39 | `Verif.Active.C39_entries` | propext, Classical.choice, Quot.sound |
| C39 | `Verif.Active.C39_together_model` | propext, Classical.choice, Quot.sound |
| C39 | `Verif.Active.C39_one_iff` | propext, Classical.choice, Quot.sound |
| C39 | `Verif.Active.C39_one_partial` | propext, Classical.choice, Quot.sound |
| C40 | `Verif.Active.C40_distinct` | propext, Classical.choice, Quot.sound |
| C40 | `Verif.Active.C40_complete` | propext, Classical.choice, Quot.sound |
| C40 | `Verif.Active.C40_sound` | propext, Classical.choice, Quot.sound |
| C40 | `Verif.Active.C40_default` | propext, Classical.choice, Quot.sound |
| C40 | `Verif.Active.C40_rollup_pipeline` | propext, Classical.choice, Quot.sound |
| C41 | `Verif.Active.C41_dropped_iff_partial` | propext, Classical.choice, Quot.sound |
| C41 | `Verif.Active.C41_other_mapping_partial` | propext, Classical.choice, Quot.sound |
| C41 | `Verif.Active.C41_violated` | propext, Classical.choice, Quot.sound |
| C42 | `Verif.Active.C42_must_drop` | propext, Classical.choice, Quot.sound |
| C43 | `Verif.Active.C43_identifier` | propext, Quot.sound |
| C43 | `Verif.Active.C43_applies` | propext, Quot.sound |
| C43 | `Verif.Active.C43_m3` | propext, Classical.choice, Quot.sound |
| C44 | `Verif.Active.C44_reverse_partial` | propext, Classical.choice, Quot.sound |
| C44 | `Verif.Active.C44_violated` | propext, Classical.choice, Quot.sound |
| C44 | `Verif.Active.C44_exact` | propext, Classical.choice, Quot.sound |
| C45 | `Verif.Active.C45_plain` | propext, Classical.choice, Quot.sound |
| C45 | `Verif.Active.C45_range` | propext, Classical.choice, Quot.sound |
| C46 | `Verif.RuleSet.C46_past_unchanged` | propext, Classical.choice, Quot.sound |
| C46 | `Verif.RuleSet.C46_delay` | propext, Classical.choice, Quot.sound |
| C47 | `Verif.RuleSet.C47_mapping_stops` | propext, Classical.choice, Quot.sound |
| C47 | `Verif.RuleSet.C47_rollup_stops` | propext, Classical.choice, Quot.sound |
| C47 | `Verif.RuleSet.C47_delete_all` | propext, Classical.choice, Quot.sound |
| C47 | `Verif.RuleSet.C47_delete_fails` | propext, Quot.sound |
| C47 | `Verif.RuleSet.C47_mapping_revives` | propext, Quot.sound |
| C47 | `Verif.RuleSet.C47_rollup_revives` | propext, Quot.sound |
| C48 | `Verif.RuleSet.C48_unique_ids` | propext, Classical.choice, Quot.sound |
| C48 | `Verif.RuleSet.C48_append_only` | propext, Classical.choice, Quot.sound |
| C48 | `Verif.RuleSet.C48_failed_edit` | propext, Quot.sound |
| C49 | `Verif.RuleSet.C49_names_partial` | propext, Quot.sound |
| C49 | `Verif.RuleSet.C49_violated` | propext, Classical.choice, Quot.sound |
| C49 | `Verif.RuleSet.C49_violated_by_revival` | propext, Classical.choice, Quot.sound |
| C49 | `Verif.RuleSet.C49_edit_exact` | propext, Classical.choice, Quot.sound |
| C49 | `Verif.RuleSet.C49_exact` | propext, Classical.choice, Quot.sound |
| C50 | `Verif.RuleSet.C50_prefix_partial` | propext, Classical.choice, Quot.sound |
| C50 | `Verif.RuleSet.C50_violated` | propext, Classical.choice, Quot.sound |
| C50 | `Verif.RuleSet.C50_unchanged_iff` | propext, Classical.choice, Quot.sound |
| C51 | `Verif.RuleSet.C51_reload_partial` | propext, Classical.choice, Quot.sound |
| C51 | `Verif.RuleSet.C51_violated` | propext, Classical.choice, Quot.sound |
| C51 | `Verif.RuleSet.C51_loaded` | propext, Classical.choice, Quot.sound |
| C51 | `Verif.RuleSet.C51_filters` | propext, Classical.choice, Quot.sound |
| C51 | `Verif.RuleSet.C46_reloaded` | propext, Classical.choice, Quot.sound |
| C51 | `Verif.RuleSet.C47_mapping_reloaded` | propext, Classical.choice, Quot.sound |
| C51 | `Verif.RuleSet.C47_rollup_reloaded` | propext, Classical.choice, Quot.sound |
| C51 | `Verif.RuleSet.C51_loss_iff` | propext, Classical.choice, Quot.sound |
| C52 | `Verif.RuleSet.C52_accepted_partial` | propext, Classical.choice, Quot.sound |
| C52 | `Verif.RuleSet.C52_each_validated_partial` | propext, Classical.choice, Quot.sound |
| C52 | `Verif.RuleSet.C52_violation_hidden` | propext, Classical.choice, Quot.sound |
| C52 | `Verif.RuleSet.C52_violation_targets` | propext, Classical.choice, Quot.sound |
| C53 | `Verif.Val.C53_accepts_iff` | propext, Classical.choice, Quot.sound |
| C53 | `Verif.Val.C53_errors` | propext, Classical.choice, Quot.sound |
| C53 | `Verif.Val.C53_characters` | propext, Classical.choice, Quot.sound |
| C54 | `Verif.NS.C54_add` | propext, Classical.choice, Quot.sound |
| C54 | `Verif.NS.C54_delete` | propext, Classical.choice, Quot.sound |
| C54 | `Verif.NS.C54_refines` | propext, Classical.choice, Quot.sound |
| C54 | `Verif.NS.C54_names_unique` | propext, Classical.choice, Quot.sound |
| C54 | `Verif.NS.C54_alternates` | propext, Classical.choice, Quot.sound |
| C54 | `Verif.NS.C54_grows` | propext, Quot.sound |
| C54 | `Verif.NS.C54_outcomes` | propext, Classical.choice, Quot.sound |
| C55 | `Verif.NS.C55_roundtrip` | propext, Quot.sound |
| C55 | `Verif.NS.C55_exact` | propext, Classical.choice, Quot.sound |
| C55 | `Verif.NS.C55_loaded` | propext, Quot.sound |
| C55 | `Verif.NS.C55_clone` | propext, Quot.sound |
| C55 | `Verif.NS.C55_views` | propext, Quot.sound |
| C56 | `Verif.Store.C56_write` | propext, Quot.sound |
| C56 | `Verif.Store.C56_write_all` | propext, Quot.sound |
| C56 | `Verif.Store.C56_no_lost_update` | propext, Classical.choice, Quot.sound |
| C56 | `Verif.Store.C56_no_lost_update_all` | propext, Classical.choice, Quot.sound |
| C56 | `Verif.Store.C56_chain` | propext, Classical.choice, Quot.sound |
| C56 | `Verif.Store.C56_second_is_stale` | propext, Classical.choice, Quot.sound |
| C56 | `Verif.Store.C56_validated` | propext, Quot.sound |
| C57 | `Verif.Store.C57_named_versions` | propext, Classical.choice, Quot.sound |
| C57 | `Verif.Store.C57_deleted` | propext, Classical.choice, Quot.sound |
| C58 | `Verif.Cache.C58_cached_current` | propext, Classical.choice, Quot.sound |
| C58 | `Verif.Cache.C58_lookup` | propext, Classical.choice, Quot.sound |
| C58 | `Verif.Cache.C58_answers` | none |
| C58 | `Verif.Cache.C58_refresh_clears` | propext, Quot.sound |
| C59 | `Verif.Cache.C59_existing_partial` | propext, Classical.choice, Quot.sound |
| C59 | `Verif.Cache.C59_rollups_partial` | propext, Classical.choice, Quot.sound |
| C59 | `Verif.Cache.C59_lookup_partial` | propext, Classical.choice, Quot.sound |
| C59 | `Verif.Cache.C59_violated` | propext, Classical.choice, Quot.sound |
| C59 | `Verif.Cache.C59_earlier_start` | propext, Classical.choice, Quot.sound |
| C60 | `Verif.Cache.C60_consistent` | propext, Classical.choice, Quot.sound |
| C60 | `Verif.Cache.C60_removed` | propext, Classical.choice, Quot.sound |
| C60 | `Verif.Cache.C60_evict` | propext, Classical.choice, Quot.sound |
| C60 | `Verif.Cache.C60_bounded` | propext, Classical.choice, Quot.sound |
| C60 | `Verif.Cache.C60_recency` | propext, Classical.choice, Quot.sound |
| C60 | `Verif.Cache.C60_fresh` | propext, Classical.choice, Quot.sound |
| C61 | `Verif.Cache.C61_refines` | propext, Classical.choice, Quot.sound |
| C61 | `Verif.Cache.C61_removed` | propext |
| C61 | `Verif.Cache.C61_misuse` | propext |
| C62 | `Verif.Cache.C62_gone_partial` | propext, Classical.choice, Quot.sound |
| C62 | `Verif.Cache.C62_orphan` | propext, Classical.choice, Quot.sound |
| C62 | `Verif.Cache.C62_orphans_partial` | propext, Classical.choice, Quot.sound |
| C62 | `Verif.Cache.C62_evicted_partial` | propext, Classical.choice, Quot.sound |
| C62 | `Verif.Cache.C62_pass` | propext, Classical.choice, Quot.sound |
| C62 | `Verif.Cache.C62_lost_iff` | propext, Classical.choice, Quot.sound |
| C62 | `Verif.Cache.C62_careful_partial` | propext, Classical.choice, Quot.sound |
| C63 | `Verif.Matcher.C63_in_update` | propext, Classical.choice, Quot.sound |
| C63 | `Verif.Matcher.C63_absent` | propext, Classical.choice, Quot.sound |
| C63 | `Verif.Matcher.C63_callbacks` | propext, Classical.choice, Quot.sound |
| C63 | `Verif.Matcher.C63_updated` | propext, Classical.choice, Quot.sound |
| C63 | `Verif.Matcher.C63_history` | propext, Classical.choice, Quot.sound |
| C63 | `Verif.Matcher.C63_new` | propext, Classical.choice, Quot.sound |
| C63 | `Verif.Matcher.C63_unknown` | propext, Quot.sound |
| C64 | `Verif.Tf.C64_skips` | propext, Classical.choice, Quot.sound |
| C64 | `Verif.Tf.C64_rate_partial` | propext, Classical.choice, Quot.sound |
| C64 | `Verif.Tf.C64_empty_iff` | propext, Classical.choice, Quot.sound |
| C64 | `Verif.Tf.C64_never_negative` | propext, Classical.choice, Quot.sound |
| C64 | `Verif.Tf.C64_exact` | propext, Classical.choice, Quot.sound |
| C64 | `Verif.Tf.C64_absolute` | propext |
| C64 | `Verif.Tf.C64_violation_overflow` | propext |
| C64 | `Verif.Tf.C64_violation_infinite` | propext, Classical.choice, Quot.sound |
| C64 | `Verif.Tf.C64_wrapped` | propext |
| C64 | `Verif.Tf.C64_arithmetic` | propext, Quot.sound |
| C64 | `Verif.Tf.C64_flat` | propext, Classical.choice, Quot.sound |
| C64 | `Verif.Tf.C64_order` | propext, Classical.choice, Quot.sound |
| C65 | `Verif.Msg.C65_toProto` | propext, Classical.choice, Quot.sound |
| C65 | `Verif.Msg.C65_fromProto` | propext, Classical.choice, Quot.sound |
| C65 | `Verif.Msg.C65_no_history` | propext, Classical.choice, Quot.sound |
| C65 | `Verif.Msg.C65_roundtrip` | propext, Classical.choice, Quot.sound |
| C65 | `Verif.Msg.C65_canon_equal` | propext, Classical.choice, Quot.sound |
| C65 | `Verif.Msg.C65_union` | none |
| C65 | `Verif.Msg.C65_parse` | propext, Classical.choice, Quot.sound |
| C66 | `Verif.Active.C66_existing` | propext, Classical.choice, Quot.sound |
| C66 | `Verif.Active.C66_rollups` | propext, Classical.choice, Quot.sound |
| C66 | `Verif.Active.C66_rollups_same` | propext, Classical.choice, Quot.sound |
| C66 | `Verif.Active.C66_range` | propext, Classical.choice, Quot.sound |
| C66 | `Verif.Active.C66_range_rollups` | propext, Classical.choice, Quot.sound |
| C66 | `Verif.Active.C66_range_twice` | propext, Classical.choice, Quot.sound |
| C67 | `Verif.NsVal.C67_in_force` | propext |
| C67 | `Verif.NsVal.C67_follows` | propext |
| C67 | `Verif.NsVal.C67_closed` | propext |
| C67 | `Verif.NsVal.C67_close_returns` | propext, Quot.sound |
| C67 | `Verif.NsVal.C67_static` | propext, Classical.choice, Quot.sound |
| C68 | `Verif.RuleSet.C68_history` | propext, Classical.choice, Quot.sound |
| C68 | `Verif.RuleSet.C68_latest_partial` | propext, Classical.choice, Quot.sound |
| C68 | `Verif.RuleSet.C68_deterministic` | propext, Classical.choice, Quot.sound |
| C68 | `Verif.RuleSet.C68_violated` | propext, Classical.choice, Quot.sound |
| C68 | `Verif.RuleSet.C68_exact` | propext, Classical.choice, Quot.sound |
| C69 | `Verif.RuleHeap.C69_independent` | propext, Classical.choice, Quot.sound |
| C69 | `Verif.RuleHeap.C69_original_unchanged` | propext, Classical.choice, Quot.sound |
| C69 | `Verif.RuleSet.C69_equal` | propext, Quot.sound |
| C70 | `Verif.Matcher.C70_match` | propext, Classical.choice, Quot.sound |
| C70 | `Verif.Matcher.C70_rules` | propext, Classical.choice, Quot.sound |
| C70 | `Verif.Matcher.C70_default` | propext |
| C70 | `Verif.Matcher.C70_m3_namespace` | propext, Classical.choice, Quot.sound |
| C71 | `Verif.RuleHeap.C71_frozen_partial` | propext, Classical.choice, Quot.sound |
| C71 | `Verif.RuleHeap.C71_violated` | propext, Classical.choice, Quot.sound |
| C71 | `Verif.RuleHeap.C71_exact` | propext, Classical.choice, Quot.sound |
| C72 | `Verif.RuleSet.C72_add_mapping` | propext, Quot.sound |
| C72 | `Verif.RuleSet.C72_update_mapping` | propext, Quot.sound |
| C72 | `Verif.RuleSet.C72_delete_mapping` | propext, Quot.sound |
| C72 | `Verif.RuleSet.C72_add_rollup` | propext, Quot.sound |
| C72 | `Verif.RuleSet.C72_update_rollup` | propext, Quot.sound |
| C72 | `Verif.RuleSet.C72_delete_rollup` | propext, Quot.sound |
| C72 | `Verif.RuleSet.C72_accepted` | propext, Quot.sound |
| C72 | `Verif.RuleSet.C72_delete_revive` | propext, Quot.sound |
| C73 | `Verif.Rules.C73_convert` | propext, Classical.choice, Quot.sound |
| C73 | `Verif.Rules.C73_roundtrip` | propext, Classical.choice, Quot.sound |
| C73 | `Verif.Rules.C73_mapping` | propext, Classical.choice, Quot.sound |
| C73 | `Verif.Rules.C73_rollup_target` | propext, Classical.choice, Quot.sound |
| C74 | `Verif.Wire.C74_ignored` | propext, Classical.choice, Quot.sound |
| C74 | `Verif.Wire.C74_appended` | propext, Classical.choice, Quot.sound |
| C74 | `Verif.Wire.C74_prepended` | propext, Classical.choice, Quot.sound |
| C74 | `Verif.PIter.C74_stream` | propext, Classical.choice, Quot.sound |
| C75 | `Verif.MP.C75_next_partial` | propext, Quot.sound |
| C75 | `Verif.MP.C75_stream_partial` | propext, Quot.sound |
| C75 | `Verif.MP.C75_believed` | propext, Quot.sound |
| C75 | `Verif.MP.C75_violation` | propext, Classical.choice, Quot.sound |
| C75 | `Verif.MP.C75_zeros_partial` | propext, Quot.sound |
| C76 | `Verif.Val.C76_history` | propext, Classical.choice, Quot.sound |
| C76 | `Verif.Val.C76_partial` | propext, Classical.choice, Quot.sound |
| C76 | `Verif.Val.C76_violation` | none |
| C77 | `Verif.Tf.C77_types` | propext, Classical.choice, Quot.sound |
| C78 | `Verif.HashMap.C78_no_delete_partial` | propext, Classical.choice, Quot.sound |
| C78 | `Verif.HashMap.C78_no_collision_partial` | propext, Classical.choice, Quot.sound |
| C78 | `Verif.HashMap.C78_own_values_partial` | propext, Classical.choice, Quot.sound |
| C78 | `Verif.HashMap.C78_violation_lost` | propext, Classical.choice, Quot.sound |
| C78 | `Verif.HashMap.C78_violation_back` | propext, Classical.choice, Quot.sound |
| C78 | `Verif.HashMap.C78_as_modelled_partial` | propext, Classical.choice, Quot.sound |
| C78 | `Verif.HashMap.C78_delete_exact` | propext, Classical.choice, Quot.sound |
| C79 | `Verif.Wire.C79_message` | propext, Classical.choice, Quot.sound |
| C79 | `Verif.Wire.C79_namespaces_message` | propext, Classical.choice, Quot.sound |
| C79 | `Verif.Wire.C79_ruleSet` | propext, Classical.choice, Quot.sound |
| C79 | `Verif.Wire.C79_namespaces` | propext, Classical.choice, Quot.sound |
| C79 | `Verif.Wire.C79_no_panic` | propext, Classical.choice, Quot.sound |
| C79 | `Verif.Wire.C79_injective` | propext, Classical.choice, Quot.sound |
| C79 | `Verif.Wire.C79_negative_type` | none |
| C79 | `Verif.Store.C79_store` | propext, Classical.choice, Quot.sound |
| C79 | `Verif.Store.C79_new_store` | propext, Classical.choice, Quot.sound |
| C79 | `Verif.Store.C79_missing` | propext, Quot.sound |
| C80 | `Verif.Val.C80_type_text` | propext, Classical.choice, Quot.sound |
| C80 | `Verif.Val.C80_types_fn` | propext, Classical.choice, Quot.sound |
| C80 | `Verif.Val.C80_options` | propext, Classical.choice, Quot.sound |
| C80 | `Verif.Val.C80_permitted` | propext, Classical.choice, Quot.sound |
| C80 | `Verif.Val.C80_permitted_range` | propext, Classical.choice, Quot.sound |
| C80 | `Verif.Val.C80_namespace` | propext, Classical.choice, Quot.sound |
| C81 | `Verif.Json.C81_text` | propext, Classical.choice, Quot.sound |
| C81 | `Verif.Json.C81_roundtrip` | propext, Classical.choice, Quot.sound |
| C81 | `Verif.Json.C81_writes_iff` | propext, Classical.choice, Quot.sound |
| C81 | `Verif.Json.C81_read` | propext, Classical.choice, Quot.sound |
| C81 | `Verif.Json.C81_over_older` | propext, Classical.choice, Quot.sound |
| C81 | `Verif.Json.C81_policies_partial` | propext, Classical.choice, Quot.sound |
| C81 | `Verif.Json.C81_violation_policy` | propext, Classical.choice, Quot.sound |
| C81 | `Verif.Json.C81_two_kinds` | propext, Classical.choice, Quot.sound |
| C81 | `Verif.Json.C81_form` | propext, Classical.choice, Quot.sound |
| C81 | `Verif.Json.C81_absent` | propext, Classical.choice, Quot.sound |
| C81 | `Verif.Json.C81_null` | propext, Classical.choice, Quot.sound |
| C81 | `Verif.Json.C81_spelling` | propext, Classical.choice, Quot.sound |
| C82 | `Verif.Agg.C82_made_iff` | propext, Classical.choice, Quot.sound |
| C82 | `Verif.Agg.C82_names` | propext, Classical.choice, Quot.sound |
| C82 | `Verif.Agg.C82_lookup` | propext, Classical.choice, Quot.sound |
| C82 | `Verif.Agg.C82_empty` | propext, Classical.choice, Quot.sound |
| C83 | `Verif.Agg.C83_kinds_partial` | propext, Classical.choice, Quot.sound |
| C83 | `Verif.Agg.C83_violation_timer` | propext, Classical.choice, Quot.sound |
| C83 | `Verif.Agg.C83_timer_exact` | propext, Classical.choice, Quot.sound |
| C84 | `Verif.RuleSet.C84_mapping_iff` | propext, Classical.choice, Quot.sound |
| C84 | `Verif.RuleSet.C84_target_iff` | propext, Classical.choice, Quot.sound |
| C84 | `Verif.RuleSet.C84_rollup_iff` | propext, Classical.choice, Quot.sound |
| C84 | `Verif.RuleSet.C84_equivalence` | propext, Classical.choice, Quot.sound |
| C84 | `Verif.RuleSet.C84_matches` | propext, Classical.choice, Quot.sound |
| C84 | `Verif.RuleSet.C84_reverse_matches` | propext, Classical.choice, Quot.sound |
| C84 | `Verif.RuleSet.C84_ignores_deletion` | propext, Classical.choice, Quot.sound |
| C85 | `Verif.Json.C85_order_partial` | propext, Classical.choice, Quot.sound |
| C85 | `Verif.Json.C85_canonical_partial` | propext, Classical.choice, Quot.sound |
| C85 | `Verif.Json.C85_rules` | propext, Quot.sound |
| C85 | `Verif.Json.C85_violation_cycle` | propext, Classical.choice, Quot.sound |
| C85 | `Verif.Json.C85_effect` | propext, Classical.choice, Quot.sound |
| C85 | `Verif.Json.C85_asym` | propext |
| C86 | `Verif.Active.C86_plain` | propext, Classical.choice, Quot.sound |
| C86 | `Verif.Active.C86_range_partial` | propext, Classical.choice, Quot.sound |
| C86 | `Verif.Active.C86_violated` | propext, Classical.choice, Quot.sound |
| C86 | `Verif.Active.C86_exact` | propext, Classical.choice, Quot.sound |
| C87 | `Verif.Deploy.C87_answers` | propext, Classical.choice, Quot.sound |
| C87 | `Verif.Deploy.C87_current` | propext, Classical.choice, Quot.sound |
| C87 | `Verif.Deploy.C87_state` | propext, Classical.choice, Quot.sound |
| C87 | `Verif.Deploy.C87_catches_up` | propext, Classical.choice, Quot.sound |
| C87 | `Verif.Deploy.C87_permitted` | propext, Classical.choice, Quot.sound |
| C88 | `Verif.RuleSet.C88_revalidated` | propext, Classical.choice, Quot.sound |
| C88 | `Verif.RuleSet.C88_rewritable` | propext, Classical.choice, Quot.sound |
| C88 | `Verif.RuleSet.C88_not_conversely` | propext, Classical.choice, Quot.sound |
| C89 | `Verif.Locks.C89_no_deadlock` | propext, Classical.choice, Quot.sound |
| C89 | `Verif.Locks.C89_ends` | propext, Classical.choice, Quot.sound |
| C89 | `Verif.Locks.C89_unlocks` | propext, Quot.sound |
| C89 | `Verif.Locks.C89_callback_outside` | propext, Quot.sound |
| C89 | `Verif.Locks.C89_unwatch_outside` | propext, Quot.sound |
| C90 | `Verif.Locks.C90_no_race` | propext, Quot.sound |
| C90 | `Verif.Locks.C90_guarded` | propext, Quot.sound |
| C91 | `Verif.Pools.C91_one_user` | propext, Classical.choice, Quot.sound |
| C91 | `Verif.Pools.C91_once_partial` | propext, Classical.choice, Quot.sound |
| C91 | `Verif.Pools.C91_violated` | propext, Classical.choice, Quot.sound |
| C91 | `Verif.Pools.C91_reset_needed` | propext, Quot.sound |
| C91 | `Verif.Pools.C91_again_exact` | propext, Classical.choice, Quot.sound |
| C92 | `Verif.Keys.C92_key` | propext, Classical.choice, Quot.sound |
| C92 | `Verif.Keys.C92_same` | propext, Classical.choice, Quot.sound |
| C92 | `Verif.Keys.C92_apart_iff` | propext, Classical.choice, Quot.sound |
| C92 | `Verif.Keys.C92_default` | propext, Classical.choice, Quot.sound |
| C92 | `Verif.Keys.C92_no_verb` | propext, Classical.choice, Quot.sound |
| C92 | `Verif.Keys.C92_twice` | propext, Classical.choice, Quot.sound |
| C93 | `Verif.Meta.C93_kept_partial` | propext, Classical.choice, Quot.sound |
| C93 | `Verif.Meta.C93_all_partial` | propext, Classical.choice, Quot.sound |
| C93 | `Verif.Meta.C93_now_partial` | propext, Classical.choice, Quot.sound |
| C93 | `Verif.Meta.C93_exact` | propext, Classical.choice, Quot.sound |
| C93 | `Verif.Active.C93_violated` | propext, Classical.choice, Quot.sound |
| C94 | `Verif.Active.C94_partial` | propext, Classical.choice, Quot.sound |
| C94 | `Verif.Active.C94_violated` | propext, Classical.choice, Quot.sound |
| C94 | `Verif.Active.C94_iff` | propext, Classical.choice, Quot.sound |
| C95 | `Verif.MetaMem.C95_partial` | propext, Classical.choice, Quot.sound |
| C95 | `Verif.MetaMem.C95_violated` | propext |
| C95 | `Verif.MetaMem.C95_violated_pipelines` | propext |
| C95 | `Verif.MetaMem.C95_violated_stages` | propext |
| C95 | `Verif.MetaMem.C95_again` | propext, Classical.choice, Quot.sound |
| C96 | `Verif.Shared.C96_new` | propext, Quot.sound |
| C96 | `Verif.Shared.C96_partial` | propext, Classical.choice, Quot.sound |
| C96 | `Verif.Shared.C96_iff` | propext, Classical.choice, Quot.sound |
| C96 | `Verif.Shared.C96_violated` | propext, Classical.choice, Quot.sound |
| C97 | `Verif.Cache.C97_ends` | propext, Classical.choice, Quot.sound |
| C97 | `Verif.Cache.C97_done` | propext, Classical.choice, Quot.sound |
| C97 | `Verif.Cache.C97_rests` | propext, Classical.choice, Quot.sound |
| C97 | `Verif.Cache.C97_close` | propext, Classical.choice, Quot.sound |
| C97 | `Verif.Cache.C97_after_close` | propext, Classical.choice, Quot.sound |
| C98 | `Verif.Sent.C98_metadatas` | propext, Classical.choice, Quot.sound |
| C98 | `Verif.Sent.C98_forwarded` | propext, Classical.choice, Quot.sound |
| C98 | `Verif.Sent.C98_encodes` | propext, Classical.choice, Quot.sound |
| C98 | `Verif.Sent.C98_stream` | propext, Classical.choice, Quot.sound |
| C98 | `Verif.Sent.C98_deployed` | propext, Classical.choice, Quot.sound |
| C98 | `Verif.Sent.C98_unread` | propext, Classical.choice, Quot.sound |
| C99 | `Verif.Opts.C99_values` | propext |
| C99 | `Verif.Opts.C99_kept` | propext, Classical.choice, Quot.sound |
| C99 | `Verif.Opts.C99_setting` | propext, Quot.sound |
| C99 | `Verif.Opts.C99_partial` | propext, Quot.sound |
| C99 | `Verif.Opts.C99_all_alike` | propext, Quot.sound |
| C99 | `Verif.Opts.C99_validator` | propext, Classical.choice, Quot.sound |
| C99 | `Verif.Opts.C99_violation` | propext, Classical.choice, Quot.sound |
| C99 | `Verif.Opts.C99_setters` | none |
