{"id": "C01", "title": "Aggregation ID round trip", "statement": "Compressing any list of valid aggregation types to an aggregation ID and reading the types back yields exactly the distinct types of the list in ascending order; compression fails exactly when the list contains an invalid type; two lists give the same ID exactly when they contain the same types.", "quantifier": "every finite list of aggregation types, of any length, in any order, with any repetitions", "why_tests_cant": "There are unboundedly many lists and 2^22 distinct type sets; tests sample a few literal lists.", "anchors": ["aggregation/id.go: CompressTypes, ID.Types", "aggregation/id_compress.go: Compress, Decompress", "aggregation/type.go: Type.IsValid"]}
{"id": "C02", "title": "Raw aggregation IDs from the wire are decoded faithfully or rejected", "statement": "For any 64-bit aggregation ID word: reading its types either succeeds with a list that compresses back to the same word, or fails, and it fails exactly when the word has a bit set that is not a valid aggregation type. Contains(t) is true exactly when t is valid and its bit is set; the ID is default exactly when no bit is set, and then the type list is empty.", "quantifier": "all 2^64 ID words and all aggregation type values", "why_tests_cant": "2^64 words cannot be enumerated.", "anchors": ["aggregation/id.go: ID.Contains, ID.IsDefault, ID.Types, ID.FromProto", "aggregation/id_compress.go: Decompress"]}
{"id": "C03", "title": "Aggregation types string form round trip", "statement": "For every non-empty list of valid aggregation types, parsing the printed form gives back the same list; parsing succeeds only on strings that are the printed form of a unique list.", "quantifier": "every non-empty list of valid types; every input string to the parser", "why_tests_cant": "Unbounded list length and unbounded strings.", "anchors": ["aggregation/type.go: Types.String, ParseTypes, ParseType"]}
{"id": "C04", "title": "Type-string options stay consistent under any sequence of setters", "statement": "After any sequence of option setters, the type string reported for each metric kind and aggregation type is the one implied by the current options alone (fixed names, quantile printer, transform), independent of the setter order; looking a type up by its reported string returns that type whenever the strings are pairwise distinct, and never returns a type with a different string.", "quantifier": "every sequence of setter calls with arbitrary arguments; every type and every byte string", "why_tests_cant": "Setter sequences are unbounded; tests call a few setters.", "anchors": ["aggregation/types_options.go: options setters, computeTypeStrings, typeFor, TypeStringFor*, TypeFor*"]}
{"id": "C05", "title": "Quantile extraction is exact", "statement": "The quantiles extracted from a list of aggregation types are exactly the quantiles of its quantile types, in order of first appearance, and contain no value twice whenever the list itself has no duplicate types.", "quantifier": "every list of aggregation types", "why_tests_cant": "Unbounded lists; the Median/P50 coincidence depends on position.", "anchors": ["aggregation/type.go: Types.PooledQuantiles, Type.Quantile"]}
{"id": "C06", "title": "Storage policy and policy text forms round trip", "statement": "Parsing the printed form of any storage policy (and of any policy with a non-empty aggregation ID or default one) yields an equal value, given only that the external duration printer/parser round-trips on the values used and that their output contains no separator characters.", "quantifier": "every window, precision, retention and aggregation ID", "why_tests_cant": "64-bit durations cannot be enumerated.", "anchors": ["policy/storage_policy.go: StoragePolicy.String, ParseStoragePolicy", "policy/policy.go: Policy.String, ParsePolicy", "policy/resolution.go: Resolution.String, ParseResolution", "policy/retention.go: Retention.String, ParseRetention"]}
{"id": "C07", "title": "Storage policy list equality ignores order and nothing else", "statement": "Equality of two storage policy lists holds exactly when one is a permutation of the other (so it is reflexive, symmetric and transitive), and the ordering used for sorting is a strict total order that agrees with field equality.", "quantifier": "all pairs (and triples) of storage policy lists of any length", "why_tests_cant": "Unbounded lists with duplicates.", "anchors": ["policy/storage_policy.go: StoragePolicies.Equal, ByResolutionAscRetentionDesc.Less"]}
{"id": "C08", "title": "Storage policy protobuf round trip, including into reused objects", "statement": "Converting any storage policy to its protobuf form and back yields the same policy, whatever the previous contents of the destination objects; nil or incomplete protobuf messages are rejected.", "quantifier": "all policies and all prior states of the destination", "why_tests_cant": "Reuse bugs depend on the previous value, which tests rarely vary.", "anchors": ["policy/storage_policy.go: ToProto, FromProto, NewStoragePolicyFromProto", "policy/resolution.go: ToProto, FromProto", "policy/retention.go: ToProto, FromProto"]}
{"id": "C09", "title": "Rollup operation identity", "statement": "Two rollup operations describe the same rollup exactly when they have the same new name and the same multiset of tags, regardless of tag order; this relation is an equivalence, and full equality additionally requires the same aggregation ID.", "quantifier": "all pairs of rollup operations with any number of tags, duplicates allowed", "why_tests_cant": "Unbounded tag lists and permutations.", "anchors": ["pipeline/type.go: RollupOp.SameTransform, RollupOp.Equal"]}
{"id": "C10", "title": "Pipeline clone and protobuf round trip", "statement": "Cloning a pipeline yields an equal pipeline; converting any pipeline whose operations carry valid types to protobuf and back yields an equal pipeline with sorted rollup tags; invalid operation types are rejected and never silently altered.", "quantifier": "all pipelines of any length over all operation kinds", "why_tests_cant": "Unbounded pipelines.", "anchors": ["pipeline/type.go: Pipeline.Clone, Pipeline.Proto, NewPipelineFromProto, OpUnion.*"]}
{"id": "C11", "title": "Applied pipeline protobuf round trip into dirty destinations", "statement": "Converting an applied pipeline to protobuf and back reproduces it exactly even when both the protobuf object and the destination pipeline are reused and hold arbitrary earlier contents of any length.", "quantifier": "all applied pipelines and all previous contents of both reused objects", "why_tests_cant": "The reuse path depends on relative lengths/capacities of old and new contents.", "anchors": ["pipeline/applied/type.go: Pipeline.ToProto, Pipeline.FromProto, OpUnion.ToProto, OpUnion.FromProto"]}
{"id": "C12", "title": "Metadata protobuf round trip into dirty destinations", "statement": "Pipeline metadata, staged metadatas, forward metadata and timed metadata survive a protobuf round trip unchanged, even when encoder-side and decoder-side objects are reused with arbitrary previous contents.", "quantifier": "all metadata values (with int32-representable forwarded counts) and all previous contents of reused objects", "why_tests_cant": "Reuse of slices makes the result depend on history.", "anchors": ["metadata/metadata.go: PipelineMetadata/PipelineMetadatas/Metadata/StagedMetadata(s)/ForwardMetadata/TimedMetadata ToProto, FromProto"]}
{"id": "C13", "title": "Cloned pipeline metadata equals its original", "statement": "The clone of any pipeline metadata (and of any list of them) is equal to the original.", "quantifier": "all pipeline metadatas, in particular those carrying a drop policy", "why_tests_cant": "A field missed by Clone only shows when that field is non-zero.", "anchors": ["metadata/metadata.go: PipelineMetadata.Clone, PipelineMetadatas.Clone, Equal"]}
{"id": "C14", "title": "Drop policies on a pipeline list", "statement": "Applying drop policies to a list of pipelines: if any pipeline must drop, or if there is at least one drop-if-only-match pipeline and every pipeline is a drop one, the result is the single drop pipeline and the call reports an effective drop; otherwise the result is exactly the pipelines without a drop policy, in their original order, and the call reports no effective drop.", "quantifier": "all lists of pipelines with any mix of drop policies", "why_tests_cant": "Unbounded lists and mixes; in-place removal while iterating.", "anchors": ["metadata/metadata.go: PipelineMetadatas.ApplyOrRemoveDropPolicies"]}
{"id": "C15", "title": "Drop policies on staged metadatas", "statement": "Applying drop policies to a list of staged metadatas removes exactly the stages whose drop is effective when some stage is kept, keeps the rest in order with their pipelines resolved, and reports a full drop with the earliest dropped stage only when every stage is dropped.", "quantifier": "all lists of staged metadatas", "why_tests_cant": "In-place deletion during backwards iteration; unbounded lists.", "anchors": ["metadata/metadata.go: StagedMetadatas.ApplyOrRemoveDropPolicies"]}
{"id": "C16", "title": "Decoded messages never leak state from earlier messages (protobuf)", "statement": "Decoding any sequence of protobuf messages with one iterator yields, for each message, exactly what a fresh decoder would yield for that message alone: no identifier, value, policy, pipeline step or metadata of an earlier message survives.", "quantifier": "every sequence of messages of all five kinds, any sizes", "why_tests_cant": "Leaks need a particular order of a longer message before a shorter one of the same kind.", "anchors": ["encoding/protobuf/unaggregated_iterator.go: Next, decodeMessage", "encoding/protobuf/reset.go", "metric/unaggregated/types.go: FromProto", "metric/aggregated/types.go: FromProto"]}
{"id": "C17", "title": "Length-prefixed stream framing round trip", "statement": "Encoding any sequence of messages with one encoder and decoding the bytes yields the same sequence and then end of stream; for any truncation of the byte stream the decoder yields exactly the messages wholly contained in the truncated part and then reports an error, never a wrong message.", "quantifier": "all message sequences, all message sizes up to the maximum, all truncation points", "why_tests_cant": "Unbounded sequences; every truncation point; varint length boundaries.", "anchors": ["encoding/protobuf/unaggregated_encoder.go: EncodeMessage, encodeMessageSize", "encoding/protobuf/unaggregated_iterator.go: Next, decodeSize, decodeMessage"]}
{"id": "C18", "title": "Protobuf iterator is robust on arbitrary bytes", "statement": "On any byte stream whatsoever the iterator terminates each Next call with either a message or a recorded error and never panics; after an error or Close every further Next returns false.", "quantifier": "all byte streams and all call sequences", "why_tests_cant": "The input space is all byte strings; a negative size needs a crafted prefix.", "anchors": ["encoding/protobuf/unaggregated_iterator.go: Next, decodeSize, decodeMessage, Close"]}
{"id": "C19", "title": "Encoder buffer behaves as an append-only byte log with truncation", "statement": "Under any sequence of encode, truncate, reset and relinquish calls the encoder's visible contents equal those of a simple byte list: encode appends one frame (or leaves the contents unchanged when the message is too large), truncate keeps a prefix or fails without effect, reset installs the given bytes, relinquish hands over the contents and leaves the encoder empty; growing the buffer never changes already encoded bytes.", "quantifier": "all operation sequences, all initial buffer sizes, all pool behaviours returning buffers of at least the requested size", "why_tests_cant": "Unbounded histories; growth happens only at particular sizes.", "anchors": ["encoding/protobuf/unaggregated_encoder.go: Len, Reset, Truncate, Relinquish, encodeMetricWithMetadatas", "encoding/protobuf/buffer.go: ensureBufferSize, allocate"]}
{"id": "C20", "title": "No byte buffer is ever owned twice", "statement": "Across any interleaving of encoder operations and closings of relinquished buffers, each pooled buffer is at any moment owned by at most one of: the pool, the encoder, one relinquished buffer; in particular no buffer is returned to the pool twice and a relinquished buffer is never written by the encoder afterwards.", "quantifier": "all histories of encoder calls and buffer closes, any pool allocation choice", "why_tests_cant": "Double ownership shows only after pool reuse in a specific order.", "anchors": ["encoding/protobuf/buffer.go: Buffer.Close, ensureBufferSize", "encoding/protobuf/unaggregated_encoder.go: Reset, Relinquish"]}
{"id": "C21", "title": "Msgpack unaggregated round trip", "statement": "Encoding any sequence of counters, batch timers and gauges with policies lists (all agg IDs, known and unknown resolutions and retentions) and decoding it with one iterator yields the same metrics and policies lists in order, then end of stream.", "quantifier": "all message sequences with valid precisions", "why_tests_cant": "Unbounded sequences and nested lists.", "anchors": ["encoding/msgpack/unaggregated_encoder.go", "encoding/msgpack/unaggregated_iterator.go", "encoding/msgpack/base_encoder.go", "encoding/msgpack/base_iterator.go"]}
{"id": "C22", "title": "Msgpack forward compatibility", "statement": "Extra trailing fields added by a newer writer to any object at any nesting level are skipped without affecting decoded values; messages with a higher version are skipped entirely when the iterator is told to ignore them, and rejected with an error otherwise.", "quantifier": "all messages, any number and shape of extra fields at every extension point, all versions", "why_tests_cant": "The set of possible future fields is unbounded.", "anchors": ["encoding/msgpack/base_iterator.go: skip, checkNumFieldsForType", "encoding/msgpack/unaggregated_iterator.go: decodeRootObject", "encoding/msgpack/wire_format.md"]}
{"id": "C23", "title": "Msgpack aggregated round trip and raw-metric access order", "statement": "Encoding aggregated metrics (raw or chunked identifiers, with or without encode time) and decoding yields the same identifier, time, value, storage policy and encode time; the lazily decoded fields can be read in any order and any number of times with the same answers.", "quantifier": "all metrics, all sequences of accessor calls", "why_tests_cant": "Accessor histories are unbounded.", "anchors": ["encoding/msgpack/aggregated_encoder.go", "encoding/msgpack/aggregated_iterator.go", "encoding/msgpack/raw_metric.go"]}
{"id": "C24", "title": "Raw metric accessors are history independent", "statement": "For any raw metric bytes, the answer of each accessor (identifier, time, value) does not depend on which other accessors were called before.", "quantifier": "all byte strings (in particular truncated ones) and all accessor call sequences", "why_tests_cant": "Needs a truncated metric and a particular call order.", "anchors": ["encoding/msgpack/raw_metric.go: ID, TimeNanos, Value, decodeID, decodeTime, decodeValue"]}
{"id": "C25", "title": "Msgpack messages without policies carry no policies from earlier messages", "statement": "When a decoded message carries no policies list, the policies reported for it do not depend on earlier messages in the stream.", "quantifier": "all streams mixing messages with and without policies lists", "why_tests_cant": "Needs a specific order of message kinds.", "anchors": ["encoding/msgpack/unaggregated_iterator.go: decodeRootObject, decodeMetric, PoliciesList", "encoding/migration/unaggregated_iterator.go: Next"]}
{"id": "C26", "title": "Mixed-protocol streams are decoded message by message", "statement": "In a stream that interleaves msgpack and protobuf messages in any order, every message is dispatched to the decoder of its own protocol, and the decoded sequence is the concatenation of the individual messages.", "quantifier": "all interleavings of messages of both protocols", "why_tests_cant": "The dispatch depends on the parity of the first byte for every possible message length.", "anchors": ["encoding/migration/unaggregated_iterator.go: Next, decodeProtocolType", "encoding/migration/convert.go"]}
{"id": "C27", "title": "Policies-to-metadata conversion preserves policy content", "statement": "Converting a policies list to staged metadatas keeps cutover and tombstone of each stage, and for each stage yields exactly the set of (aggregation ID, storage policy) pairs of the input, grouped by aggregation ID in order of first appearance, without duplicates, keeping the relative order of storage policies.", "quantifier": "all policies lists", "why_tests_cant": "Unbounded lists with arbitrary duplication.", "anchors": ["encoding/migration/convert.go: ToStagedMetadatas, toMetadata"]}
{"id": "C28", "title": "Filter patterns mean what the pattern language says", "statement": "For every pattern in the documented wildcard language, the constructed filter matches exactly the strings denoted by the pattern: '*' any sequence, '?' one character, '[a-z]' / '[abc]' a character (or its complement with '!'), '{ab,c}' one of the alternatives, leading '!' negation.", "quantifier": "all patterns and all input strings", "why_tests_cant": "Both are unbounded; overlaps and backtracking cases are missed by examples.", "anchors": ["filters/filter.go: NewFilter, newWildcardFilter, newRangeFilter, multiFilter, multiChainFilter, multiCharSequenceFilter"]}
{"id": "C29", "title": "Filter construction and matching never go out of bounds", "statement": "Building a filter from any pattern returns a filter or an error, and matching any constructed filter against any byte string returns an answer; no index or slice expression is out of range.", "quantifier": "all byte-string patterns and all byte-string inputs", "why_tests_cant": "All patterns cannot be tried.", "anchors": ["filters/filter.go: NewFilter, newRangeFilter, newSingleRangeFilter, singleRangeFilter.matches, multiCharRangeFilter.matches, multiChainFilter.Matches"]}
{"id": "C30", "title": "Tag filters implement conjunction and disjunction over tags", "statement": "For a metric whose tags are sorted by name, a conjunctive tag filter matches exactly when every filtered tag exists (or, for the name tag, the name) with a matching value, and a disjunctive one exactly when at least one does.", "quantifier": "all filters over any number of tags and all well-formed metric identifiers", "why_tests_cant": "Merge-style scanning with early exits over unbounded tag lists.", "anchors": ["filters/tags_filter.go: NewTagsFilter, tagsFilter.Matches"]}
{"id": "C31", "title": "Tag filter text is parsed exactly", "statement": "The parser of tag filter strings accepts exactly whitespace-separated name:value pairs with non-empty parts and distinct names, and returns the corresponding map; printing any such map and parsing it again gives the same map.", "quantifier": "all strings", "why_tests_cant": "Unbounded strings.", "anchors": ["filters/tags_filter.go: ParseTagFilterValueMap, parseTagFilter, ValidateTagsFilter"]}
{"id": "C32", "title": "Rollup identifiers are canonical and parse back", "statement": "A generated rollup identifier does not depend on the order in which tag pairs are supplied; it parses back to the same name and the tag pairs plus the rollup marker, sorted by tag name; it is recognised as a rollup identifier; and distinct (name, tag set) give distinct identifiers, provided names and values contain no separator characters.", "quantifier": "all names and tag sets without separator characters, all orders", "why_tests_cant": "Unbounded tag sets and permutations.", "anchors": ["metric/id/m3/id.go: NewRollupID, IsRollupID, NameAndTags, sortedTagIterator"]}
{"id": "C33", "title": "Tag lookup agrees with the tag list", "statement": "Looking up a tag in an identifier returns exactly the value of the first tag of that name, and reports absence exactly when no such tag exists; iterating the tags yields exactly the pairs the identifier was built from.", "quantifier": "all well-formed identifiers and all tag names", "why_tests_cant": "Unbounded.", "anchors": ["metric/id/m3/id.go: id.TagValue, sortedTagIterator.Next, Current"]}
{"id": "C34", "title": "Active snapshot selection", "statement": "At any time the snapshot in force for a rule is the most recently added one whose cutover is not after that time, and none before the first cutover; the number of rule-change times not after t found by the ruleset is exact for every t.", "quantifier": "all snapshot histories and all times", "why_tests_cant": "Unbounded histories; boundary equality.", "anchors": ["rules/mapping.go: activeSnapshot, activeIndex", "rules/rollup.go: activeSnapshot, activeIndex", "rules/active_ruleset.go: nextCutoverIdx, cutoverNanosAt"]}
{"id": "C35", "title": "Trimming old snapshots does not change matching", "statement": "Restricting a ruleset to what is active from time t on (ActiveSet) never changes the result of matching any metric over any range starting at or after t, including the expiry time.", "quantifier": "all rulesets with time-ordered snapshots, all identifiers, all t and ranges", "why_tests_cant": "Unbounded histories.", "anchors": ["rules/ruleset.go: ActiveSet", "rules/mapping.go: activeRule", "rules/rollup.go: activeRule", "rules/active_ruleset.go: ForwardMatch"]}
{"id": "C36", "title": "Range matching agrees with point matching at every time", "statement": "For a metric matched over [from, to), the metadata reported as active for the existing identifier at any time t in the range is the one obtained by matching at time t.", "quantifier": "all rulesets, identifiers, ranges and times", "why_tests_cant": "Needs particular combinations of rule changes inside one range.", "anchors": ["rules/active_ruleset.go: ForwardMatch, mergeResultsForExistingID", "rules/match_result.go: ForExistingIDAt"]}
{"id": "C37", "title": "Match results stay valid until their expiry", "statement": "No rule changes between the end of the matched range and the expiry of the result: matching any range with the same start and an end up to the expiry gives the same result, and the expiry is the earliest such rule-change time.", "quantifier": "all rulesets, identifiers, and range ends", "why_tests_cant": "Off-by-one at cutover boundaries for unbounded histories.", "anchors": ["rules/active_ruleset.go: ForwardMatch, cutoverNanosAt", "rules/match_result.go: HasExpired"]}
{"id": "C38", "title": "Staged metadatas for an existing identifier are ordered by cutover", "statement": "The cutover times of the staged metadatas returned for an existing identifier never decrease, and none lies after the end of the range.", "quantifier": "all rulesets with non-negative cutovers, all ranges", "why_tests_cant": "Unbounded histories with filter changes and tombstones.", "anchors": ["rules/active_ruleset.go: mergeResultsForExistingID, ForwardMatch"]}
{"id": "C39", "title": "Rollup identifiers over a range", "statement": "Over a range, the set of rollup identifiers returned is exactly the set generated at the start or at some rule change inside the range, sorted by identifier; and the metadata reported as active for such an identifier at any time of the range is the one generated at that time, or a tombstone when it is not generated then.", "quantifier": "all rulesets, identifiers, ranges and times", "why_tests_cant": "Needs combined changes of several rules inside one range.", "anchors": ["rules/active_ruleset.go: mergeResultsForNewRollupIDs, ForwardMatch", "rules/match_result.go: ForNewRollupIDsAt"]}
{"id": "C40", "title": "Match results contain no duplicate pipelines and lose none", "statement": "The pipelines returned for an identifier contain no two equal pipelines, and every pipeline contributed by a matching rule is represented unless a drop policy applies; with no match the default pipeline is returned, so the list is never empty.", "quantifier": "all rulesets and identifiers", "why_tests_cant": "In-place deduplication over unbounded lists.", "anchors": ["rules/active_ruleset.go: unique, mappingsForNonRollupID, toStagedMetadata"]}
{"id": "C41", "title": "Drop-if-only-match drops only when nothing else matches", "statement": "A metric matched by a drop-if-only-match mapping rule is dropped only if no other rule (mapping or rollup) matches it.", "quantifier": "all rulesets and identifiers", "why_tests_cant": "Needs a mapping rule and a rollup rule combined.", "anchors": ["policy/drop_policy.go: DropIfOnlyMatch", "rules/active_ruleset.go: mappingsForNonRollupID, forwardMatchAt, unique", "metadata/metadata.go: ApplyOrRemoveDropPolicies"]}
{"id": "C42", "title": "Must-drop always wins", "statement": "A metric matched at some time by an active mapping rule with the must-drop policy gets exactly the drop pipeline for its existing identifier, whatever other rules match.", "quantifier": "all rulesets, identifiers, times", "why_tests_cant": "Unbounded rule combinations.", "anchors": ["rules/active_ruleset.go: mappingsForNonRollupID, unique"]}
{"id": "C43", "title": "A rollup target applies exactly to metrics having all its tags", "statement": "For a metric with sorted tags and a target with sorted tags, the rollup identifier is produced exactly when every target tag occurs in the metric, and it carries exactly those tags with the metric's values.", "quantifier": "all sorted tag lists and all target tag lists", "why_tests_cant": "Merge scan over unbounded lists.", "anchors": ["rules/active_ruleset.go: matchRollupTarget, applyIDToPipeline"]}
{"id": "C44", "title": "Reverse matching finds the rule that produced a rollup identifier", "statement": "Reverse-matching a rollup identifier generated by forward matching at time t returns the storage policies and aggregation ID of the rollup target that generated it, given that no two targets share new name and tags.", "quantifier": "all validated rulesets, identifiers and times", "why_tests_cant": "Needs two targets with the same name and nested tag sets.", "anchors": ["rules/active_ruleset.go: reverseMappingsForRollupID, matchRollupTarget, toRollupResults"]}
{"id": "C45", "title": "Reverse matching of plain identifiers filters by aggregation type only", "statement": "Reverse-matching a non-rollup identifier returns exactly the mapping pipelines of the point match that contain the given aggregation type (or contain it by default), in order, and reports not found exactly when there are none.", "quantifier": "all rulesets, identifiers, aggregation types", "why_tests_cant": "In-place filtering over unbounded lists.", "anchors": ["rules/active_ruleset.go: reverseMappingsForNonRollupID, filteredPipelinesWithAggregationType"]}
{"id": "C46", "title": "Rule edits never rewrite the past", "statement": "Adding, updating, deleting or reviving rules, or deleting a ruleset, with cutover T leaves the match result of every metric at every time before T unchanged, for any sequence of edits.", "quantifier": "all rulesets, all edit sequences, all identifiers and times before the cutover", "why_tests_cant": "Unbounded edit histories.", "anchors": ["rules/ruleset.go: AddMappingRule, UpdateMappingRule, DeleteMappingRule, AddRollupRule, UpdateRollupRule, DeleteRollupRule, Delete, ApplyRuleSetChanges", "rules/mapping.go: addSnapshot, markTombstoned, revive"]}
{"id": "C47", "title": "Deleted rules stop applying and names can be reused", "statement": "After a rule is deleted with cutover T it contributes no pipeline at any time from T on until it is revived; deleting an already deleted or unknown rule fails without effect; adding a rule under the name of a deleted one revives that rule keeping its identifier and history.", "quantifier": "all rulesets and edit sequences", "why_tests_cant": "Unbounded histories.", "anchors": ["rules/ruleset.go: AddMappingRule, DeleteMappingRule, AddRollupRule, DeleteRollupRule", "rules/mapping.go: markTombstoned, revive, tombstoned"]}
{"id": "C48", "title": "Rule identifiers are unique and histories are append-only", "statement": "Under any sequence of edits, rule identifiers stay unique (given fresh identifiers), every rule's earlier snapshots are a prefix of its later snapshots, and failed edits change nothing.", "quantifier": "all edit sequences", "why_tests_cant": "Unbounded histories.", "anchors": ["rules/ruleset.go", "rules/mapping.go: addSnapshot", "rules/rollup.go: addSnapshot"]}
{"id": "C49", "title": "No two live rules share a name", "statement": "Under any sequence of successful edits, no two live mapping rules (and no two live rollup rules) have the same name.", "quantifier": "all edit sequences, including renaming updates", "why_tests_cant": "Needs an update that renames a rule to an existing name.", "anchors": ["rules/ruleset.go: AddMappingRule, UpdateMappingRule, AddRollupRule, UpdateRollupRule"]}
{"id": "C50", "title": "Batched rule changes are all-or-nothing", "statement": "Applying a batch of ruleset changes either applies every change or, when it returns an error, leaves the ruleset unchanged.", "quantifier": "all batches and rulesets", "why_tests_cant": "Failure in the middle of a batch at any position.", "anchors": ["rules/ruleset.go: ApplyRuleSetChanges, applyMappingRuleChanges, applyRollupRuleChanges"]}
{"id": "C51", "title": "Ruleset persistence round trip", "statement": "Writing a ruleset to its stored form and reading it back yields a ruleset with the same rules, histories and metadata, hence the same matching behaviour, provided each snapshot is one the reader accepts.", "quantifier": "all rulesets", "why_tests_cant": "Unbounded nested structure.", "anchors": ["rules/ruleset.go: Proto, NewRuleSetFromProto", "rules/mapping.go: proto, newMappingRuleFromProto", "rules/rollup.go: proto, newRollupRuleFromProto", "rules/rollup_target.go"]}
{"id": "C52", "title": "A validated ruleset can be read back after being written", "statement": "Whenever the validator accepts a ruleset produced from a readable one by edits, the written form can be read back.", "quantifier": "all edit sequences followed by validation and write", "why_tests_cant": "Needs an invalid intermediate snapshot hidden by a later valid one.", "anchors": ["rules/validator/validator.go: Validate", "rules/ruleset.go: Latest, Proto, NewRuleSetFromProto", "rules/store/kv/store.go: WriteRuleSet, ReadRuleSet"]}
{"id": "C53", "title": "Validator decides exactly the documented constraints", "statement": "The validator accepts a snapshot exactly when: live rule names are distinct, filters are valid, aggregation IDs and storage policies are allowed, non-empty and distinct, drop-policy rules carry nothing else, every pipeline has at most one aggregation operation and only in first place, bounded derivative order between rollups, at least one and at most the allowed number of rollups, each rollup's tags distinct, containing the required tags and strictly shrinking, and no two rollup operations share name and tags.", "quantifier": "all ruleset snapshots and option values", "why_tests_cant": "Unbounded snapshots; loop with carried state.", "anchors": ["rules/validator/validator.go: validateSnapshot, validateMappingRules, validateRollupRules, validatePipeline, validateRollupTags, validateNoDuplicateRollupIDIn"]}
{"id": "C54", "title": "Namespace life cycle", "statement": "Under any sequence of add and delete calls, namespace names stay unique, snapshot histories only grow and alternate between live and deleted, adding reports a revival exactly when a deleted namespace of that name exists, and a live or unknown namespace cannot be revived respectively deleted.", "quantifier": "all call sequences from the empty state", "why_tests_cant": "Unbounded histories.", "anchors": ["rules/namespace.go: AddNamespace, DeleteNamespace, markTombstoned, revive, Namespace"]}
{"id": "C55", "title": "Namespaces persistence round trip", "statement": "Writing namespaces to their stored form and reading them back yields the same names and histories, for ruleset versions representable in 32 bits.", "quantifier": "all namespaces values", "why_tests_cant": "Unbounded lists.", "anchors": ["rules/namespace.go: Proto, NewNamespaces, Clone"]}
{"id": "C56", "title": "No lost updates in the rule store", "statement": "With any number of concurrent clients reading, editing and writing through the store, every successful ruleset write is based on the immediately preceding stored version; a write based on stale data fails with a stale-data error and changes nothing; a combined write changes namespaces and ruleset together or not at all.", "quantifier": "all interleavings of client operations", "why_tests_cant": "Interleavings are unbounded.", "anchors": ["rules/store/kv/store.go: ReadRuleSet, WriteRuleSet, ReadNamespaces, WriteAll, ruleSetTransaction, namespacesTransaction"]}
{"id": "C57", "title": "Namespace snapshots name the ruleset version that realises them", "statement": "When namespaces and rulesets are created, deleted and revived through combined writes, the ruleset version recorded in the latest namespace snapshot of a deleted namespace equals the stored version of the deleted ruleset, so a watcher that stops at that version has seen the deletion.", "quantifier": "all sequences of create/delete/revive and ruleset updates by concurrent clients", "why_tests_cant": "Protocol across two keys with unbounded histories.", "anchors": ["rules/namespace.go: AddNamespace, DeleteNamespace, revive", "rules/store/kv/store.go: WriteAll", "matcher/namespaces.go: process"]}
{"id": "C58", "title": "Cache never serves results of an outdated ruleset once a refresh completed", "statement": "Under every interleaving of lookups, ruleset updates with their refresh notifications, registrations, unregistrations, evictions and deletions, a cached result for a namespace was computed by the source currently registered and by its latest version, unless a refresh for that source is still pending.", "quantifier": "all interleavings of cache operations by any number of goroutines", "why_tests_cant": "Schedules are unbounded.", "anchors": ["matcher/cache/cache.go: ForwardMatch, Register, Refresh, Unregister, setWithLock, doEvict, doDelete", "matcher/ruleset.go: process", "matcher/match.go: NewMatcher"]}
{"id": "C59", "title": "Cached lookups agree with direct matching", "statement": "A lookup for [from, to) answered from the cache reports, at every time in the range, the same metadata as matching directly, for queries whose start does not precede the start for which the entry was computed.", "quantifier": "all lookup sequences with arbitrary ranges", "why_tests_cant": "Depends on history of ranges and expiry boundaries.", "anchors": ["matcher/cache/cache.go: tryGetWithLock, setWithLock", "rules/match_result.go: HasExpired, ForExistingIDAt"]}
{"id": "C60", "title": "Cache structure stays consistent and bounded", "statement": "Under every interleaving, each cached entry reachable by lookup is linked exactly once in the recency list, the list length counter equals the number of linked entries, removed entries are never linked again, and after an eviction pass at most the configured capacity of entries remain linked.", "quantifier": "all interleavings of lookups, promotions, invalidations, evictions, deletions", "why_tests_cant": "Pointer structure with unbounded histories.", "anchors": ["matcher/cache/cache.go: add, promote, invalidateWithLock, doEvict, doDelete", "matcher/cache/list.go"]}
{"id": "C61", "title": "The recency list is a correct doubly linked list", "statement": "Under any sequence of pushes to front or back, removals and moves to front, the linked structure read forwards equals the abstract list, read backwards its reverse, the length is right, and operations on removed elements have no effect.", "quantifier": "all operation sequences over any set of elements", "why_tests_cant": "Unbounded histories of pointer updates.", "anchors": ["matcher/cache/list.go: PushFront, PushBack, Remove, MoveToFront, remove"]}
{"id": "C62", "title": "Entries of an unregistered namespace are eventually gone", "statement": "After a namespace is unregistered and all pending deletions are processed, no entry of that namespace remains in the recency list.", "quantifier": "all histories", "why_tests_cant": "Needs refresh, re-caching and eviction in a particular order.", "anchors": ["matcher/cache/cache.go: doEvict, doDelete, refreshWithLock, Unregister"]}
{"id": "C63", "title": "Namespace updates drive the matcher correctly", "statement": "After processing any namespaces update: every namespace in the update has a ruleset; it is watched unless its latest snapshot is deleted and that ruleset version has been received; a namespace absent from the update is dropped exactly when its ruleset is deleted and its cutover is older than the match window; added and removed callbacks fire exactly once per change.", "quantifier": "all sequences of namespaces updates and ruleset updates", "why_tests_cant": "Unbounded histories and timing.", "anchors": ["matcher/namespaces.go: process", "matcher/ruleset.go: process"]}
{"id": "C64", "title": "Per-second transformation", "statement": "The per-second transformation yields an empty datapoint unless time strictly increases and neither value is NaN and the value does not decrease, and otherwise the difference quotient per second stamped with the current time; it is never negative.", "quantifier": "all datapoint pairs with times in the int64 range whose difference does not overflow", "why_tests_cant": "All value/time pairs.", "anchors": ["transformation/binary.go: perSecond", "transformation/unary.go: absolute"]}
{"id": "C65", "title": "Message kinds convert to protobuf and back", "statement": "Each of the five unaggregated message kinds converts to protobuf and back unchanged, with conversion failing exactly when an embedded value has no protobuf form.", "quantifier": "all messages and all prior contents of reused objects", "why_tests_cant": "Unbounded nested structure with reuse.", "anchors": ["metric/unaggregated/types.go: ToProto, FromProto", "metric/aggregated/types.go: ToProto, FromProto", "metric/types.go: Type.ToProto, FromProto"]}
{"id": "C66", "title": "Rule evaluation order is irrelevant to what a metric is rolled up into", "statement": "Reordering the rules of a ruleset does not change the set of pipelines for the existing identifier nor the set of rollup identifiers with their metadata at any time.", "quantifier": "all rulesets, permutations of rules, identifiers, times", "why_tests_cant": "Factorially many orders.", "anchors": ["rules/active_ruleset.go: mappingsForNonRollupID, rollupResultsFor, forwardMatchAt"]}
{"id": "C67", "title": "Namespace validator follows the latest valid configuration until closed", "statement": "The namespace validator accepts exactly the namespaces of the most recent successfully parsed configuration update (or the defaults when none arrived), and after closing rejects everything; closing twice is harmless.", "quantifier": "all interleavings of updates, validations and closes", "why_tests_cant": "Schedules are unbounded.", "anchors": ["rules/validator/namespace/kv/validator.go: Validate, processUpdate, Close, watchRuntimeConfig"]}
{"id": "C68", "title": "Latest view reflects exactly the live rules", "statement": "The latest view of a ruleset lists exactly the last snapshot of every rule that is not deleted, sorted by name, and the full history views list every snapshot newest first.", "quantifier": "all rulesets", "why_tests_cant": "Unbounded histories.", "anchors": ["rules/ruleset.go: Latest, latestMappingRules, latestRollupRules, MappingRules, RollupRules", "rules/mapping.go: history, mappingRuleView"]}
{"id": "C69", "title": "Ruleset clones are independent and equal", "statement": "Cloning a ruleset gives a ruleset with the same observable contents, and no sequence of edits on the clone changes the original.", "quantifier": "all rulesets and edit sequences", "why_tests_cant": "Aliasing shows only after particular edits.", "anchors": ["rules/ruleset.go: Clone", "rules/mapping.go: clone", "rules/rollup.go: clone", "rules/rollup_target.go: clone"]}
{"id": "C70", "title": "End-to-end matching through namespaces and cache", "statement": "A metric is matched against the ruleset of the namespace named by its namespace tag (or the default namespace), and gets the default metadata when that namespace has no ruleset.", "quantifier": "all identifiers, namespaces, cache states", "why_tests_cant": "Unbounded identifiers and histories.", "anchors": ["matcher/match.go: ForwardMatch", "matcher/namespaces.go: ForwardMatch", "matcher/cache/cache.go: tryGetWithLock", "rules/match_result.go: EmptyMatchResult"]}
{"id": "C71", "title": "Active sets are snapshots", "statement": "An active rule set taken from a rule set keeps giving the same match results whatever edits are made to the rule set (or to clones of it) afterwards.", "quantifier": "all rule sets, activation times and interleavings of edits, clones and activations", "why_tests_cant": "Sharing of rule objects between a rule set and its active sets shows only for particular activation times and later edits.", "anchors": ["rules/ruleset.go: ActiveSet", "rules/mapping.go: activeRule", "rules/rollup.go: activeRule"]}
{"id": "C72", "title": "Edits record exactly what was asked", "statement": "A successful add or update gives the rule exactly one more snapshot that shows exactly the given name, filter, policies or targets, with the time, author and cutover of the edit; a successful delete keeps name and filter on record and drops the policies or targets. All other rules stay as they are, and the rule set bears time, author and cutover. Which edits are accepted is determined by the filter, the identifiers and the first rule of the name.", "quantifier": "all rule sets (also with several or no rules of a name and rules without snapshots), data, identifiers and times", "why_tests_cant": "Unbounded rule sets and histories; a wrong field shows only when read back later.", "anchors": ["rules/ruleset.go: AddMappingRule, UpdateMappingRule, DeleteMappingRule, AddRollupRule, UpdateRollupRule, DeleteRollupRule, Delete, Revive", "rules/mapping.go: addSnapshot, markTombstoned, revive", "rules/rollup.go: addSnapshot, markTombstoned, revive"]}
{"id": "C73", "title": "Rules stored in the older form are read faithfully", "statement": "Policies stored in the v1 form are accepted exactly if each can be read and all have the same aggregations; the rule then has those aggregations and exactly the set of storage policies, in a fixed order. v1 rollup targets become one rollup step with the same name and tags.", "quantifier": "all stored policy lists, snapshots and targets", "why_tests_cant": "Go map iteration order and duplicates vary; unbounded lists.", "anchors": ["rules/convert.go: toAggregationIDAndStoragePolicies", "rules/mapping.go: newMappingRuleSnapshotFromProto", "rules/rollup_target.go: newRollupTargetFromV1Proto"]}
{"id": "C74", "title": "Fields a protobuf reader does not know are ignored", "statement": "If a message can be read, the same message with fields of unknown numbers added anywhere between its fields or between the fields of messages embedded in it, of any wire type and with groups nested to any depth, is read as exactly the same message; a stream of such messages yields the same metrics as the stream without the added fields.", "quantifier": "all messages of all types of the protocol, all added fields, all positions and depths, all destinations, all streams", "why_tests_cant": "The added fields range over all byte strings of the wire format, nested without bound, at all positions; generated code is hardly covered by tests.", "anchors": ["generated/protobuf/metricpb/*.pb.go: Unmarshal, skip*", "generated/protobuf/aggregationpb, policypb, pipelinepb, transformationpb: Unmarshal", "encoding/protobuf/unaggregated_iterator.go: Next, decodeMessage"]}
{"id": "C75", "title": "What a msgpack iterator holds is bounded by what it has read", "statement": "After a call of Next the iterator holds no more timer values, staged policies and policies than there were bytes in the input, whatever numbers the input announces.", "quantifier": "all inputs, all iterators, all libraries whose reads take at least a byte", "why_tests_cant": "Announced lengths range up to 2^32-1 and tests only use well-formed streams.", "anchors": ["encoding/msgpack/unaggregated_iterator.go: decodeBatchTimer, decodePoliciesList, decodeStagedPolicies", "encoding/msgpack/base_iterator.go: decodeFloat64, decodeArrayLen"]}
{"id": "C76", "title": "Validator options do not depend on the order in which they are set", "statement": "For every metric type, the storage policies and aggregation types the validator allows are those last set for that type, or else the defaults as last set, in whatever order the options are set.", "quantifier": "all sequences of calls of the option setters and all metric types", "why_tests_cant": "The outcome depends on the order of arbitrarily many calls; tests use one order.", "anchors": ["rules/validator/options.go: SetDefault*, SetAllowed*For, findOrCreateMetadata, IsAllowed*For"]}
{"id": "C77", "title": "Transformation types are classified consistently", "statement": "A transformation type is valid exactly if it is the absolute or the per-second type; a valid type is either unary or binary and never both; the valid types are exactly those with a protobuf form, exactly those the rule validator accepts, and each is read back from its name.", "quantifier": "all integer transformation types and all strings", "why_tests_cant": "Agreement of four separately maintained tables over all integers.", "anchors": ["transformation/type.go: IsValid, IsUnaryTransform, IsBinaryTransform, ParseType, ToProto", "rules/validator/validator.go: validatePipeline"]}
{"id": "C78", "title": "The generated hash maps are maps", "statement": "After any sequence of Set, Delete and Reset calls, Get of a key returns the value set last for that key and reports it missing if it was deleted or the map reset since; Iter visits each present key exactly once with its value, and Len counts them. This holds whatever the hash function is.", "quantifier": "all hash functions, all keys and values, all sequences of calls", "why_tests_cant": "Collisions of a 64-bit hash do not occur in tests, so the probing code is never exercised; the interaction of probing with deletion needs all interleavings.", "anchors": ["matcher/cache/elem_map_gen.go: Get, Set, set, Delete, Reset, Iter, Len", "matcher/cache/namespace_results_map_gen.go", "matcher/namespace_rule_sets_map_gen.go", "matcher/rule_namespaces_map_gen.go"]}
{"id": "C79", "title": "Stored rules survive their bytes", "statement": "The bytes written for a rule set or for the namespaces are read back as the same message: every name, filter, tag, target, policy, aggregation type and time, in the same order. So a key-value store that keeps bytes gives its clients, for any sequence of reads and conditional writes, the answers it would give if it kept the messages themselves, and no read of what was written panics. Two rule sets that store the same bytes have the same stored form, and damaged bytes are refused or misread but do not make the reader panic (as long as they hold no varint of eight bytes or more).", "quantifier": "all rule sets and namespaces whose numbers are in the range of their Go types, all sequences of store calls by any clients, all stored bytes", "why_tests_cant": "The stored messages nest to five levels with repeated strings, packed enums and optional messages; a length computed wrongly for one combination of sizes corrupts everything after it, and the combinations are unbounded.", "anchors": ["generated/proto/rulepb/rule.pb.go: Marshal, MarshalTo, Size, Unmarshal", "generated/proto/rulepb/namespace.pb.go", "generated/proto/pipelinepb/pipeline.pb.go", "generated/proto/policypb/policy.pb.go", "rules/store/kv/store.go: ReadNamespaces, ReadRuleSet, WriteRuleSet, WriteAll"]}
{"id": "C80", "title": "A configured validator keeps metrics within what is configured", "statement": "A validator made from a configuration allows for each metric type what the last override for the type lists, else the default. When it accepts the rules that a rule set shows, the matcher gives a metric of an allowed type (the one its type tag says, if it has the tag) nothing that is not configured for that type: only listed storage policies, only listed aggregation types at the first level and at later levels, several aggregation types only where they are enabled, and no more rollup levels than configured. A validator is made exactly when one of the two namespace validators is configured.", "quantifier": "all configurations, all rule sets accepted by the validator, all metrics, all times after the last change", "why_tests_cant": "The claim joins the configuration, the filter language, the validator and the matcher; tests check each with a few values, while an escape needs a particular filter, pipeline shape and metric together.", "anchors": ["rules/validator/config.go: NewValidator, newValidatorOptions, NewMetricTypesFn, NewNamespaceValidator", "rules/validator/namespace/static/validator.go: Validate", "metric/types.go: ParseType, ToProto, FromProto", "rules/validator/validator.go: ValidateSnapshot", "rules/active_ruleset.go: ForwardMatch"]}
{"id": "C81", "title": "Rules survive their JSON forms, and what is read from JSON is well formed", "statement": "A rule set, a list of namespaces or a set of changes whose texts are UTF-8, whose numbers fit their types and whose aggregation types, operations and transformations are known is read back from its JSON form unchanged. A rule set is written exactly when its aggregation types, operations and transformations are known: otherwise writing fails, so nothing is written that cannot be read. Whatever is read from a JSON text has only known types and operations and is itself written and read back. Staged policies are either refused or read back.", "quantifier": "all rule sets, namespaces, changes and staged policies; all JSON values, whatever members they have, in any order and case", "why_tests_cant": "The tests read and write chosen rules; the claim is about every mixture of optional members, repeated and unknown members, kinds of operation, and about values which the types allow but which have no JSON form.", "anchors": ["aggregation/id.go, aggregation/type.go, transformation/type.go: MarshalJSON, UnmarshalJSON", "policy/policy.go, policy/storage_policy.go, policy/staged_policy.go: MarshalJSON, UnmarshalJSON", "pipeline/type.go: MarshalJSON, UnmarshalJSON, newUnionMarshaler, OpUnion", "rules/view: MappingRule, RollupRule, RollupTarget, RuleSet, Namespaces", "rules/view/changes: RuleSetChanges"]}
{"id": "C82", "title": "Configured aggregation options name the types, and names identify types", "statement": "Options are made from a configuration exactly when each configured kind of name transformation is noop, empty or suffix. The name of a type for a kind of metric is then the documented one (last, lower, upper, \u2026, p10, \u2026, p999, p9999) as it is, empty, or behind a dot, as configured for that kind; the default types of a kind are those configured, else the documented ones. Unless a kind is configured as empty, the type that is looked up for a text is the one type with this name, and none if no type has it.", "quantifier": "all configurations, all kinds of metrics, all types, all texts", "why_tests_cant": "The quantile names come from floating point multiplication and shortest decimal formatting; tests compare a few of them and never look names up again under each configuration.", "anchors": ["aggregation/type_config.go: NewOptions, TransformFn, UnmarshalYAML", "aggregation/types_options.go: defaultQuantileTypeStringFn, computeTypeStrings, typeFor, TypeStringForCounter, TypeForTimer"]}
{"id": "C83", "title": "Types accepted for a metric type are known and make sense for it", "statement": "A list of aggregation types is accepted for counters, gauges or timers exactly when each of its types is known and makes sense for that metric type: no quantiles for counters and gauges, no last value for counters and timers. So an accepted list always has an aggregation ID.", "quantifier": "all lists of aggregation types, known and unknown", "why_tests_cant": "Tests list known types only; types outside the table are never tried.", "anchors": ["aggregation/type.go: IsValidForGauge, IsValidForCounter, IsValidForTimer (of Type and Types)"]}
{"id": "C84", "title": "Equal views of rules mean equal effects", "statement": "Two mapping rules, rollup targets or rollup rules as shown by views are Equal exactly when their listed parts coincide, storage policies and tags in any order, and nil equals only nil; so Equal is an equivalence relation. Two rule sets whose rules have, position by position, histories shown by equal views with the same cutovers and deletions give every metric the same match results once stored and loaded: the same version, expiry, stages and rolled-up identifiers, forward and reverse.", "quantifier": "all views, all rule sets with such histories, all metric identifiers, all ranges of time", "why_tests_cant": "Tests compare a few pairs of views. That equality is strong enough to fix what metrics get needs all rules, all metrics and all times, through storing, loading and matching.", "anchors": ["rules/view/mapping.go:43-56: Equal", "rules/view/rollup.go:35-43, 58-69, 77-87: Equal", "rules/ruleset.go: NewRuleSetFromProto", "rules/active_ruleset.go: ForwardMatch, ReverseMatch"]}
{"id": "C85", "title": "Sorting puts changes and rules into one order", "statement": "Sorting the changes of a rule set orders them by operation, then by name for adds and changes and by rule ID for deletes; sorting views orders them by name. The sorted order depends only on the changes, not on the order they came in, up to changes with the same key.", "quantifier": "all lists of changes and views, every arrangement that sorting may return", "why_tests_cant": "Tests sort one list. Whether the comparison is an ordering at all is a claim about all triples of changes, among them changes with both rule data and ID.", "anchors": ["rules/view/changes/mapping.go:36-53: Less", "rules/view/changes/rollup.go:36-53: Less", "rules/view/changes/ruleset.go:35: Sort", "rules/view/mapping.go:67, rules/view/rollup.go:94: Less", "rules/view/ruleset.go:37,46: Sort"]}
{"id": "C86", "title": "Reverse matching does not depend on the order of the rules", "statement": "Two rule sets with the same rules in different order give every identifier the same reverse match result over every range of time, up to the order of the pipelines of a stage.", "quantifier": "all rule sets, all permutations of their rules, all identifiers, all ranges of time, all metric and aggregation types", "why_tests_cant": "Reverse matching takes the first rollup step that fits an identifier; tests have one order of the rules and at most one step that fits.", "anchors": ["rules/active_ruleset.go:145-180: ReverseMatch", "rules/active_ruleset.go:501-533: reverseMappingsForNonRollupID", "rules/active_ruleset.go:535-596: reverseMappingsForRollupID"]}
{"id": "C87", "title": "The matcher answers from what was stored", "statement": "With a rule store and a matcher on one key-value store: whatever clients write, in whatever order writes, watch deliveries, cache steps and lookups interleave, an answered lookup gives either the default or what the rules of one stored version of that namespace give, rules that passed the store's validator; when the matcher's version is the store's, these are the rules a client would read; reading stored values never panics, and the matcher can always catch up. With a validator made from a configuration, what a settled rule set gives a metric is permitted by that configuration.", "quantifier": "all sequences and interleavings of store calls, watch deliveries (any stored version, in any order), namespace changes, cache steps and lookups; all rule sets, identifiers, times", "why_tests_cant": "Store, validator, watches, matcher and cache are tested apart, each with fakes for the others; that no interleaving lets unvalidated or foreign rules answer a lookup is a claim about all runs of the whole.", "anchors": ["rules/store/kv/store.go:67-128: ReadRuleSet, WriteRuleSet, WriteAll", "matcher/ruleset.go:186-198: toRuleSet", "matcher/namespaces.go:228-240: toNamespaces", "matcher/match.go: ForwardMatch", "rules/validator/validator.go: ValidateSnapshot", "rules/validator/config.go: NewValidator"]}
{"id": "C88", "title": "What was accepted is accepted again after storing", "statement": "A rule set that the validator accepts is still accepted by it after it was written to the store and read back, whatever the limits; so a client that reads rules just after a write can write them again as they are.", "quantifier": "all validator options, all rule sets with rules of distinct IDs and known drop policies, all store contents", "why_tests_cant": "Storing changes rules: it sorts rollup tags, rebuilds pipelines and drops aggregation types of dropping rules. That none of this makes a check fail is a claim about every rule set and every validator configuration.", "anchors": ["rules/validator/validator.go: ValidateSnapshot", "rules/ruleset.go: Proto, NewRuleSetFromProto, Latest", "rules/store/kv/store.go:67-100: ReadRuleSet, WriteRuleSet"]}
{"id": "C89", "title": "The matcher's calls and goroutines never block each other for good", "statement": "Whatever lookups, namespace updates, ruleset updates, evictions, deletions and closings are under way on one matcher with its cache and namespace validator, and however their steps interleave: as long as one of them is not finished some thread can go on, the ones under way finish after a bounded number of steps, and nobody unlocks a lock that is not held.", "quantifier": "any number of concurrent calls and goroutines starting at any time, any number of rulesets, all interleavings, all outcomes of branches and loops; RWMutexes that prefer waiting writers", "why_tests_cant": "A deadlock needs a particular interleaving of several goroutines across five locks in three files; tests run a few schedules, and the race detector does not find deadlocks.", "anchors": ["matcher/cache/cache.go:178-257: ForwardMatch, Register, Refresh, Unregister, Close", "matcher/cache/cache.go:342-465: add, promote, doEvict, doDelete", "matcher/ruleset.go:186-217: toRuleSet, process", "matcher/namespaces.go:170-325: ruleSet, Close, toNamespaces, process", "matcher/match.go:49-89: NewMatcher, Close", "rules/validator/namespace/kv/validator.go:72-144: Validate, Close, processUpdate"]}
{"id": "C90", "title": "The matcher's shared state is free of data races", "statement": "In any interleaving of the calls and goroutines of a matcher, its cache and its namespace validator, no two of them ever access the same shared state (namespace map, ruleset state, cache maps, the recency list, set of valid namespaces) at the same time with one of them writing: whoever writes holds the lock of the state alone and whoever reads holds it.", "quantifier": "any number of concurrent calls and goroutines starting at any time, any number of rulesets, all interleavings, all outcomes of branches and loops", "why_tests_cant": "The race detector reports only races on the schedules that tests happen to run; that every path of every function takes the right lock in the right mode is a claim about all paths and all interleavings.", "anchors": ["matcher/cache/cache.go:178-465", "matcher/ruleset.go:123-217", "matcher/namespaces.go:170-325", "rules/validator/namespace/kv/validator.go:72-144"]}
{"id": "C91", "title": "A pooled encoder or iterator has one user at a time", "statement": "Users that get a buffered encoder, a msgpack iterator or a sorted tag iterator from a pool, reset it, use it and close it, possibly more than once before it is handed out anew, never share one: an object is in the hands of one user at a time, is not in the pool meanwhile, and holds exactly what that user put into it.", "quantifier": "any number of users and objects, all interleavings of Get, Reset, use and Close, any pool size, objects dropped by the pool at will", "why_tests_cant": "Tests get, use and put back one object; that no interleaving of several users, with repeated closing, makes two of them share one is a claim about all runs.", "anchors": ["encoding/msgpack/buffered_encoder.go:61-74: Reset, Close", "encoding/msgpack/buffered_encoder_pool.go:47-56: Get, Put", "encoding/msgpack/unaggregated_iterator.go:76-115: Reset, Close", "encoding/msgpack/aggregated_iterator.go:59-85: Reset, Close", "metric/id/m3/id.go:173-220: Reset, Close"]}
{"id": "C92", "title": "The store writes where the matcher watches, and keys are apart", "statement": "With one key format that prints the namespace once, the rules store writes the rules of a namespace under exactly the key the matcher watches for it; different namespaces have different keys; and the key of the namespaces is the key of no rule set, unless it has the format's form. The defaults of the matcher have this property. With a format that prints no argument the store and the matcher never use the same key.", "quantifier": "all namespaces, all texts before and after the verb (with % doubled), all keys of the namespaces", "why_tests_cant": "Tests use one format and a few namespaces; that no two namespaces and no format clash is a claim about all of them.", "anchors": ["rules/store/kv/store.go:137-139: ruleSetKey", "rules/store/kv/options.go:35-45: NewStoreOptions", "matcher/config.go:126-129: ruleSetKeyFn", "matcher/options.go:36-38,302-304: defaults"]}
{"id": "C93", "title": "Resolving drop policies keeps what is in force at each time", "statement": "Applying or removing the drop policies of staged metadatas changes at no time what happens to the metric: if the stage in force is not dropped, it stays in force without its drop policies; if it is dropped, the result has no stage in force then or one that drops. (Violated: a stage that drops is removed if any other stage does not, so an earlier stage is in force in its place.)", "quantifier": "all lists of staged metadatas with existing drop policies, all times", "why_tests_cant": "Tests look at the list returned; that it means the same at every time, for all lists, is a claim over lists and times.", "anchors": ["metadata/metadata.go:424-478: StagedMetadatas.ApplyOrRemoveDropPolicies", "rules/match_result.go:93-117: ForExistingIDAt"]}
{"id": "C94", "title": "Callers that resolve drop policies do not disturb each other", "statement": "Any number of callers may take the staged metadatas of a match result, which a cache hands to all of them, at any times and resolve their drop policies: each gets at its time what it would get if it were the first. (Violated: resolving works in place on the shared result.)", "quantifier": "all rules, identifiers and ranges, all sequences of callers and times", "why_tests_cant": "Tests resolve each list once; effects on later callers of the same result depend on the sequence of calls.", "anchors": ["metadata/metadata.go:444-470: removal in place", "rules/match_result.go:93-117: part of the slice in the result", "matcher/cache/cache.go: results are shared"]}
{"id": "C95", "title": "Metadata objects hold what was decoded into them, and a drop stays a drop", "statement": "Whatever metadata objects are decoded into and resolved, in any order, what an object holds is what its last message said, with the drop policies resolved if it was resolved since; in particular an object for which a drop was reported holds the drop metadata. (Violated: an object for which a drop was reported shares the package variable, and decoding into it overwrites the variable; and removing elements in place leaves two places with the same arrays, so that after the next message one shows what belongs to the other.)", "quantifier": "all sequences of decoding into and resolving any number of objects", "why_tests_cant": "Tests decode into fresh objects or resolve literals; the fault shows in other objects, after a sequence of uses.", "anchors": ["metadata/metadata.go:47-51: DropPipelineMetadatas", "metadata/metadata.go:136-156: PipelineMetadata.FromProto", "metadata/metadata.go:199-243: PipelineMetadatas.ApplyOrRemoveDropPolicies", "metadata/metadata.go:283-296: Metadata.FromProto", "metadata/metadata.go:429-478: StagedMetadatas.ApplyOrRemoveDropPolicies", "metadata/metadata.go:497-510: StagedMetadatas.FromProto"]}
{"id": "C96", "title": "What a rule set is told and what it shows is its own", "statement": "A rule set records in each edit the data as they are when the edit is made, and nothing a program later does to its own data changes what is recorded; what a rule set shows (views, clones) can be changed in place without an effect on it or any other rule set.", "quantifier": "all programs: any sequence of edits, clones and views of any number of rule sets, allocations and assignments to elements of any array the program knows", "why_tests_cant": "Whether two slices share an array is not visible in the results of single calls; a test would have to change every piece of data after every call.", "anchors": ["rules/ruleset.go:344-457: AddMappingRule, UpdateMappingRule, AddRollupRule, UpdateRollupRule", "rules/mapping.go:192-210,340-364,431-449: clone, addSnapshot, mappingRuleView", "rules/rollup.go:156-176,308-328,384-404: clone, addSnapshot, rollupRuleView", "rules/rollup_target.go:96-140: newRollupTargetFromView, clone", "policy/storage_policy.go:238-242: Clone", "pipeline/type.go:579-585: Clone"]}
{"id": "C97", "title": "The cache's goroutines finish their work, and closing the cache ends", "statement": "When nobody calls the cache, its two goroutines come to rest after finitely many steps, with at most as many entries as the capacity and one batch and with everything that was given up removed; Close returns: a closed cache's goroutines always have a step to take and both end.", "quantifier": "all states of all executions; all interleavings of the goroutines' steps from there; all configurations with non-negative capacity and batch size", "why_tests_cant": "Termination and the absence of lost notifications concern all interleavings of the goroutines with the callers; tests poll for a state with a timeout in a few schedules.", "anchors": ["matcher/cache/cache.go:245-257: Close", "matcher/cache/cache.go:381-416: evict, doEvict", "matcher/cache/cache.go:418-465: delete, doDelete", "matcher/cache/cache.go:467-479: notifyEviction, notifyDeletion"]}
{"id": "C98", "title": "What is matched can be sent, and arrives", "statement": "Whatever the matcher gives to a metric from stored rules - for the metric itself or for a rollup of it, for any range of times - has a protobuf form: the encoder never refuses a counter, timer or gauge for the metadatas a match gave it, and the receiver gets exactly these metadatas, whatever its reused objects held; so does a forwarded part of a pipeline.", "quantifier": "all stored rule sets that are read, all metrics, time ranges and times; all contents of reused objects; all streams of such metrics; all interleavings of writers, watches and lookups of a deployment", "why_tests_cant": "The rule engine, the store and the encoders are tested apart, each with its own hand-written values; nothing checks that every value one of them can produce is in the domain of the next.", "anchors": ["rules/active_ruleset.go:119-206: ForwardMatch, forwardMatchAt", "rules/active_ruleset.go:294-482: toRollupResults, applyIDToPipeline", "rules/match_result.go:93-117: ForExistingIDAt, ForNewRollupIDsAt", "metadata/metadata.go: ToProto, FromProto", "encoding/protobuf/unaggregated_encoder.go: EncodeMessage", "encoding/protobuf/unaggregated_iterator.go: Next"]}
{"id": "C99", "title": "Setting an option does not change the options it is set on, nor what was built from them", "statement": "Calling a setter returns options that have the new setting and otherwise those of the options it is called on; these, all options got before, and the validators, matchers, caches and iterators built from them behave as before.", "quantifier": "all sequences of calls of the constructors and setters of the options types, on any of the options got so far", "why_tests_cant": "Sharing shows only when several options are derived from one base in some order and used later; tests set options in one chain and use the last.", "anchors": ["aggregation/types_options.go:200-281", "encoding/msgpack/options.go", "encoding/protobuf/unaggregated_options.go", "matcher/options.go:172-296", "matcher/cache/options.go:126-200", "rules/options.go:60-84", "rules/validator/namespace/kv/options.go:83-129", "rules/validator/options.go:169-277", "rules/validator/validator.go:53-58: NewValidator"]}
{"id": "C100", "title": "What is sent and stored follows the published .proto files", "statement": "The bytes an unaggregated encoder holds are, for each message, its size and an encoding, under the declarations of generated/proto/*/*.proto, of a MetricWithMetadatas that says in each declared field what the message says (ids, values, aggregation and storage policies, pipelines, drop policy, types by their published names); the bytes the rule store writes are encodings of a RuleSet and of Namespaces that say what the rule set and the namespaces say. Bytes are an encoding of one contents only, so that any reader of the published format understands the same.", "quantifier": "all messages, rule sets and namespaces with a protobuf form, numbers in the range of their Go types and known drop policies; all runs of encoders and stores", "why_tests_cant": "Round trips through the same code hold just as well if a field or enumeration value is renumbered on both sides; tests compare only what this program writes with what it reads, on samples.", "anchors": ["generated/proto/aggregationpb/aggregation.proto", "generated/proto/pipelinepb/pipeline.proto", "generated/proto/policypb/policy.proto", "generated/proto/metricpb", "generated/proto/rulepb/rule.proto", "generated/proto/rulepb/namespace.proto", "encoding/protobuf/unaggregated_encoder.go:118-217", "rules/store/kv/store.go:87-128", "rules/ruleset.go", "rules/namespace.go"]}
{"id": "C101", "title": "What other programs write following the .proto files is read as it is meant", "statement": "Bytes that the protobuf rules read as a MetricWithMetadatas, a RuleSet or Namespaces saying what a message, rule set or namespaces of this library say are understood here as that message, rule set or namespaces, however they were written: with fields in any order, values given more than once, embedded messages in parts, repeated numbers packed or not, numbers in more bytes than needed, and undeclared fields in between. An unaggregated iterator returns the messages of such a stream in order, and then io.EOF; the rule store returns what it returns for what it wrote itself.", "quantifier": "all messages, rule sets and namespaces that can be sent or stored, all bytes that the rules read so, all earlier states of the iterator", "why_tests_cant": "Tests read only what this program writes, in one order and in the shortest form; there are infinitely many other encodings of each message, and a reader may fail on any of them, or depend on messages read before.", "anchors": ["encoding/protobuf/unaggregated_iterator.go:93-156", "generated/proto", "rules/store/kv/store.go:48-86"]}
{"id": "C102", "title": "The error of a refused rule change tells that it was the change", "statement": "Whenever adding, changing or deleting a rule is refused, alone or in a batch, the error returned is an InvalidInputError or contains one (errors/errors.go: \"returned when a rule or rule change is applied which is invalid\"), so that a caller can tell a bad request from a failure of the service; no error is returned if the change was made.", "quantifier": "all rule sets whose rules have snapshots, all edits and batches of changes", "why_tests_cant": "Each of the many ways in which an edit can fail, in any state and at any place of a batch, must return an error of the right type; tests check that there is an error, on a few examples.", "anchors": ["errors/errors.go:23-29", "rules/ruleset.go:344-511", "rules/ruleset.go:597-641", "rules/mapping.go:340-407", "rules/rollup.go:308-368"]}
{"id": "C103", "title": "What was built from a configuration does not change with the configuration", "statement": "The options of matchers, caches, validators and aggregation types that are built from a configuration have the settings given in it and the defaults for those not given, and go on answering with these settings whatever is later assigned to the configuration or built from it.", "quantifier": "all configurations, and all programs that write configurations and build from them, in any order", "why_tests_cant": "Tests build once from a fresh configuration and never write it again; which of its parts are kept by reference shows only in programs that go on using the configuration, and there are arbitrarily many of these.", "anchors": ["matcher/config.go:83-150", "matcher/options.go:157-170", "matcher/cache/config.go:39-64", "rules/validator/config.go:66-105", "rules/validator/config.go:140-160", "aggregation/type_config.go:58-111", "aggregation/types_options.go:200-231"]}
{"id": "C104", "title": "What a msgpack iterator shows is its message, though it uses its arrays again", "statement": "Next of an unaggregated msgpack iterator answers, and the metric and the policies list then show, what an iterator making new values for each message would, whatever messages it decoded before; what is shown stays until the iterator is used again or the caller gives back or writes the array of a large timer, whatever other iterators sharing the pool and other users of the pool do; an array of the pool has one holder at a time.", "quantifier": "all systems of iterators sharing a pool, all inputs, all orders of Next, Reset, Close, and of taking from, giving back to and writing arrays of the pool", "why_tests_cant": "The slices for identifiers, timer values, policies and staged policies are cut and refilled at each message, and large timers live in arrays that other iterators get next; whether a message shows left-overs of an earlier or another one depends on all sizes and orders, of which tests try a few.", "anchors": ["encoding/msgpack/unaggregated_iterator.go:41-326", "metric/unaggregated/types.go:220-255", "policy/staged_policy.go:36-54"]}
{"id": "C105", "title": "What is configured in YAML is what the document says", "statement": "The YAML document of a configuration of a validator or of aggregation types, or of a pipeline, is read as this configuration or pipeline; lists of types, metric types and storage policies are read word by word; a document with a word that is not known is refused as a whole, so that a configuration that is accepted allows only what its words name; and the JSON text of a pipeline, being a YAML text, is read from YAML as from JSON.", "quantifier": "all documents, all configurations and pipelines, strict and lenient reading", "why_tests_cant": "Documents are trees of any size, each of whose parts is read by a method of its own; tests read a few documents and cannot show that no misspelt or missing word turns into another or the zero value.", "anchors": ["aggregation/id.go:122-133", "aggregation/type.go:228-240", "aggregation/type_config.go:31-143", "metric/types.go:114-127", "policy/policy.go:130-142", "policy/policy.go:208-227", "policy/storage_policy.go:149-160", "pipeline/type.go:114-121", "pipeline/type.go:190-197", "pipeline/type.go:321-350", "pipeline/type.go:475-521", "pipeline/type.go:629-636", "transformation/type.go:148-160", "rules/validator/config.go:43-182", "rules/validator/namespace/static/validator.go:47-62"]}
{"id": "C106", "title": "Lists from the pools of aggregation types and quantiles are their users' own", "statement": "Whatever is done with a pool of aggregation types or of floats, by any number of decompressors and users, every list that Decompress or PooledQuantiles returns holds the types of its identifier (or the quantiles of its types), changed only by what its own user does with it until it is given back: no later decompression, no reuse of a list that was given back and no failed decompression changes it. A decompression fails exactly for identifiers with a bit that is no aggregation type, whatever the decompressor did before, and a list of quantiles is said to be from the pool exactly when there is a pool and at least one quantile.", "quantifier": "all histories of decompressions, with and without the pool, of any decompressors, all changes users make to their lists, all choices of the pool", "why_tests_cant": "Which lists share an array depends on the whole history of gets and puts and on what the pool hands out; tests decompress a few identifiers one after the other and do not look at lists handed out before.", "anchors": ["aggregation/id_compress.go:92-138", "aggregation/types_pool.go:25-61", "aggregation/type.go:338-369"]}
{"id": "C107", "title": "A msgpack stream, whatever its bytes, is decoded to its complete messages", "statement": "On any bytes, each call of Next of the unaggregated and of the aggregated msgpack iterator comes to an end and either returns true, with no error, for a message read from at least one byte at the front of what is left, or returns false, with an error unless the iterator was closed; after that every call returns false and changes nothing. What a message shows depends only on the bytes it was read from and not on those after them: from a stream cut off at any byte exactly the messages are decoded that end before the cut, and there are never more messages than bytes.", "quantifier": "all byte strings, all states of the iterators, all places of a cut", "why_tests_cant": "The input space is all byte strings, and every cut of every stream; tests decode whole streams the encoder wrote and a few broken ones.", "anchors": ["encoding/msgpack/unaggregated_iterator.go:90-151", "encoding/msgpack/aggregated_iterator.go:68-144", "encoding/msgpack/base_iterator.go:74-326"]}
{"id": "C108", "title": "Identifiers may be reused after they were handed to a map", "statement": "The generated hash maps (of the cache and of the matcher) keep copies of the keys they are given: whatever a caller writes in its byte slices before, between and after its calls, every Get answers as for a map whose keys are the bytes that the slices held at the time of each call; this also holds with a pool of key arrays, and no two entries, nor an entry and the pool or a caller, ever have the same array.", "quantifier": "All hash functions, all sequences of making and overwriting slices and of Get, Set, Delete, Reset and Reallocate calls with them, with and without a pool and whichever arrays it hands out", "why_tests_cant": "Callers of the matcher decode each identifier into the same buffer; an entry that shares its memory is lost or answers for another metric only after later, unrelated calls. Tests use constant strings", "anchors": ["matcher/cache/elem_map_gen.go:126-141", "matcher/cache/elem_map_gen.go:144-204", "matcher/cache/elem_map_gen.go:226-255", "matcher/cache/elem_new_map_gen.go:33-72"]}
{"id": "C109", "title": "Overlapping calls of the cache are as if each happened at one moment", "statement": "However calls of ForwardMatch, Register, Refresh and Unregister of the cache overlap with each other, with the eviction and deletion goroutines and with sources whose rules are replaced, there is an order of all calls and replacements, each placed between its own beginning and end, such that every ForwardMatch returns what this order explains: the empty result if no source is registered for the namespace by then, and otherwise a result of the rules that the source registered last has by then (for the range asked for, or still valid at its end), unless that source has yet to announce its new rules with Refresh. While calls are under way one of them can always go on, and none takes more than a fixed number of steps.", "quantifier": "All interleavings of any number of calls, of both goroutines and of rule replacements, at the level of the two locks of the cache, single channel notifications and single questions to a source; all configurations, contents and clocks", "why_tests_cant": "The number of interleavings of even two lookups with an eviction is far beyond what a race test runs, and a lost or stale answer in one of them leaves no trace", "anchors": ["matcher/cache/cache.go:178-245", "matcher/cache/cache.go:262-380"]}
{"id": "C110", "title": "Errors of the writer stick to the msgpack encoders", "statement": "If the buffered encoder that an unaggregated or aggregated msgpack encoder writes to fails at some call, the message being written returns that error and the buffered encoder gets no further call; all later messages return the same error without writing. What was written is the encodings of the messages before, completely, and the beginning of the one that failed. Without a failure every message returns nil and is written completely. Reset makes the encoder as new on the buffered encoder it is given.", "quantifier": "All sequences of messages, all buffered encoders, which may fail at any call, depending on all calls before it", "why_tests_cant": "Tests replace single functions by ones that fail; which of the many calls of a message fails, and what is written then, is not looked at", "anchors": ["encoding/msgpack/base_encoder.go:67-212", "encoding/msgpack/unaggregated_encoder.go:69-195", "encoding/msgpack/aggregated_encoder.go:63-171"]}
{"id": "C111", "title": "Printed forms tell things apart", "statement": "Two pipelines (of rules or applied) whose String is the same are Equal, and two filters, of values or of tags with the same options and operator, whose String is the same match the same values or identifiers.", "quantifier": "All pipelines with any operations, names, tags and aggregations; all applied pipelines; all filter patterns and all maps of tag patterns, negated or not, for both operators", "why_tests_cant": "Tests compare the text of a few pipelines and filters with a constant; that no two different ones share a text is about all pairs", "anchors": ["pipeline/type.go:288-302", "pipeline/type.go:434-449", "pipeline/type.go:600-611", "pipeline/applied/type.go:60-62", "pipeline/applied/type.go:118-131", "pipeline/applied/type.go:216-227", "filters/filter.go:248-330", "filters/filter.go:370-618", "filters/tags_filter.go:106-187"]}
{"id": "C112", "title": "Lookups that overlap updates answer as of one moment", "statement": "Version, ForwardMatch and ReverseMatch of the namespaces, called while namespaces updates are processed and rule sets get new values, return what such a lookup by itself returns at one moment between its call and its return: on the namespaces of the last update completed by then and the rule set as it is then.", "quantifier": "All interleavings of any number of lookups, of namespaces updates (each read and change of the map and of a rule set a step of its own), of new values of rule sets, and of Close; all contents and clocks", "why_tests_cant": "A lookup reads the map under one lock and the rule set under another; what comes in between depends on the schedule", "anchors": ["matcher/namespaces.go:170-226", "matcher/namespaces.go:242-326", "matcher/ruleset.go:130-216"]}
{"id": "C113", "title": "Namespaces are dropped for a reason that held at one moment", "statement": "A namespace leaves the matcher only through an update it is not part of, and only if at one moment before, while it was registered, its rule set was deleted and had a cutover before the match window of that moment.", "quantifier": "All interleavings as of C112 in which the cutover of a rule set does not go back", "why_tests_cant": "Whether the rule set is deleted and when its cutover is are two questions, and a new value may come in between", "anchors": ["matcher/namespaces.go:307-323", "matcher/ruleset.go:137-149", "matcher/ruleset.go:201-210"]}
{"id": "C114", "title": "The unaggregated msgpack iterator accepts exactly the messages of the format", "statement": "Next returns true exactly if the bytes that remain start with a message of the format (a version of at most 1, an object of a known metric type with at least its fields, each of its form, and as many further values as announced), preceded by nothing or, if higher versions are ignored, by messages of higher versions. The metric, the policies list if the message has one, and the bytes left are those of that message; bytes start with one message at most; what the encoder may write is among the messages. Any bytes are one stream of such messages, and calling Next until it returns false delivers these, in order, and nothing else.", "quantifier": "All byte sequences, all states of an open iterator without an error, all msgpack libraries whose calls depend only on the bytes they take", "why_tests_cant": "There are infinitely many malformed inputs, and a check left out (a length, a type number, a word too many) shows only on inputs of one shape", "anchors": ["encoding/msgpack/unaggregated_iterator.go:88-330", "encoding/msgpack/base_iterator.go:60-330"]}
{"id": "C115", "title": "The aggregated msgpack iterator and the raw metric accept exactly the messages of the format", "statement": "Next of the aggregated iterator returns true exactly if the bytes that remain start with a message of the format, after ignored messages of higher versions; the raw bytes, the storage policy, the encode time (0 without) and the bytes left are those of that message, of which there is one at most. Of a raw metric the identifier is had exactly if its bytes start with a version of at most 1, a number of at least 3 fields and an identifier; the time exactly if an integer follows; value and metric exactly if a float follows that. What the encoder may write is among the messages. Any bytes are one stream of such messages, and calling Next until it returns false delivers these, in order, and nothing else.", "quantifier": "As C114, and all byte sequences as raw metric", "why_tests_cant": "As C114; the lazy accessors stop at different places", "anchors": ["encoding/msgpack/aggregated_iterator.go:68-144", "encoding/msgpack/raw_metric.go:60-192"]}
{"id": "C116", "title": "The protobuf code accepts exactly the bytes that decompose into declared and skippable fields", "statement": "Unmarshal of a metric message, a rule set or namespaces returns without an error exactly if the bytes are a sequence of fields: declared ones of the wire type of their type, with a whole number, eight bytes, or a size and that many bytes, which for an embedded message are again such a sequence; packed numbers; and fields of other positive numbers below 2^31 that are whole. This does not depend on what the message contained. What follows the .proto files is among it. If Next of the unaggregated protobuf iterator returns true then it has read a size of at most the largest and that many bytes that are such a message; a rule set or namespaces read from the store were such bytes. Beyond the encoding documentation are only: bits of a varint above 64 and of a field number above 32, field numbers of 2^29 and more, field number 0 in a group, the number at the end of a group, packed numbers that end after their size or whose size overflows, numbers that are no value of an enumeration and strings that are not UTF-8. Of the liberties other than that with strings: what is accepted with all of them is what Unmarshal accepts, what is accepted with none is what has contents by the documentation, and each by itself is made use of.", "quantifier": "All byte sequences shorter than 2^63 and all messages they are read into, for all kinds of fields of all messages of the .proto files", "why_tests_cant": "Tests unmarshal what was marshalled; which of all byte sequences are refused is a property of the set of all of them", "anchors": ["generated/proto/metricpb/metric.pb.go:502-601", "generated/proto/metricpb/metric.pb.go:656-702", "generated/proto/metricpb/metric.pb.go:1116-1215", "generated/proto/rulepb/rule.pb.go:1275-1320", "encoding/protobuf/unaggregated_iterator.go:93-156", "rules/store/kv/store.go:50-85"]}
{"id": "C117", "title": "A stream of both protocols is taken message by message, whatever its bytes", "statement": "Next of the migration iterator reads bytes of which the first is odd as msgpack: it delivers exactly if they start with a message of the msgpack format (after ignored messages of higher versions), the message with the metadata of its policies list or of the last one before, and leaves the rest. Bytes of which the first is even are left to the protobuf iterator: what is delivered was a size, at most the largest, and that many bytes of a message. Otherwise nothing is delivered, the message is as before, and the iterator stops with the error of the one that read, or io.EOF if there was nothing to read; having stopped or been closed it stays as it is. A call panics exactly where the first byte is even and the announced bytes make the generated protobuf code panic; calling Next until it returns false ends, with an error, after at most as many messages as there are bytes, when there are less than 2^62 bytes and no number from 2^62 to 2^63 among them.", "quantifier": "All byte sequences, all iterators that have neither stopped nor been closed (stopped: all), all msgpack libraries whose calls depend only on the bytes they take", "why_tests_cant": "All byte sequences, and all mixtures of protocols in a stream", "anchors": ["encoding/migration/unaggregated_iterator.go:72-155", "encoding/migration/convert.go:33-66"]}
{"id": "C118", "title": "Senders may change from msgpack with policies to protobuf with metadata", "statement": "For any list of metrics with policies, of which each is sent either as a msgpack message with its policies or as a protobuf message with the metadata these mean, the migration iterator delivers all of them in order, each with that metadata, and then reports io.EOF. So two senders that choose differently are not told apart, except by the sign of a gauge that is zero, which protobuf loses. Every metric with policies that can be written as msgpack can be converted to protobuf and sent, unless it is larger than the largest message.", "quantifier": "All lists of metrics and policies, all choices of the protocol for each, all msgpack libraries that obey the laws of C21, all further fields in msgpack objects", "why_tests_cant": "All lists of messages and all mixtures of the protocols; the tests have a few fixed streams", "anchors": ["encoding/migration/unaggregated_iterator.go:72-155", "encoding/migration/convert.go:33-130", "encoding/msgpack/unaggregated_encoder.go", "encoding/protobuf/unaggregated_encoder.go"]}
{"id": "C119", "title": "Exactly which texts are policies, and when the Must functions panic", "statement": "ParseResolution reads exactly d or d@p, split at the first @, with durations d and p of which p is the length of a unit (without p the precision is the largest unit that fits); ParseStoragePolicy exactly r:d with a single colon; ParsePolicy exactly a storage policy or one followed by | and the comma-separated words of at least one aggregation type; the result is determined by the text. MustParseResolution, MustParseRetention, MustParseStoragePolicy and metric.MustParseType panic exactly for all other texts; MustCompress and MustCompressTypes exactly for lists with something that is no aggregation type, whatever the compressor was used for before, MustDecompress exactly for identifiers with a bit that is none; MustUnaryTransform and MustBinaryTransform exactly where UnaryTransform and BinaryTransform return an error, which is for everything but absolute, or per-second. Otherwise the result is the same.", "quantifier": "All byte strings, all lists of integers, all 64-bit identifiers, all ways to read durations", "why_tests_cant": "The texts that are not accepted are infinitely many; tests list a few", "anchors": ["policy/resolution.go:87-125", "policy/retention.go:64-79", "policy/storage_policy.go:163-187", "policy/policy.go:145-171", "metric/types.go:92-111", "aggregation/id_compress.go:62-145", "aggregation/id.go:154-166", "transformation/type.go:59-95"]}
{"id": "C120", "title": "The default namespaces of a namespace validator are those it was given", "statement": "Options of the key-value namespace validator, and validators made from them or from a configuration, behave as values: a setter returns new options that differ in the one setting; SetDefaultValidNamespaces and the configuration take the names as they are at the call, so that later assignments to the list handed in, or to a list that the getter returned, show in no options and no validator; a validator accepts the names of the last value it was notified of and, when the store has none, the default namespaces it was made with; settings that a configuration does not give are at their defaults.", "quantifier": "All programs of calls of the constructors, setters, the getter of the default namespaces, configurations, notifications and assignments to elements of lists, in any order", "why_tests_cant": "All sequences of calls and all ways of sharing lists", "anchors": ["rules/validator/namespace/kv/options.go:67-133", "rules/validator/namespace/kv/config.go:40-61", "rules/validator/namespace/kv/validator.go:55-69", "rules/validator/namespace/kv/validator.go:134-144"]}
