# Design: a Lean 4 model of m3metrics and its proofs

## 1. Scope and method

`/repo` (m3db/m3metrics, pinned commit) is read as text. `/verif/lean` contains a hand-written functional model
of the Go code. Each model definition cites the file and lines it follows and states its simplifications.
`/verif/properties.jsonl` lists the properties; `/verif/MANIFEST.json` links each of them to theorems.

Layout of `/verif/lean/Verif/`:

* `Model/…` – definitions that follow the code function by function.
* `Spec/…` – small independent specifications (written without using the model's helpers).
* `Lemmas/…` – proof machinery.
* `Props/…` – the property theorems, each next to a concrete non-trivial `example` meeting its hypotheses.

Conventions

* Go slices are lists. Where the code reuses the capacity of a slice, or shares a backing array, and the property
  is about exactly that, the reused contents are an explicit parameter (a "dirty destination").
* Go strings and `[]byte` are lists of bytes (`List UInt8`) in the codecs and filters.
* Maps are association lists or functions; random map iteration order is an explicit parameter when it matters.
* `int64`/`uint64` values are `Int`/`Nat` unless overflow is part of the property; then `BitVec`/`UInt64` or an
  explicit range hypothesis is used.
* Errors are values (`Except`/`Option`), panics are an explicit outcome, nil is explicit.
* Goroutines/locks/channels: a transition system whose steps are the critical sections; theorems quantify over all
  step sequences.
* External code (xtime, msgpack.v2, gogo/protobuf runtime, m3cluster kv, pools, Go `sort`, Go `float64`) is a
  parameter with recorded assumptions, or a specification written down in the model and listed in section 3.

## 2. Properties: what is modelled and how it is proved

| Id | Model | Proof |
|----|-------|-------|
| C01 | `Compress`/`Decompress` bit loops over `UInt64`/`Nat` words | induction over the type list and over bit positions |
| C02 | same, on raw words | bit-level induction, finite table by kernel `decide` on the 23 type codes only |
| C03 | `Types.String`, `ParseTypes` on byte lists with `strings.Split` | induction; injectivity of the 22-entry table |
| C04 | options record and setters as state machine | invariant: derived tables = function of base fields |
| C05 | `PooledQuantiles` loop | loop invariant; quantile table |
| C06 | printers/parsers; xtime printer/parser as parameters with round-trip hypotheses | split lemmas; numbers that are no drop policy print as "drop_none" (`C06_drop_text`) |
| C07 | sort + compare | sorting is canonical for a strict total order, permutation lemma |
| C08 | `ToProto`/`FromProto` with destination parameter | case analysis; independence of the destination |
| C09 | sort tags + compare | as C07 |
| C10 | pipeline `Clone`, `Proto`, `NewPipelineFromProto`, `SubPipeline` (both kinds of pipelines) | induction over operations |
| C11 | reuse loops with old contents | induction; result independent of old contents |
| C12 | as C11 for metadata | as C11 |
| C13 | `Clone` as written (drops `DropPolicy`) | negation with a witness; `_partial` for default drop policy |
| C14 | in-place loop of `ApplyOrRemoveDropPolicies` | loop invariant to `filter` spec; invalid drop-policy values are the counterexample |
| C15 | staged variant | loop invariant |
| C16 | generated `Unmarshal` merging into a reused message, reset functions, iterator state | any two states that agree on what is set: same outcome; witness for the hollow messages; `_partial`; which fields stay allocated is followed through all messages read (`C16_exact`) |
| C17 | varint framing, generated `Marshal`/`Unmarshal` byte by byte, buffer growth, decoder loop, encoder | round trip of varints, of each message, of streams by induction; cut streams; from any run of an encoder to the iterator |
| C18 | decoder on arbitrary bytes with explicit panic | negation witnesses (negative size, overflowing length); exact condition for a call to panic; `_partial`: no panic on streams of less than 2^62 bytes without a number from 2^62 to 2^63 and without negative sizes |
| C19 | encoders, buffers given away, iterators and other users of one pool as a state machine over byte arrays with identities | refinement to byte lists, all interleavings and choices of the pool |
| C20 | as C19 | counting owners, invariant over all steps; frame lemma: who writes what; with the pool everywhere, no array is lost (`C20_none_lost`, `C20_all_back`), and what an iterator read stays (`C20_read`) |
| C21 | msgpack encoder and iterator over an abstract library `Lib` with `Laws`; `std` is a concrete library that has them | relations between values and their bytes (`WItem`), encoders satisfy them, iterator reads them; induction over the stream (`C21_roundtrip`) |
| C22 | the same; objects with further fields (`Obj`), messages of higher versions | `C22_stream`, `C22_extra_fields`, `C22_ignored`, `C22_rejected` |
| C23 | aggregated encoder and iterator, lazy raw metric | `C23_roundtrip` for all scripts of accessor calls, via `C23_access` (stages of the raw metric) |
| C24 | raw metric with sticky error | `C24_violation` (truncated data), `C24_partial`, `C24_or_error`; exactly: after any history (`C24_exact`); order shows iff some fields can be read and others not (`C24_order_iff`) |
| C25 | iterator `policiesList` field | `C25_violation`, `C25_stale`, `C25_partial`; exactly: iff before every message without policies the last list is empty (`C25_iff`) |
| C26 | migration iterator over both iterators with a shared reader; parity dispatch | induction over mixed streams (`C26_stream`), parity of the size of a frame (`frame_even`); `C26_partial`, `C26_violation_*`; iff before every msgpack message without policies the last list is empty (`C26_iff`) |
| C27 | `toMetadata`, `ToStagedMetadatas` | equal to a grouping specification (`firsts`, `grouped`), consequences in `C27_pairs` |
| C28 | filters as functions; pattern grammar with denotational semantics | per-constructor equivalence; negation witnesses for overlap and greedy alternatives; exact matching of all accepted patterns against a second semantics (a reader who never goes back) |
| C29 | index-checked variants returning `none` on out-of-range | totality |
| C30 | merge loop of `tagsFilter.Matches` | induction on two sorted lists |
| C31 | string splitting | induction |
| C32 | `NewRollupID`, `NameAndTags`, tag iterator | insertion sort canonical, split lemmas |
| C33 | tag lookup | induction |
| C34 | backwards scan, binary search | induction; binary search invariant |
| C35 | `ActiveSet` | suffix lemma |
| C36 | `ForwardMatch` | negation witness, `_partial` under strictly increasing cutovers; the exact result without conditions |
| C37 | `ForwardMatch` | no cutover in the interval ⇒ same point matches |
| C38 | `mergeResultsForExistingID` | invariant |
| C39 | `mergeResultsForNewRollupIDs` | merge invariant over sorted id lists; without conditions, and for any sort: what all entries of an identifier say together (`C39_together`) and how many there are (`C39_entries`), by induction over the merging loop; identifier by identifier (`Props/ForwardOne.lean`): one entry iff generated at most once at each stage (`C39_one_iff`), and then the history is right (`C39_one_partial`) |
| C40 | `unique` | loop invariant |
| C41 | mapping + rollup combination | negation witness, `_partial` |
| C42 | as C41 | direct |
| C43 | `matchRollupTarget` | induction on two sorted lists |
| C44 | reverse match | negation witness (nested tag sets), `_partial`; for every rule set, the first fitting step in force decides (`C44_exact`) |
| C45 | filter loop | loop invariant |
| C46 | rule-set edit operations | invariant: snapshots with cutover < T unchanged |
| C47 | as C46 | case analysis |
| C48 | as C46 | invariant by induction over edits |
| C49 | as C46 | negation witness for renaming update; `_partial` without renaming; exactly which edits, and which sequences, keep live names apart: those that use no name of another live rule (`C49_edit_exact`, `C49_exact`, `Props/RuleNames.lean`) |
| C50 | batch application | negation witness; `_partial` (success ⇒ all applied; failure ⇒ prefix applied); unchanged iff the first change fails, by counting snapshots (`C50_unchanged_iff`) |
| C51 | proto conversion of rules | induction; witness for the lossy case; lost iff a snapshot without storage policies has aggregation types (`C51_loss_iff`) |
| C52 | validator + edits + reload (`Props/ValidatorReload.lean`) | negation witnesses; `_partial`: accepted ⇒ readable iff the snapshots not shown are; induction over edits validated one by one |
| C53 | `Model/Validator.lean`: the whole of rules/validator/validator.go, loops with carried state, characters as runes | equivalence with the declarative predicate of `Spec/Validator.lean` |
| C54 | `Model/Namespace.lean` | refinement to per-name histories, for all call sequences (`Props/Namespace.lean`) |
| C55 | `Model/Namespace.lean` | round trip holds exactly for storable namespaces (`C55_exact`), copies, views |
| C56 | `Model/Store.lean`; clients = objects they hold, actions interleaved at will | invariant over all action sequences (`Props/Store.lean`) |
| C57 | the combined writes of creation, deletion, revival | invariant over all action sequences (`Props/StoreLifecycle.lean`); fewer than 2³¹ writes |
| C58 | cache transition system | invariant over all step sequences |
| C59 | cache + match | uses C37; negation witness for earlier start |
| C60 | cache transition system | invariant |
| C61 | pointer-level list (heap map) | refinement to an abstract list |
| C62 | cache | negation witness (orphaned entry) / partial: executions without the race; in all executions, entries that no map holds are never found nor moved ahead again, and leave with the next pass that finds enough entries in front; exact step condition for losing an entry (`Props/CacheOrphans.lean`): the effect of a pass on lookups is a conjunction over the entries removed (`evictLoop_cached`, `C62_pass`), so entries are lost exactly by passes that remove an older entry of the same identifier (`C62_lost_iff`), and C62 holds without them (`C62_careful_partial`) |
| C63 | `Model/Matcher.lean`: rulesets as objects, the two loops of `process`, any iteration order, outcome of `Watch` as a parameter | characterisation of the state and the calls after an update (`Props/Matcher.lean`); invariant over histories |
| C64 | transformation/binary.go, unary.go over a model of IEEE binary64 (`Model/Float`) | case analysis; distance of the computed rate from the exact one bounded; comparison, rounding ties and division by zero stated by themselves (`C64_arithmetic`); rounding keeps the order of fractions, so that a larger rise in a shorter time is never given a smaller rate (`C64_order`); negation witnesses |
| C65 | conversions of all message kinds, message union | forms of protobuf messages as a separate specification; round trip, independence of the destination |
| C66 | permutation of rules | permutations carried through the closed forms of C40; representatives of equal pipelines matched up |
| C67 | rules/validator/namespace/kv, static: validator, value and watch as a state machine | invariant over all interleavings |
| C68 | views | induction; with repeated uuids the shown and the live rules are counted (`C68_exact`) |
| C69 | rules as objects in a memory shared by rule sets, clones and active sets (`Model/RuleHeap`); clone as a value | refinement to value semantics for all interleavings; congruence |
| C70 | the whole matcher: cache, namespaces, rulesets, callbacks, interleaved entry by entry (`Props/MatcherCache.lean`) | invariant linking the registered sources with the rulesets of the namespaces |
| C71 | as C69 | invariant: active sets share no rule with a rule set; negation witness; without conditions, which rules of an active set stay and which follow the rule set (`C71_exact`: pointers followed through any program, `Props/ActiveShared.lean`) |
| C72 | rules/ruleset.go edits, views | generic lemma over both rule kinds: which rule gets which snapshot; acceptance as iff |
| C73 | rules/convert.go, v1 stored forms | loop invariant; result characterised as the ordered set of the policies read |
| C74 | generated Unmarshal and skip functions, the protobuf iterator | wire format as an inductive relation written after the protobuf documentation; fields do not look past their end (`Steady`), success does not depend on the destination (`Uniform`); induction on the relation `Newer` that adds unknown fields at any depth |
| C75 | msgpack unaggregated iterator | credit argument: every decoder is shown to spend at least the weight of its result (`Spends`, `Leads`), composed along the monadic code; a short input with a large announced length refutes the case of an error; where `Next` returns false, the values beyond those read are zeros (`C75_zeros_partial`, by an invariant that all decoding functions keep, `Honest`) |
| C76 | setters of rules/validator/options.go | what is allowed after any calls, as a function of the calls; negation witness |
| C77 | transformation/type.go | case analysis; agreement with the protobuf form and the rule validator |
| C78 | the generated hash maps (four copies of one template), hash function a parameter | refinement to a function from keys to values; without deletions for any hash function (entries stay reachable from their hash), with deletions if no two keys collide; both failures of deletion proved for any two keys that collide; which keys one Delete loses: the probes of each key before and after (`C78_delete_exact`) |
| C79 | generated Marshal/Unmarshal of rule sets, namespaces, pipelines and policies; the store on bytes | each field writes what it reads (`Writes`), chained through the nested messages; refinement of the store on messages by the store on bytes, by induction over the calls; reading is `Calm` |
| C80 | rules/validator/config.go, the static namespace validator, the texts and protobuf form of metric types; on top of the validator and of the matcher | the options are computed in closed form (fold over the overrides); a filter that matches a metric accepts its type on the type tag (C30), so the metric's type is among those the validator checked (C53); the pipelines that are given come from live rules (C40) whose last snapshots are shown (C68) |
| C81 | the `MarshalJSON`/`UnmarshalJSON` methods and the views with JSON tags as codecs between values and JSON values; encoding/json is modelled on JSON values: field lookup by name and then up to case and the two letters outside ASCII that encoding/json takes for s and k, omitted fields, reading over older contents | generic lemmas on lists, pointers and structures (each field is written and read in turn); what is written by `Writes`, what is read by an invariant over the members in any order; `C81_form`: what is written and read is the published form of Spec/JsonForm, member by member; `C81_spelling`: members are found under exactly the spellings of Spec/Json; `C81_policies_partial`, since policies with unknown types are written but not read |
| C82 | aggregation/type_config.go; the default quantile names with the model of binary64 multiplication (Model/Float.lean) and shortest decimal formatting | the 22 names are evaluated in the kernel (the whole domain), the rest by the invariant of C04 and its lookup theorem |
| C83 | the checks of types and of lists of types per metric type | closed forms of the switches by arithmetic, loops by induction; for timers `_partial` and a negation, and exactly what is accepted (`C83_timer_exact`) |
| C84 | `Equal` of rules/view; on top of storing, loading and matching | closed form of each `Equal` (policies and tags by C07-like sorted comparison); equal views give alike snapshots, and alike snapshots are followed through loading, dedup, forward and reverse matching |
| C85 | the `Less` functions of changes and views; `sort.Sort` by its contract (a permutation without descent), not as an algorithm | on documented changes `Less` is the strict part of an order by rank and label, so arrangements without descent are unique up to keys; `_partial`, with a cyclic ordering for deletes that carry rule data; `C85_asym`: of any two changes at most one is before the other |
| C86 | reverse matching (as for C44) | plain identifiers: permutations are followed through the resolution of pipelines; rollup identifiers: matching is a `find?` over the rollup steps in force, which gives the same for any order if the steps that may fit agree; `_partial`, with a negation witness; exactly when the order does not show: each rule is moved to the front (`C86_exact`) |
| C87 | the conversions of watched values (matcher/ruleset.go, matcher/namespaces.go); a transition system of the byte-level store (C79) and the matcher with its cache (C70), joined by "a watch hands over some stored value" | invariant over all steps: every value under a key was vetted and written on top of the one before, every ruleset's rules are of a stored value; the matcher's part is a run of C70; with C80 and C88: permitted pipelines |
| C88 | none beyond C51, C53, C56 | the closed form of the validator (C53) on the latest view, and the closed form of a reload (C51): each check is followed through the changes storing makes; `C88_not_conversely` shows the converse fails |
| C89 | the lock operations and accesses of every function of matcher/match.go, namespaces.go, ruleset.go, cache/cache.go and the kv namespace validator, as programs with free branches and loops; threads, RWMutexes with waiting writers (`Model/Locks.lean`) | every program takes locks in the order value of namespaces, namespaces, value of ruleset, cache, ruleset, list; general theorem: threads that do so can always go on (the one that wants the highest lock, or its holder) and finish; `C89_callback_outside` and `C89_unwatch_outside` show that moving a call inside a lock, against the comments in the code, gives a deadlock |
| C90 | the same | invariant over all steps: a lock held alone is held by nobody else, accesses happen under the lock of the state |
| C91 | pools as bags of objects with a closed flag and contents; Get, Reset, Close, Put of buffered encoders, msgpack iterators and sorted tag iterators (`Model/Pool.lean`); users that interleave at will | invariant over all steps; `C91_violated`: closing a sorted tag iterator twice, which has no flag, hands it to two users; `C91_once_partial`: closing once; exactly which second closing is harmful: two gets, or the invariant still holds (`C91_again_exact`) |
| C92 | `fmt.Sprintf` with one argument for formats with `%s` and `%%`; the key functions of store and matcher, and the defaults (`Model/Keys.lean`) | induction over the text of the format; gives the hypothesis `KeysOK` of C56, C57 and C87, exactly when it holds |
| C93 | `applyStaged` (C15) against the stage in force at a time, a separate small definition | exact description of what is in force after resolving; `C93_violated` from a match over real rules; what holds: stages not dropped stay in force, and at the time of the answer itself nothing dropped is kept |
| C94 | the array behind the stages of a match result, through any number of callers (`Model/Resolve.lean`) | `C94_violated` with two callers; `C94_partial`: induction over callers if no stage is kept after a dropped one; that this is the exact condition: in the array the stages kept become more at every removal before a kept stage (`C94_iff`, `Props/ResolveExact.lean`) |
| C95 | metadata objects with their memory: the arrays of stages, pipelines, storage policies and operations, which decoding uses again and resolving writes in place, and that of `DropPipelineMetadatas` (`Model/MetaMemory.lean`) | refinement to what each object should hold, over all sequences of uses of any number of objects; invariant: no two places have the same array; `C95_violated`, `C95_violated_pipelines`, `C95_violated_stages`; `C95_partial`: an object in which resolving moved elements is only looked at afterwards; resolving again what resolved to a drop leaves the drop metadata (`C95_again`) |
| C96 | memory with arrays of policies and of operations, snapshots and views that hold them; edits keep the arrays of the view, clones and views make new ones; programs that assign to arrays (`Model/ViewShared.lean`) | refinement to rule sets as values (`RuleSet.edit`, `RuleSet.clone`) over all programs; `C96_violated`; `C96_partial`: programs that assign to no array given to a rule set; `C96_iff`: which assignments change a rule set; `C96_new`: views and clones have arrays of their own |
| C97 | the state machine of the cache (`Model/Cache.lean`) | a measure that each step of a goroutine decreases (`C97_ends`, `C97_rests`), the wake-up invariant of C60 at rest (`C97_done`), enabledness after closing (`C97_close`); outside: `C97_after_close` |
| C98 | rule sets as read, matching, metadata, messages, stream | every stage of a result is made of what readable rules ask for (`range_stages`, `point_ok`), which is in the domain of the conversions of C12, C65 and C17 (`C98_metadatas`, `C98_forwarded`, `C98_encodes`, `C98_stream`); with C87 for a deployment (`C98_deployed`); outside: `C98_unread` |
| C99 | options as objects behind pointers, setters that copy and setters that write in place (`Model/OptionsHeap.lean`) | simulation by values without pointers (`C99_values`, `C99_kept`, `C99_setting`, each validator setter sets what it is named after: `C99_setters`) for all options but the validator's; for these negation witness (`C99_violation`), what is the case instead (`C99_all_alike`, `C99_validator`) and partial: options used once (`C99_partial`) |
| C100 | the .proto files transcribed (`Spec/Schema.lean`), with the encoding documentation as a relation between declarations, contents and bytes; what each value says in the published fields (`Spec/SchemaContents.lean`) | the template of the generated code follows the relation field by field (`Lemmas/Schema.lean`), hence messages, streams, rule sets, namespaces and the store (`C100_message`, `C100_stream`, `C100_ruleSet`, `C100_namespaces`, `C100_store`); the relation is functional (`C100_unambiguous`, `C100_stream_unambiguous`); the constants of package aggregation are the published numbers (`C100_types`) |
| C101 | the parsing rules of the encoding documentation as a relation `Reads` (`Spec/SchemaRead.lean`): any order, last value counts, embedded messages merged, packed or not, numbers of any length, undeclared fields passed over | each kind of field of the template takes what the rules say (`Lemmas/SchemaRead.lean`), hence every message (`Lemmas/SchemaReadMessages.lean`, `Lemmas/SchemaReadRules.lean`); encodings in the sense of C100 are read as their contents (`C101_encoded`), so both byte strings are read as the same message (`C101_same`), and the results for what is written here carry over (`C101_stream`, `C101_ruleSet`, `C101_namespaces`) |
| C102 | the types of the errors of edits, followed beside the edits (`Model/EditErrors.lean`); `xerrors.Wrap` as a constructor that keeps the error inside | case analysis of each edit: fails exactly if there is an error, and which error (`C102_edits`); batches by induction, with the invariant that every rule has a snapshot (`C102_partial`); violated for invalid filters and for deletion and revival of rule sets (`C102_violation`); exactly for batches (`C102_batch_iff`, by induction on the changes) |
| C103 | configurations of matchers and caches behind pointers, lists of types as arrays, and what was built with the references it keeps (`Model/Configured.lean`); steps write or build | settings by case analysis (`C103_settings`); by induction on programs, built options stay and answer the same unless what they refer to is given other contents (`C103_partial`), which for caches there is not (`C103_cache`); violated for key formats, allowed metric types and default aggregation types (`C103_violation`); exactly: what was assigned last is in force (`C103_exact`, by induction on the program) |
| C104 | the unaggregated msgpack iterator with slices into arrays that it writes in place, and iterators sharing a pool of arrays of floats, as a state machine (`Model/MsgpackMemory.lean`); the specification is the view of an iterator (`Spec/MsgpackMemory.lean`) | function by function, what is seen after the code on memory is what the code on values (`Model/Msgpack.lean`) gives (`C104_next`, `C104_reset`, `C104_close`), with the invariant that no array has two users (`C104_one_holder`, `C104_lent`); from it what is shown stays (`C104_stays`, `C104_message`), and no iterator notices another (`C104_alone`); arrays come from the pool only for timers larger than the size for large ones (`C104_large_only`) |
| C105 | the `UnmarshalYAML` methods and the configurations read by their tags, over YAML values (`Model/Yaml.lean`); the documents are written out member by member (`Spec/Yaml.lean`) | documents in the order of the fields are read field by field (`C105_config`, `C105_types_config`, `C105_pipeline`); lists of words are characterised exactly (`C105_lists`, `C105_words`); what readers keep on values without null by induction over members (`C105_known_partial`); reader by reader agreement with `Model/Json.lean` (`C105_json`); nulls in lists are the violation (`C105_violation_null`), null members are as if they were not there (`C105_null_members`), and null numbers are zero (`C105_null_number`); with nulls allowed, lists of words are again characterised exactly (`C105_lists_exact`) and nothing but known words and the zero value comes into a configuration (`C105_zero_or_known`) |
| C106 | the pools of lists with arrays that lists share (`Model/ListPool.lean`), histories of decompressors and users over them | refinement: what the lists show is what a specification without pools and arrays shows, by an invariant (no array is in two lists, handed out or free) over all histories (`C106_types`, `C106_quantiles`); results and errors at any time (`C106_succeeds_iff`, `C106_pooled_iff`); a list given back twice is outside (`C106_given_back_twice`) |
| C107 | the iterators of `Model/Msgpack.lean` and `Model/MsgpackAgg.lean` on any bytes | every decoding function, unless it ends in an error, does the same whatever comes after the bytes it takes (`Cuts`, composed function by function); from it one message (`C107_message`), and streams and their cuts by induction on calls (`C107_cut`, `C107_few`); false exactly with an error (`C107_stopped`); the fuel of the model is never used up (`C107_recursion`); for both iterators by one proof over what they have in common |
| C108 | the generated maps with the arrays of their keys: `Model/KeyMemory.lean` (callers' arrays, the map's arrays, the pool) | refinement to the map of values of C78 by an invariant: every entry has an array of its own, which neither a caller nor the pool has (`C108_keys_are_copies`, `C108_not_shared`); `SetUnsafe` is shown not to have the property (`C108_unsafe_shares`, `C108_unsafe_panics`); that `newElement` (matcher/cache/list.go:42-51) copies the namespace and identifier of an element as well is read off the code only |
| C109 | the cache at the level of its locks: `Model/CacheFine.lean` (any number of calls, each with a program counter; taking and giving back the lock, each access to the list, each notification, asking the source are steps of their own) | forward simulation to the state machine of C58/C60 (`Rel`, `move_sim`, `Rel.step`): the goroutine that deletes and the lookups that promote go on while another call is in the middle of its work, so removals from the list are shown to commute (`remove_comm`); new rules that take effect between a lookup asking its source and storing the answer are placed after the lookup; from it linearizability of the history (`C109_linearizable`), that the states between critical sections are those of the coarse machine (`C109_states`), absence of deadlock (`C109_never_stuck`), that the goroutines wait for nothing but the lock (`C109_work`) and a bound on steps (`C109_steps`) |
| C110 | the msgpack encoders as programs that call a buffered encoder: `Model/MsgpackEncoder.lean`; which calls fail is any function of the calls before; the encodings of `Model/Msgpack.lean` and `Model/MsgpackAgg.lean` as what the calls write | each part of a message makes a list of calls (`Makes`), up to the first that fails; induction over the messages |
| C111 | the `String` methods: `Model/Text.lean` | a text is read from the left: each part ends where its closing mark first occurs (`cut_unique`, `join_unique`); for filters a reader is written and shown to give back every filter of a plain pattern (`readFilter_eq`, `filter_unique`) |
| C112 | the namespaces at the level of their locks: `Model/Lookups.lean` (any number of lookups, each with a program counter; the two loops of `process` step by step; values of rule sets at any time) | invariant: what is shown to lookups and is no longer in the map is unwatched or about to be; a rule set that is out of the map is never changed again (`Dead.step`), so that a lookup which found it answers as of the moment before the update was completed (`C112_one_moment`) |
| C113 | as C112 | the reasons for a removal are carried along the execution (`judged`); if cutovers do not go back, the cutover read later bounds the one at the moment `Tombstoned` was asked (`C113_dropped`); outside: `C113_outside` |
| C114 | as C21; the format of what is read is `Spec/MsgpackForm.lean` (`Message`), in terms of what the library takes for an integer and so on | a calculus of decoders that succeed exactly on the bytes of a form (`Exact`), closed under sequence, choice, repetition and objects with further fields; the decoders that store into the iterator are simulated by ones that return the message; induction over the loop (`C114_exactly`, `C114_delivered`, `C114_unique`, `C114_written`); `C114_stream` for whole streams, by induction over the calls |
| C115 | as C23; `AMessage`, `PointID` | the same calculus (`C115_exactly`, `C115_delivered`, `C115_unique`, `C115_written`, `C115_stream`), the stages of the raw metric (`C115_raw`) |
| C116 | as C18, C79, C101; which bytes are taken is `Spec/SchemaAccept.lean` (`Accepted`), over the same declarations as C100 and C101 | each kind of field succeeds exactly on its records (`Takes`), skipping exactly on what may be passed over (`skip_passed`, `passed_of_skip`), one round of the loop as an iff (`run_ok_iff`), induction on the bytes (`run_exact`); what goes beyond the documentation is `Spec/SchemaLiberty.lean`, the same description with the liberties as a parameter: with all it is `Accepted`, with none it is to be readable (`C116_liberties`), by induction with contents in which each embedded message that occurs once is there at most once (`Shape`); a witness for each liberty (`C116_each_taken`) |
| C117 | as C26; the formats are those of C114 and C116 | the case of msgpack is C114 and C107 on the iterator inside, the case of protobuf is C116 on the other; the iterator keeps both in order (`Open`) (`C117_msgpack`, `C117_msgpack_not`, `C117_protobuf`, `C117_frame`, `C117_end`, `C117_stopped`); an even first byte is never that of a negative size, so that of the two ways to panic of C18 only the one inside `Unmarshal` is left (`C117_panics_iff`), and reading ends (`C117_ends`) |
| C118 | as C26; `UnitsKnown`: units of time are told apart by their lengths, and seconds and minutes are among them (`x/time` of m3x, trusted) | `Sends` says what the bytes of a metric with policies are in either protocol; by C26 each is delivered, the metadata made from policies has no operations, so that converting it to protobuf and back changes only a negative zero (`C118_delivered`, `C118_same`; needed: `C118_zero`); by C65 the conversion succeeds for everything that msgpack can write (`C118_can`) |
| C119 | as C06; how durations are read is a parameter (`XTime`) | the texts are specified in `Spec/PolicyText.lean` by their shapes; splitting at a separator is undone by joining, and the parts have none (`C119_resolution`, `C119_storage`, `C119_policy`); the functions that panic (`Model/Must.lean`) by the theorems about the others (`C119_must_parse`, `C119_must_compress`, `C119_must_transform`) |
| C120 | rules/validator/namespace/kv/{options,config,validator}.go (`Model/NsOptions.lean`): arrays, options, validators and the slices a program has; creating the store does not fail; `kvutil.StringArrayFromValue` (m3cluster, trusted) gives the default namespaces when there is no value | `Spec/NsOptions.lean` is the same program on values. Invariant `HInv`: a list that the program made is nobody else's, as setter and configuration copy; so assigning to it changes it alone (`C120_values_partial`). The array of a configured validator is reachable by no call (`Private`, `C120_configured`). Partial, see §4: `C120_violated`; `C120_assign` is the exact effect of an assignment |

## 3. Trusted base

* Lean 4 kernel; axioms used are at most `propext`, `Classical.choice`, `Quot.sound` (per theorem: `AXIOMS.md`). No own
  axioms, no `sorry`, no `native_decide`, no `bv_decide`.
* That the model definitions agree with the cited Go lines (by reading).
* The environment specifications listed with each module, and these parameters:
  * `XTime` – the printers and parsers of `xtime.Unit` and `time.Duration`; hypotheses `UnitsOK`, `UnitTableOK`.
  * `Env` – how the matcher reads identifiers; `m3Env` is the instance for the m3 identifier format, built from the models
    of `metric/id/m3` and `filters`.
  * UUIDs – drawn identifiers are parameters (`fresh`); properties about them assume they are fresh.
  * Go's `sort.Sort` is not stable; the model's insertion sort is.  Theorems that could see the difference assume
    distinct keys or are about sets of results.
  * Go maps – association lists with distinct keys; the order of iteration is a parameter where results depend on it.
  * The key-value store (m3cluster `kv.TxnStore`): versions count the values set for a key from 1, `Commit` is atomic and
    checks all conditions first.  Messages are marshalled without loss, which C79 proves for what the program writes (unmarshalling
    a value of the other kind, and nil elements of repeated fields, are not modelled).  Keys of rule sets are distinct (`KeysOK`).
  * Concurrency of the cache: Go's mutexes exclude each other and order memory, channels of capacity one hold at most one value,
    and `select` may take any branch that is ready.  That what a call does under the lock may be taken for one step (`St.step`,
    on which C58, C60, C62 and C97 rest), and that lookups sharing the readers' lock may be taken one after the other, is proved (C109)
    from a model whose steps are the acquisitions and releases of the lock of the cache, single accesses to the list under its own lock,
    single notifications and single questions to a source.  What stays one step there: an eviction pass (it holds both locks), what
    the deleter takes to be deleted (under the lock), one removal by the deleter, and a source getting new rules.
  * Watching keys (m3cluster `runtime.Value`, not in the repository): `Watch` on a watched value does nothing, otherwise it
    fails or succeeds and may process a first value before it returns; `Unwatch` ends it; values are processed one at a time.

  * The protobuf code generated by gogo/protobuf (`generated/proto/metricpb` and others, read as text) is modelled as a table of
    fields per message and one loop that reads and merges; groups nested in unknown fields are skipped with a fuel of the length of
    the input; `packed` doubles are read in whole elements.
  * Pools (m3x/pool): `Get n` returns an array it holds or a new one of capacity at least `n`.  Readers return whole requests or
    end; `binary.PutVarint` is standard.  Sizes stay below 2^53 (`math.Max` on `float64`); limits for messages of encoders are below
    2^34 (`small`), the default is 50 MiB: five bytes are reserved for the size.
  * The msgpack library (`gopkg.in/vmihailenco/msgpack.v2`, not in the repository) is a parameter `Lib` with hypotheses `Laws`: what
    was encoded is decoded, within the ranges of the format; a byte slice is written as its length and its bytes; `Skip` passes over
    one value of the kinds in `Value` (no maps or extension types);
    the decoder reads no further than the values it returns (it shares its reader with the protobuf iterator in C26).  `std_laws` proves them for a concrete library written after the
    msgpack specification.  Writing to `bytes.Buffer` does not fail; slices the iterator reuses are values in the model; nil
    and empty slices are the same except for the encoding of identifiers.  The type of an aggregated metric is not in its msgpack
    encoding.
  * The validator: the namespace validator and the metric types function are parameters (values of the options); regular
    expressions and `fmt` do not occur.  The option setters change the options in place and return them: the model is about one
    options object.  The error texts are not modelled, their kinds are (`VErr`).

  * `float64` is `Model/Float`: IEEE 754 binary64, each operation rounded to nearest, ties to even, no fused multiply-add; the payload and
    the sign of a NaN are not modelled.  `int64` differences of times wrap (`wrap64`).
  * Namespace validator: a kv watch holds the latest value and a one-slot notification; the reader of a value
    (`kvutil.StringArrayFromValue`, not in the repository) is a parameter.
* The models of the cache and the matcher use association lists for the generated hash maps.  By `C78_as_modelled_partial` these
  answer as the hash maps do as long as no two keys in use have the same 64-bit hash (xxhash, not modelled); C78 shows what happens
  otherwise.
  * The validator configuration is the Go structure; reading it from YAML is the library's. C80 takes the namespace validator on
    top of the key-value store as given (C67 is about it), and is about times after the last change of the rules.
* JSON (C81): the library encoding/json is modelled on JSON values (Model/Json.lean says how); that its scanner and printer agree on
  texts is assumed, as is that what `ParseStoragePolicy` accepts can be printed (`PrintsParsed`, an assumption on m3x/time).
* C82: `strconv.FormatFloat(v, 'f', -1, 64)` is modelled as the decimal number with the fewest decimals that is read as `v`
  (Go's documentation); pools of the configuration are left out.
* C85: `sort.Sort` is assumed to return a permutation in which no element is less than the one before it.  For a comparison that is
  not an ordering Go promises less; `C85_violation_cycle` shows two different such arrangements.
* C84 is about rule sets that have been stored and loaded: a rule edited in memory has no filter until then, and the tags of a rollup
  target taken from a view are sorted only when it is read back.  Duplicate rollup identifiers keep their positions by the model's
  stable sort.
* C87: store and matcher share the key-value store, the units of m3x/time, the filter options and the keys (in the code the keys come
  from two option objects).  A watch may hand over any value stored so far, any number of times and in any order, which is more than
  m3cluster does; a value that cannot be converted changes nothing (the matcher logs it).  Clients write through the store only.
  `C87_permitted` needs rule sets with distinct rule IDs and known drop policies, and is about rules whose changes had all taken place
  when the matcher read them.
- Locks (C89, C90): `sync.RWMutex` and `sync.Mutex` behave as documented (a waiting writer keeps new readers out); `runtime.Value` of m3cluster holds its own lock in `Watch`, `Unwatch` and while it processes an update, and takes no other lock of the matcher; the functions called with a lock held that are not listed in `Model/Locks.lean` (matching, maps, metrics, clock, logging, unmarshalling) take none of these locks. A map taken out of the cache is reached by the deletion worker only, so it is not counted as shared; the promotion expiry of an element is accessed atomically. Waiting for a worker to end (`wgWorker.Wait`, `wg.Wait`) and waiting for the first value of a watch, which times out, are not lock operations; both `Wait`s happen with no lock held.
- Pools (C91): `pool.ObjectPool` of m3x is a bag, `Get` takes any object or allocates, `Put` keeps or drops.
- Keys (C92): `fmt.Sprintf` of Go is modelled for the verbs `%s` and `%%`, with its messages for a missing or an unused argument; other verbs and flags give no result.
- Shared data of rules (C96): slices are whole arrays, with the name and tags inside an operation as values; rules themselves are values there (see C69, C71 for rules as objects).
- Goroutines of the cache (C97): a goroutine that has a step to take is assumed to take it at some time (the Go scheduler); after `Close`, `select` between a pending notification and the closed channel may take either, so that `Close` may take long while callers keep adding entries, but never blocks.
- Options (C99): what options hold by reference (pools, functions, stores, byte slices, nested options) are values; a caller that writes to a byte slice or list after giving it to a setter is not modelled.
- Published format (C100): the transcription of the .proto files and of the protobuf encoding documentation in `Spec/Schema.lean` is trusted as a specification. It takes fields in the order of their numbers, each once unless repeated, and repeated numbers packed, which is what the generated code writes; other orders are also legal protobuf and are not written.
- Reading the published format (C101): `Reads` in `Spec/SchemaRead.lean` is written after the protobuf encoding documentation. It says nothing of enumeration values that are not declared, of fields with another wire type than declared, or of whether strings are UTF-8.
- C104: slices begin at the start of their arrays; making arrays does not fail; the pool of floats (m3x) hands out an empty slice of an array that was given back and is large enough, or of a new one, which one being an argument of the step; who has taken an array is the only one to give it back and to write it, and gives it back once; an iterator is used by one goroutine at a time; the capacity computed through float64 in unaggregated_iterator.go:214 is exact (capacities below 2^53).
- C105: gopkg.in/yaml.v2 is modelled on values (aliases, merges and tags resolved): a null gives the zero value without a call of `UnmarshalYAML`, a scalar that is not null gives its text to a string, an error of a part is an error of the whole, names are compared exactly, unknown and repeated names are errors when reading strictly; how the key-value store of a namespace validator is configured is a parameter.
- C106: `pool.ObjectPool` and `pool.FloatsPool` of m3x are bags from which any list, or a new one without elements, is taken, and which may drop what is put in; a user gives a list back at most once and does not use it afterwards.
- C107: of msgpack.v2 is assumed that each decoding call that succeeds takes at least one byte and depends on the bytes it takes only (`Delim`, proved of the library written from the format, `std_delim`); that decoding does not panic or exhaust memory is not modelled (allocations are bounded by 2^32 elements, see C75).
- C108: a key is the whole of its array (slices of larger arrays that overlap one another are not modelled); the pool hands out an array it was given back or a new one, and nothing else has it (as of C104); callers do not write in the keys that `Iter` shows them.
* C112, C113: a whole `Watch` or `Unwatch` of a rule set is one step, and no value of a rule set is processed once its `Unwatch` has returned (`runtime.Value` of m3cluster is not in the repository).  The callbacks of `process` are left out there (the cache is the subject of C58, C60, C109).  "The namespaces of the last update completed" is a component of the state that the program does not have: the map when the lock was last given back.
* C111: the text of an aggregation ID with unknown bits contains the text of an error; the model writes one constant instead, and the
  theorems assume known IDs (`KnownID`).
- `newRollupID` of the options of a rule set is taken to return an identifier and not nil (it is called at rules/active_ruleset.go:371); the model has no nil identifiers.
- The msgpack library never returns a length of bytes below -1; the model's reader of identifiers gives the empty identifier there, where Go would panic on the slice.

## 4. Findings: where the code does not have a listed property

Each has a theorem with a concrete witness (named `…_violated` or as given), and a `_partial` theorem with what holds.

* C13 – `Clone` of pipeline metadata drops the drop policy.
* C28 – glob filters: overlapping prefix/suffix in a contains-wildcard pattern; first matching alternative is taken greedily.
* C36 – a range match does not show a rule change at a time at which another rule is in effect from later on
  (`C36_violated`, `C36_violated_by_deletion`).
* C39 – cutover times of rollup metadata are not increasing.
* C41 – default pipelines are combined with rollup results.
* C44 – reverse matching takes the first rollup target whose tags are contained in the metric's.
* C49 – two live rules can have one name, by renaming and by revival.
* C50 – a failing batch of changes leaves the changes before the failing one applied.
* C51 – a drop mapping rule without storage policies loses its aggregation types in storage; drop policies outside the
  known ones are cut to 32 bits (`KnownDrops`).
* C59 – an entry of the cache computed for one range answers shorter ranges with the metadata of the longer one
  (`C59_violated`, from the flaw of C36); the cache does not check the start of the range (`C59_earlier_start`).
* C62 – eviction of an entry that waits to be deleted deletes the newer entry of the same identifier from its map; that entry
  stays in the list after its namespace was unregistered, until it is evicted itself (`C62_orphan`).
* C68 – rules with equal identifiers hide each other in the views.
* C71 – `activeRule` returns the rule itself, not a copy, when none of its snapshots is in effect yet, so that later edits of the
  rule set change results of the active set (the list of cutover times is not changed with them).
* C16 – a protobuf message that says it is a counter (timer, gauge) and contains none is an error for a new iterator but is
  delivered as an empty counter by an iterator that has read a counter before (`C16_violation`).
* C17 – a gauge or timed metric of value −0.0 is read as +0.0 (`C17_zero_sign`): zero tests in the generated code compare floats.
  A stream cut within or right after the size of a frame ends with `io.EOF` like a whole one (`C17_cut_as_end`).
* C18 – a negative size in the stream makes the iterator panic (`C18_violation_negative`); so does a length in a message that
  overflows `iNdEx + msglen` (`C18_violation_length`).
* C20 – `Buffer` is a value: a copy can be closed as well, and the array is then in the pool twice (`C20_copied`, misuse by the
  caller, outside of the runs of C20).
* C21 – a msgpack stream cut within a message can end with `io.EOF` like a whole one (`C21_cut_is_eof`).
* C24 – on truncated data `ID()` succeeds if it is called first and fails after `TimeNanos()` has failed (`C24_violation`).
* C114 – what the msgpack iterators accept beyond what is written: versions of 0 and below as version 1; precisions of which only the last
  byte is a time unit; nil for an array; an aggregation identifier with no word as the default (`C114_lenient`).
* C116 – what `Unmarshal` accepts beyond the protobuf documentation: packed numbers whose size is not a multiple of eight swallow the bytes
  after them; packed numbers of a size near 2^63, of which none follow, are taken for none; a group may end with the number of another
  one; a field number of more than 32 bits is taken for another field (`C116_lenient`).
* C25 – a msgpack message without policies is reported with the policies list of an earlier message (`C25_stale`), even of the
  stream before `Reset` (`C25_stale_reset`); `Close` forgets them (`C25_closed`).
* C26 – in mixed streams a msgpack message of an even later version is taken for protobuf (`C26_violation_even`); after one of an
  odd later version the next message is read as msgpack, whatever it is (`C26_violation_odd`); messages without policies as C25
  (`C26_violation_bare`).  `Err` after `Close` panics (`C26_closed_panics`).
* C52 – the validator looks at the latest snapshots only: a rule added without storage policies and put right by a second edit is
  accepted, and the stored rule set cannot be read any more (`C52_violation_hidden`).  The validator accepts a rollup rule
  without targets, the reader does not (`C52_violation_targets`).
* C76 – a default set after the first call about a metric type is ignored for that type (`C76_violation`).
* C64 – the rate is computed as (difference · 10^9) / nanoseconds: the product overflows to +Inf for large differences although the
  rate itself is representable (`C64_violation_overflow`); two equal infinities give a NaN stamped with the current time instead
  of the empty datapoint (`C64_violation_infinite`).  Outside of the quantifier: if the `int64` difference of the times wraps, the
  rate is negative (`C64_wrapped`).
* C67 – not a violation: a valid configuration replaced by an invalid one before it was read is never in force (the watch keeps
  the latest value only).
* C66 – outside of the claim: over a range of time, metadata of two rules that generate the same identifier are paired by
  position, and which of them gets a tombstone depends on the order of the rules (`C66_range_twice`).
* C75 – the loops over announced numbers go on after an error: eleven bytes that announce 2^32 - 1 timer values make the iterator
  collect as many zeros before `Next` returns false (`C75_violation`).  Not modelled but visible in the code: `decodeID` and the
  slices for policies are also allocated with the announced length before anything is read.
* C78 – `Delete` of the generated hash maps frees the slot without closing the chain of probes: if two keys have the same hash,
  deleting one loses the other (`C78_violation_lost`), and a value that was replaced and deleted can come back
  (`C78_violation_back`).
* Outside of C79 – a negative aggregation type in a message would be written as one byte by the packed-enum code while `Size`
  reserves ten (the model keeps the written byte); the result is not readable (`C79_negative_type`).  `Types.Proto` does not make one.
* C81 – `Policy.MarshalJSON` writes a policy whose aggregation ID has an unknown type as the text of an error ("…|[invalid ID: …]")
  without an error, and this cannot be read (`C81_violation_policy`).  `ID.MarshalJSON`, used by the rules, fails instead.
* Outside of C81 – a name that is not UTF-8 is changed silently by the JSON form (`C81_text`: unchanged iff UTF-8); an operation with
  two kinds is read as the first, the other is dropped (`C81_two_kinds`); a rule read over an older one keeps the ID and cutover of
  the older one where it has none (`C81_over_older`); `dropPolicy` is any number, not only the known ones.
* C83 – `IsValidForTimer` accepts every number but `Last`, among them `UnknownType` and numbers beyond the table; such a list has no
  aggregation ID (`C83_violation_timer`).
* Outside of C82 – where counters are configured with `empty`, the type looked up for the empty name is `Last` (`C82_empty`), which
  is not valid for counters.
* Outside of C84 – `Equal` of views ignores whether a rule is deleted and when it was changed, so equal views alone do not mean equal
  effects (`C84_ignores_deletion`).
* C85 – `Less` compares names if both changes have rule data and IDs otherwise.  Deletes of which some carry rule data are ordered in
  a cycle, so the sorted order depends on the order they came in (`C85_violation_cycle`).
* Outside of C85 – sorting changes before applying them may make applying fail: a delete followed by an add of the same name is
  turned around (`C85_effect`).
* C86 – where two rollup rules roll up into the same name and the tags of one are among those of the other, an identifier of the
  second is attributed to whichever rule comes first (`C86_violated`).
- **C91** (`C91_violated`): `sortedTagIterator.Close` (metric/id/m3/id.go:211-220) has no `closed` flag, unlike the other pooled objects. Closing one twice puts it into the pool twice, so two users get the same iterator and read each other's tags. The uses inside /repo close once. Outside of the property (`C91_reset_needed`): a buffered encoder that is not reset after `Get` still has the bytes of its last user, and its `Close` does nothing.
- Outside of C92 (`C92_no_verb`): nothing checks the configured key format. A format without `%s` is accepted by both sides, but the store then prints the namespace as a string and the matcher as a byte slice, so the matcher never sees a rule set the store wrote.
- **C93** (`C93_violated`): `StagedMetadatas.ApplyOrRemoveDropPolicies` removes every dropped stage if at least one is not dropped, as its comment says. With a stage that keeps the metric from 10 on and one that drops it from 20 on, what is left keeps it after 20 as well.
- **C94** (`C94_violated`): the same function removes in place, in the array behind its receiver, and `ForExistingIDAt` returns a part of the array in the match result, which the cache shares. After the first caller resolves at a time when the metric is dropped, the second one at the same time gets the stage before, by which it is kept. (Nothing inside /repo calls it on match results; it is exported for their users.)
- **C95** (`C95_violated`): for an effective drop `ApplyOrRemoveDropPolicies` returns the package variable `DropPipelineMetadatas` itself, and the staged form stores it in the object. `FromProto` into the same object, as the iterators do for each message, then writes the next message's pipeline into that variable: from then on every dropped metric gets this pipeline. And removing an element in place (`append(result[0:i], result[i+1:]...)`) leaves the last element in two places of the array, with the same slices in both: when a later message with as many elements is decoded into the object, the second-to-last pipeline gets the storage policies and the operations of the last one (`C95_violated_pipelines`), and likewise a stage the pipelines of the next (`C95_violated_stages`).
- Observed with C33 (`C33_split_iff`): an identifier is split if its first component ends in `m3`, so anything may stand before `m3+`.
- **C96** (`C96_violated`): `AddMappingRule`, `UpdateMappingRule`, `AddRollupRule` and `UpdateRollupRule` keep the slices of the view they are given. A program that changes an element of `StoragePolicies` of its view and updates the rule with it rewrites the earlier snapshot, too, so the history stored afterwards says that the new policy was in force from the beginning. Views and clones that a rule set gives out are copies (`C96_new`).
- **C97** (outside the statement, `C97_after_close`): `ForwardMatch` does not look at `closed`. Lookups after `Close` still add entries, and nobody evicts them: for every number there is an execution after which a closed cache holds that many entries.
- **C98** (outside the statement, `C98_unread`): rules made by calls and used without storing and reading them may give what cannot be sent: nothing but the reader checks that transformations are of known types.
- **C99** (`C99_violation`): the setters of `rules/validator/options.go:169-277` write to the options they are called on and return the same pointer, where those of all other options types copy; a validator keeps the pointer (`rules/validator/validator.go:53-58`). Two users who derive their options from one base share one object: a validator that accepts a rule set refuses it after the other user has called `SetMaxRollupLevels(0)` on the base. Only the namespace validator is taken over when the validator is made, so that a later `SetNamespaceValidator` has no effect on it (`C99_validator`).
- **C102** (`C102_violation`): an edit that is refused because its filter is not valid returns the error of the filter parser, wrapped, which is not an `InvalidInputError` (rules/mapping.go:147-149, rules/ruleset.go:358-360); likewise `Delete` of a deleted rule set (rules/ruleset.go:473-475) and `Revive` of one that is not deleted (504-506). A caller that maps error types to answers reports these as failures of the service.
- **C103** (`C103_violation`): the key function of a configured matcher keeps the pointer to the configuration (matcher/config.go:127-129), so that another `RuleSetKeyFmt` assigned to it, as for making a second matcher, makes the first one watch other keys; the metric types function of a configured validator keeps the slice of allowed types (rules/validator/config.go:140-160); the default types of configured aggregation options are the slices of the configuration (aggregation/types_options.go:200-231), and after an assignment to one the quantiles and type strings, computed when it was set, belong to other types.
- **C105** (`C105_violation_null`): a null in a list (`- ~`, or a dash with nothing behind it) is not refused where a misspelt word is: yaml.v2 does not call `UnmarshalYAML` for it, and the list gets the zero value, so that the empty storage policy, the unknown aggregation type or the unknown metric type is configured as allowed. Likewise an override without a type is accepted and concerns the unknown type, and a static namespace validator without a result accepts every namespace.
- C10 (note; outside the statement): `SubPipeline` is a slice expression, which Go checks against the capacity and not the length. A pipeline whose array has room after its last operation (one read from JSON, for example) gives a sub-pipeline past its end, with operations it does not have, instead of a panic: `C10_sub_pipeline_past_end`. The only callers pass positions inside.
- **C106**, outside the statement: a list given back twice is handed out to two users (`C106_given_back_twice`), and a failed `Decompress` does not give back the list it took from the pool, which is only a loss for the pool.
- **C111** (`C111_pipeline_violation`, `C111_applied_violation`, `C111_filter_violation`, `C111_tags_violation`): the texts do not quote names. A rollup over the tags `a` and `b` prints like one over the single tag `a, b`, and one over no tag like one over a tag without a name. More surprising, without any odd name: the filter `[ab]` (one character of two) prints like `{ab}` (the word ab), and `[!ab]` (one other character) like `![ab]` (any value but `a` and `b`); they match different values.
- **C120** (`C120_violated`): `SetDefaultValidNamespaces` copies its argument but `DefaultValidNamespaces` returns the slice that the options keep (rules/validator/namespace/kv/options.go:123-133), and the other setters share it. A caller that changes an element of what it got changes the default namespaces of all options derived from these, and a running validator made from them accepts the changed names at the next notification without a value.
