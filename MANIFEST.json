{
 "claims": [
  {
   "property": "C01",
   "status": "partial",
   "theorems": [
    "Mentat.C01_round_trip_partial",
    "Mentat.C01_tag",
    "Mentat.C01_example",
    "Mentat.C01_fails"
   ],
   "note": "Exact: a value with valid keyword parts and a 128-bit UUID reads back as itself iff it is not the nil UUID, a pre-1970 instant with a fraction of a second, or a keyword without a namespace; those cases violate the property (C01_fails)."
  },
  {
   "property": "C02",
   "status": "partial",
   "theorems": [
    "Mentat.C02_same_type_partial",
    "Mentat.C02_cross_type",
    "Mentat.C02_fails"
   ],
   "note": "Within one type exact for keywords with valid parts; keywords whose parts contain a separator are stored alike (C02_fails). Between types exactly the numerically equal long/double pairs coincide."
  },
  {
   "property": "C03",
   "status": "partial",
   "theorems": [
    "Mentat.C03_micros_partial",
    "Mentat.C03_from_micros_partial",
    "Mentat.C03_millis_partial",
    "Mentat.C03_truncate",
    "Mentat.C03_fails"
   ],
   "note": "Exact characterisations; false for instants before 1970 with a fraction of a second and for from_millis off whole seconds (C03_fails)."
  },
  {
   "property": "C04",
   "status": "partial",
   "theorems": [
    "Mentat.C04_one_direction",
    "Mentat.C04_reverse_forward",
    "Mentat.C04_involution_partial",
    "Mentat.C04_no_panic",
    "Mentat.C04_fails"
   ],
   "note": "Exact: reversal is an involution for all names except _ (panics) and names beginning with two underscores (C04_fails)."
  },
  {
   "property": "C05",
   "status": "proved",
   "theorems": [
    "Mentat.C05_round_trip",
    "Mentat.C05_read",
    "Mentat.C05_distinct",
    "Mentat.C05_example",
    "Mentat.C05_fails"
   ],
   "note": "For components without separators, as the quantifier says; C05_fails shows the constructors do not enforce that."
  },
  {
   "property": "C06",
   "status": "proved",
   "theorems": [
    "Mentat.C06_order",
    "Mentat.C06_partial_cmp",
    "Mentat.C06_set",
    "Mentat.C06_set_ext",
    "Mentat.C06_map",
    "Mentat.C06_example"
   ],
   "note": "Values of any depth whose names came from the constructors; also that BTreeSet/BTreeMap built with this order are sets and maps."
  },
  {
   "property": "C07",
   "status": "partial",
   "theorems": [
    "Mentat.C07_round_trip_partial",
    "Mentat.C07_print_injective",
    "Mentat.C07_set",
    "Mentat.C07_map",
    "Mentat.C07_example",
    "Mentat.C07_set_example",
    "Mentat.C07_fails",
    "Mentat.C07_float_example",
    "Mentat.C07_float_fails",
    "Mentat.C07_float_fails_example",
    "Mentat.C07_instant_fails",
    "Mentat.C07_panics",
    "Mentat.C07_panics_instant",
    "Mentat.parse_not_stuck"
   ],
   "note": "Proved for 64-bit integers, big integers, NaN, the infinities and every double with a fraction, UUIDs, instants in the years 0000 to 9999, text without quotes or backslashes, names of the grammar's classes and symbols that do not begin like nil/true/false or a number, nested to any depth; members of sets and entries of maps may also be written in any order and repeatedly (C07_set, C07_map). Text is printed unescaped and words match without a boundary, so the rest of the property is false (C07_fails); an instant of the year 10000 is printed with a sign that is not read (C07_instant_fails). Every double without a fraction is printed without a point, so it is read as an integer, or panics beyond 64 bits (C07_float_fails). Rust's formatting and reading of doubles are modelled as documented."
  },
  {
   "property": "C08",
   "status": "proved",
   "theorems": [
    "Mentat.C08_fresh",
    "Mentat.C08_exhausted",
    "Mentat.C08_example"
   ],
   "note": "Every partition map in order (in particular the bootstrap one) and every sequence of allocations; running out is a panic."
  },
  {
   "property": "C09",
   "status": "partial",
   "theorems": [
    "Mentat.C09_fresh_partial",
    "Mentat.C09_fails"
   ],
   "note": "Proved that after any history with reopens new entids are never an entity (or transaction) of a committed datom. The reference-value half is false of the code: C09_fails."
  },
  {
   "property": "C10",
   "status": "partial",
   "theorems": [
    "Mentat.C10_disjoint",
    "Mentat.C10_exact_partial",
    "Mentat.C10_example",
    "Mentat.C10_fails"
   ],
   "note": "Exact for keys witnessed at most once each way (the documented assumption); for longer sequences a key can be asserted and altered at once: C10_fails."
  },
  {
   "property": "C100",
   "status": "partial",
   "theorems": [
    "Mentat.Ffi.C100_row_partial",
    "Mentat.Ffi.C100_iterator",
    "Mentat.Ffi.C100_rows_partial",
    "Mentat.Ffi.C100_value_partial",
    "Mentat.Ffi.C100_taken",
    "Mentat.Ffi.C100_fails_row",
    "Mentat.Ffi.C100_fails_value",
    "Mentat.Ffi.C100_example"
   ],
   "note": "The result of every access is given for all indexes of a C int and all results that fit into memory, as compiled for release (a debug build panics where arithmetic wraps). The full statement fails at two indexes, for every result: value_at_index panics at the number of values (it compares with > for >=), and row_at_index at -1."
  },
  {
   "property": "C101",
   "status": "partial",
   "theorems": [
    "Mentat.C101_order_partial",
    "Mentat.C101_renamed_partial",
    "Mentat.C101_patterns_partial",
    "Mentat.QueryEx.C101_order_treated",
    "Mentat.QueryEx.C101_example",
    "Mentat.QueryEx.C101_renamed_example",
    "Mentat.C101_patterns_example",
    "Mentat.QueryEx.C101_fails_before",
    "Mentat.QueryEx.C101_fails_column"
   ],
   "note": "Proved for any two queries of the kinds treated in C45 with the same clauses in another order, repeated, and with the variables renamed, when both are answered and the types of the found variables are known; and, with no assumption that they are answered, for queries of patterns with known attributes after any history. False as stated: a comparison or a negation before the pattern that binds its variables is refused, and with a pattern that has no attribute the order decides which column is read. Missing: found variables of unknown type, and that a renamed query of other clauses is answered if the first is."
  },
  {
   "property": "C102",
   "status": "partial",
   "theorems": [
    "Mentat.C102_monotone_partial",
    "Mentat.C102_fewer_partial",
    "Mentat.C102_more_partial",
    "Mentat.C102_monotone_example",
    "Mentat.QueryEx.C102_fewer_example",
    "Mentat.QueryEx.C102_negation"
   ],
   "note": "Proved for patterns with known attributes after any histories, without the assumption that the queries are answered; and for all queries of the kinds treated in C45 when both are answered, fewer clauses with negations too, more facts where nothing is negated. Missing: variables of unknown type among those found, inputs and functions not treated in C45."
  },
  {
   "property": "C103",
   "status": "partial",
   "theorems": [
    "Mentat.C103_selected_partial",
    "Mentat.C103_patterns_partial",
    "Mentat.C103_notRef_partial",
    "Mentat.C103_example",
    "Mentat.QueryEx.C103_notRef_example",
    "Mentat.QueryEx.C103_fails_type"
   ],
   "note": "Proved for the queries treated in C45 when both are answered, with at least one found variable left open; and, with no assumption that they are answered, for patterns with known attributes after any history, whatever values are given. The full statement fails: where a comparison is made, a value of another type is an error instead of no rows. Missing: found variables of unknown type."
  },
  {
   "property": "C104",
   "status": "partial",
   "theorems": [
    "Mentat.C104_narrowed_partial",
    "Mentat.C104_patterns_partial",
    "Mentat.QueryEx.C104_example",
    "Mentat.QueryEx.C104_fails_distinct"
   ],
   "note": "Proved for the queries treated in C45 when both are answered and the types of the variables found are known; and, with no assumption that they are answered, for patterns with known attributes after any history. The full statement fails for a variable of unknown type: a long and a double of the same number are one row when nothing else tells them apart."
  },
  {
   "property": "C105",
   "status": "partial",
   "theorems": [
    "Mentat.C105_undone_partial",
    "Mentat.C105_kept_partial",
    "Mentat.C105_data_partial",
    "Mentat.C105_example",
    "Mentat.C105_fails"
   ],
   "note": "For transactions that say nothing of the vocabulary, tempids, upserts and replaced values included: the opposite is accepted and leaves exactly the datoms of before (C105_data_partial; :db/txInstant not made unique, transaction ids left). For transactions that change the vocabulary: when the opposite is accepted and only attributes without datoms are undefined. The full statement fails: making an attribute one of many values is accepted and its opposite refused (C105_fails)."
  },
  {
   "property": "C106",
   "status": "partial",
   "theorems": [
    "Mentat.C106_commute_partial",
    "Mentat.C106_atOnce_partial",
    "Mentat.C106_example",
    "Mentat.C106_fails"
   ],
   "note": "Proved for all terms without tempids that say nothing of the vocabulary, on every store, when the transactions compared are accepted. The full statement fails: a unique value can be given to another entity after it is retracted from the first, not before (C106_fails)."
  },
  {
   "property": "C11",
   "status": "partial",
   "theorems": [
    "Mentat.C11_lists",
    "Mentat.C11_final",
    "Mentat.C11_exact_partial",
    "Mentat.C11_only",
    "Mentat.C11_fails",
    "Mentat.C11_C12_example"
   ],
   "note": "Exact on the final terms, and on the given terms when no tempid upserts. With an upsert an ill-typed assertion can be dropped before the check: C11_fails."
  },
  {
   "property": "C12",
   "status": "proved",
   "theorems": [
    "Mentat.C12_final",
    "Mentat.C12_accepted",
    "Mentat.C12_lists",
    "Mentat.C12_order",
    "Mentat.C11_C12_example"
   ],
   "note": "Exact on the terms after tempid resolution; lists exactly the conflicts; independent of the order of the terms."
  },
  {
   "property": "C13",
   "status": "partial",
   "theorems": [
    "Mentat.C13_typed_partial",
    "Mentat.C13_fails"
   ],
   "note": "Fails in full: an attribute with datoms can be undefined and defined again with another type (C13_fails). Proved for all single-session histories that do not undefine an attribute in use."
  },
  {
   "property": "C14",
   "status": "partial",
   "theorems": [
    "Mentat.C14_one_partial",
    "Mentat.C14_fails"
   ],
   "note": "As C13."
  },
  {
   "property": "C15",
   "status": "partial",
   "theorems": [
    "Mentat.C15_unique_partial",
    "Mentat.C15_conflict_rejected",
    "Mentat.C15_fails"
   ],
   "note": "As C13."
  },
  {
   "property": "C16",
   "status": "proved",
   "theorems": [
    "Mentat.C16_replay",
    "Mentat.C16_once"
   ],
   "note": "For every history, with reopening at any point."
  },
  {
   "property": "C17",
   "status": "proved",
   "theorems": [
    "Mentat.C17_net_change"
   ],
   "note": ""
  },
  {
   "property": "C18",
   "status": "proved",
   "theorems": [
    "Mentat.C18_tx_ids",
    "Mentat.C18_log"
   ],
   "note": ""
  },
  {
   "property": "C19",
   "status": "proved",
   "theorems": [
    "Mentat.C19_reassert"
   ],
   "note": ""
  },
  {
   "property": "C20",
   "status": "partial",
   "theorems": [
    "Mentat.C20_effect_partial",
    "Mentat.C20_fails",
    "Mentat.C20_fails_upsert",
    "Mentat.C20_retract_other_fails"
   ],
   "note": "Fails in full: see the three counterexamples."
  },
  {
   "property": "C21",
   "status": "partial",
   "theorems": [
    "Mentat.C21_conn",
    "Mentat.C21_checks_partial",
    "Mentat.C21_inProgress_partial",
    "Mentat.C21_example",
    "Mentat.C21_fails",
    "Mentat.C21_fails_metadata"
   ],
   "note": "Proved in full for Conn::transact. False inside an InProgress, which stays usable after an error: a refused write leaves its DELETE (C21_fails), a refused schema change leaves datoms and log and reuses the id (C21_fails_metadata). Proved there: errors of the checks leave nothing; every error leaves schema and partition map; a constraint error also log, caches, schema tables and reports."
  },
  {
   "property": "C22",
   "status": "proved",
   "theorems": [
    "Mentat.C22_terminates"
   ],
   "note": "evolve_one_step loop terminates; bound #upserts_ev + 1 on generations"
  },
  {
   "property": "C23",
   "status": "proved",
   "theorems": [
    "Mentat.C23_one_entity"
   ],
   "note": ""
  },
  {
   "property": "C24",
   "status": "partial",
   "theorems": [
    "Mentat.C24_upserts_partial",
    "Mentat.C24_C25_fails"
   ],
   "note": "holds for identity attributes whose datoms are in the AVET index; C24_C25_fails shows an altered attribute whose rows are not indexed is missed"
  },
  {
   "property": "C25",
   "status": "partial",
   "theorems": [
    "Mentat.C25_conflict",
    "Mentat.C25_conflict_partial",
    "Mentat.C24_C25_fails",
    "Mentat.C25_fails_chain"
   ],
   "note": "conflicts found in the same generation or in the final check are rejected; the two witnesses show the remaining cases are not"
  },
  {
   "property": "C26",
   "status": "proved",
   "theorems": [
    "Mentat.C26_fresh"
   ],
   "note": ""
  },
  {
   "property": "C27",
   "status": "partial",
   "theorems": [
    "Mentat.C27_nothing_lost_partial",
    "Mentat.C23_one_entity",
    "Mentat.C20_fails",
    "Mentat.C20_fails_upsert"
   ],
   "note": "each resolved term comes from exactly one input term; the exclusions are the C20 witnesses"
  },
  {
   "property": "C28",
   "status": "partial",
   "theorems": [
    "Mentat.C28_no_panic_partial",
    "Mentat.C28_stage1_partial",
    "Mentat.C28_entities_partial",
    "Mentat.C28_example",
    "Mentat.C28_fails",
    "Mentat.C28_fails_txInstant",
    "Mentat.C28_fails_bare"
   ],
   "note": "the three counterexamples are reachable panics of the modelled transactor; hypotheses exclude them, exhausted partitions, unindexed identity attributes and a retyped :db/ident"
  },
  {
   "property": "C29",
   "status": "partial",
   "theorems": [
    "Mentat.C29_resolves",
    "Mentat.C29_unique_only",
    "Mentat.C29_lookup_refs_partial",
    "Mentat.C29_missing",
    "Mentat.C29_fails"
   ],
   "note": "A lookup ref resolves only through a unique attribute, to the one entity holding the value, else the transaction fails. Completeness needs the attribute's datoms to be indexed: C29_fails shows an attribute altered to unique whose old rows are missed."
  },
  {
   "property": "C30",
   "status": "proved",
   "theorems": [
    "Mentat.C30_flat",
    "Mentat.C30_is_flat",
    "Mentat.C30_transact",
    "Mentat.C30_example"
   ],
   "note": "Map, nested-map and vector notation means exactly the flat list of assertions, for entities of any depth."
  },
  {
   "property": "C31",
   "status": "partial",
   "theorems": [
    "Mentat.C31_meaning_partial",
    "Mentat.C31_swap_partial",
    "Mentat.C31_fails"
   ],
   "note": "A reversed attribute means the assertion with entity and value swapped; with :db/retract it still adds (C31_fails)."
  },
  {
   "property": "C32",
   "status": "partial",
   "theorems": [
    "Mentat.C32_reopened_partial",
    "Mentat.C32_connection_partial",
    "Mentat.steady_example",
    "Mentat.C32_fails",
    "Mentat.C32_fails_leftover"
   ],
   "note": "Proved for histories in which no alteration drops uniqueness as a side effect, removals are clean, idents do not move between entities within a transaction and alterations keep attributes valid. Each condition is necessary: C32_fails, C32_fails_leftover, C33_fails, C35_fails."
  },
  {
   "property": "C33",
   "status": "partial",
   "theorems": [
    "Mentat.C33_step",
    "Mentat.C33_valid_partial",
    "Mentat.C33_reopened",
    "Mentat.steady_example",
    "Mentat.C33_fails"
   ],
   "note": "Whatever is installed is valid; alterations are not validated (C33_fails: the store cannot be opened again). Proved for histories of safe alterations, and for every store opened afresh."
  },
  {
   "property": "C34",
   "status": "partial",
   "theorems": [
    "Mentat.C34_alter_partial",
    "Mentat.C34_fails"
   ],
   "note": "False of the code for uniqueness: altering any other property drops it in memory (C34_fails). Everything else proved for every alteration of every reachable store in which the attributes that describe attributes are cardinality one."
  },
  {
   "property": "C35",
   "status": "partial",
   "theorems": [
    "Mentat.C35_inverse_partial",
    "Mentat.C35_datoms_partial",
    "Mentat.C35_example",
    "Mentat.C35_fails"
   ],
   "note": "False of the code when two entities exchange idents in one transaction (C35_fails). Proved, with the maps equal to the :db/ident datoms, for histories without such moves."
  },
  {
   "property": "C36",
   "status": "partial",
   "theorems": [
    "Mentat.C36_moves_partial",
    "Mentat.C36_point",
    "Mentat.C36_datoms_partial",
    "Mentat.C36_refused",
    "Mentat.C36_example",
    "Mentat.C36_fails",
    "Mentat.C36_fails_schema",
    "Mentat.C36_fails_mixed"
   ],
   "note": "Proved for every history, with moves off the main timeline at any points of it, and every point after the bootstrap transaction: the same datoms as at that point, the same main timeline, the partition map that point would be reopened with, and exactly the rows since then moved; under the hypothesis that no attribute that is cardinality-one at the time of a move had several values for an entity in the states it undoes. False of the code: a restored datom carries a transaction id nobody has (C36_fails), the schema keeps attributes whose installation was moved away (C36_fails_schema), and a later move drags along rows of other timelines whose transaction id was reused (C36_fails_mixed)."
  },
  {
   "property": "C37",
   "status": "partial",
   "theorems": [
    "Mentat.C37_single_partial",
    "Mentat.C37_multi_partial",
    "Mentat.C37_multi_inProgress_partial",
    "Mentat.C37_single_inProgress_partial",
    "Mentat.C37_single_inProgress",
    "Mentat.C37_single_example",
    "Mentat.C37_multi_example",
    "Mentat.C37_fails",
    "Mentat.C37_fails_alter",
    "Mentat.C37_fails_duplicate",
    "Mentat.C37_inProgress_fails"
   ],
   "note": "False of the code in four ways (the _fails theorems). Proved for every sequence of sessions on a connection in which the cached attribute keeps its cardinality and uniqueness and, for cardinality one, an assertion of the value already held does not come with a retraction of another; the multiplicity of values is not claimed (C37_fails_duplicate)."
  },
  {
   "property": "C38",
   "status": "partial",
   "theorems": [
    "Mentat.C38_unique_partial",
    "Mentat.C38_nonUnique_partial",
    "Mentat.C38_unique_inProgress_partial",
    "Mentat.C38_nonUnique_inProgress_partial",
    "Mentat.C38_unique_example",
    "Mentat.C38_nonUnique_example",
    "Mentat.C38_fails",
    "Mentat.C38_fails_nonUnique",
    "Mentat.C38_fails_retract"
   ],
   "note": "False of the code: a replaced value stays in the reverse cache (C38_fails, C38_fails_nonUnique), and retracting a unique value from another entity removes it (C38_fails_retract). Proved for histories in which values of the cached attribute are removed only by retracting them, from entities that hold them."
  },
  {
   "property": "C39",
   "status": "partial",
   "theorems": [
    "Mentat.C39_commit_partial",
    "Mentat.C39_example",
    "Mentat.C39_fails",
    "Mentat.C39_fails_reregister",
    "Mentat.C39_fails_shared"
   ],
   "note": "Proved: after a commit the connection's cache is the overlay laid over the old cache, exactly. What the reader then sees differs from what the session saw in three cases, each shown by a witness."
  },
  {
   "property": "C40",
   "status": "partial",
   "theorems": [
    "Mentat.C40_sound",
    "Mentat.C40_complete_partial",
    "Mentat.C40_touched_partial",
    "Mentat.C40_example",
    "Mentat.C40_fails",
    "Mentat.C40_fails_drop",
    "Mentat.C40_fails_leak",
    "Mentat.C40_fails_noop"
   ],
   "note": "Soundness (nothing else, in order) proved for every schedule; completeness for schedules in which no batch waits when observers change. Lost batches: C40_fails, C40_fails_drop. What is reported covers every change; over-reporting: C40_fails_leak, C40_fails_noop."
  },
  {
   "property": "C41",
   "status": "partial",
   "theorems": [
    "Mentat.C41_partial",
    "Mentat.C41_example",
    "Mentat.C41_fails"
   ],
   "note": "Proved for every interleaving of sessions, observer changes and delivery without rollbacks to savepoints; those are still reported (C41_fails)."
  },
  {
   "property": "C42",
   "status": "proved",
   "theorems": [
    "Mentat.C42_generation",
    "Mentat.C42_stale",
    "Mentat.C42_readers",
    "Mentat.C42_example",
    "Mentat.C42_savepoint_leak",
    "Mentat.C42_two_connections"
   ],
   "note": "For one connection and any number of transactions in progress, interleaved in any order. A commit that panics poisons the mutex and ends the history. Beside the property: the committed schema can be that of rolled-back work (C42_savepoint_leak), and the generation does not protect a file opened twice (C42_two_connections)."
  },
  {
   "property": "C43",
   "status": "partial",
   "theorems": [
    "Mentat.C43_check",
    "Mentat.C43_exclusive",
    "Mentat.C43_ensured_partial",
    "Mentat.C43_again_partial",
    "Mentat.C43_refused",
    "Mentat.C43_core",
    "Mentat.C43_read_all_partial",
    "Mentat.C43_all_partial",
    "Mentat.C43_all_again_partial",
    "Mentat.C43_apart",
    "Mentat.C43_shared_refused",
    "Mentat.C43_all_example",
    "Mentat.C43_shared_example",
    "Mentat.C43_example",
    "Mentat.C43_core_example",
    "Mentat.C43_fails_version",
    "Mentat.C43_fails_no_history",
    "Mentat.C43_fails_upgrade_unique",
    "Mentat.C43_fails_adopted"
   ],
   "note": "The classification is proved for every store and definition while the core vocabulary is intact, and its cases exclude one another. That a check reports Present after a successful ensure is proved for definitions with a readable version, distinct names, no :db/noHistory, and no alteration of unique attributes that mentat itself loses (the fails theorems), with nothing run before or after an upgrade. ensure_vocabularies is proved to make every one of several definitions present, with an outcome that is right about each, for definitions that share no names; an attribute of another vocabulary is always refused."
  },
  {
   "property": "C44",
   "status": "partial",
   "theorems": [
    "Mentat.C44_given_partial",
    "Mentat.QueryEx.C44_fails"
   ],
   "note": "Proved for every query without ground, without the score of a fulltext search and without a cache, whatever its other clauses: if an :in variable is not given, the query does not run and the store is not looked at. False in full: with fewer inputs than :in variables algebrizing panics, and a variable bound by ground need not be given at all."
  },
  {
   "property": "C45",
   "status": "proved",
   "theorems": [
    "Mentat.C45_patterns",
    "Mentat.C45_rows_partial",
    "Mentat.QueryEx.C45_example",
    "Mentat.QueryEx.C45_example_hyps",
    "Mentat.QueryEx.C45_example_loose",
    "Mentat.QueryEx.C45_fails_distinct",
    "Mentat.QueryEx.C45_fails_given",
    "Mentat.QueryEx.C45_fails_order",
    "Mentat.QueryEx.C45_fails_fulltext",
    "Mentat.QueryEx.C45_fails_compare"
   ],
   "note": "C45_patterns is the property as stated, for patterns of known attributes: every row read is a matching binding and every matching binding is read. C45_rows_partial is the same for patterns, comparisons, annotations, negations and disjunctions under stated conditions. The _fails theorems show why each condition is there."
  },
  {
   "property": "C46",
   "status": "partial",
   "theorems": [
    "Mentat.C46_one_value_partial",
    "Mentat.C46_integer",
    "Mentat.QueryEx.C46_integer_example",
    "Mentat.QueryEx.C46_fails",
    "Mentat.QueryEx.C46_fails_instant"
   ],
   "note": "Proved: for the treated queries a row names one typed value per variable. False for a value variable also used in a pattern without an attribute: a boolean joins a double and a long (C46_fails)."
  },
  {
   "property": "C47",
   "status": "partial",
   "theorems": [
    "Mentat.C47_empty_partial"
   ],
   "note": "Proved for the treated queries: known empty means no binding of the store satisfies the clauses."
  },
  {
   "property": "C48",
   "status": "partial",
   "theorems": [
    "Mentat.C48_types_sound_partial",
    "Mentat.QueryEx.C45_fails_compare"
   ],
   "note": "Proved for the treated queries: the recorded type set of a variable that no or-join keeps to itself contains the type of every value the variable takes in an answer. With a comparison of a variable of unknown type the recorded types are wrong (C45_fails_compare)."
  },
  {
   "property": "C49",
   "status": "partial",
   "theorems": [
    "Mentat.C49_or_partial",
    "Mentat.C49_union_partial",
    "Mentat.QueryEx.C49_example",
    "Mentat.QueryEx.C49_example_simple",
    "Mentat.QueryEx.C49_example_treated",
    "Mentat.QueryEx.C49_example_join",
    "Mentat.QueryEx.C49_example_join_treated",
    "Mentat.QueryEx.C49_fails_panic",
    "Mentat.QueryEx.C49_fails_local",
    "Mentat.QueryEx.C49_fails_local_unbound",
    "Mentat.QueryEx.C49_fails_types",
    "Mentat.QueryEx.C49_fails_column"
   ],
   "note": "Proved for or, nested to any depth and anywhere among the clauses, and for or-joins, also with variables of their own (of types that may differ between the arms) as long as these are not met elsewhere in the query, when the arms give each shared variable one type: the rows are those of the bindings that satisfy the rest and an arm, and the union of the rows of the queries with one arm each. Missing: or-joins with variables of their own inside of arms and negations. False in general: the types of local variables are visible outside (C49_fails_local), arms with different types for a variable cannot be found (C49_fails_types), patterns that cannot match panic (C49_fails_panic), arms may refer to columns outside of them (C49_fails_column)."
  },
  {
   "property": "C50",
   "status": "partial",
   "theorems": [
    "Mentat.C50_not_partial",
    "Mentat.QueryEx.C50_example",
    "Mentat.QueryEx.C50_example_treated",
    "Mentat.QueryEx.C50_fails"
   ],
   "note": "Proved for the treated queries, with negations of any depth; a negation of a pattern without an attribute is ignored (C50_fails)."
  },
  {
   "property": "C51",
   "status": "proved",
   "theorems": [
    "Mentat.C51_shape",
    "Mentat.C51_readable",
    "Mentat.C51_tuple",
    "Mentat.C51_binding",
    "Mentat.RelResult.C51_rows",
    "Mentat.RelResult.C51_ofRows",
    "Mentat.RelResult.C51_fails_no_rows",
    "Mentat.QueryEx.C51_example"
   ],
   "note": "For every query, whatever its clauses, inputs, store and cache: the result has the shape of the find spec; rows, row(i), into_iter and the count agree; a tuple converts exactly if its length is asked for. A relation made from no rows has width 0 and panics when read (C51_fails_no_rows); queries never make one unless nothing is found for."
  },
  {
   "property": "C52",
   "status": "partial",
   "theorems": [
    "Mentat.C52_limit",
    "Mentat.C52_limit_input_partial",
    "Mentat.C52_sorted_partial",
    "Mentat.C52_unbound_partial",
    "Mentat.before_long",
    "Mentat.before_string",
    "Mentat.QueryEx.C52_example",
    "Mentat.QueryEx.C52_example_treated",
    "Mentat.QueryEx.C52_example_input",
    "Mentat.QueryEx.C52_example_unbound",
    "Mentat.QueryEx.C52_fails_unit",
    "Mentat.QueryEx.C52_fails_number"
   ],
   "note": "A positive limit bounds the result of every query. A limit that is an input must be a positive long, without ground, fulltext scores and cache. For the treated queries the rows are in the order asked for, answers left out by the limit do not come first, and ordering by an unbound variable is rejected. False in full: scalar and tuple queries take any limit, and ordering by a number that may be a long or a double is an error."
  },
  {
   "property": "C53",
   "status": "partial",
   "theorems": [
    "Mentat.C53_count",
    "Mentat.C53_sum_avg_partial",
    "Mentat.C53_max_min_partial",
    "Mentat.C53_total",
    "Mentat.QueryEx.C53_fails_declared",
    "Mentat.QueryEx.C53_fails_compare",
    "Mentat.QueryEx.C53_example"
   ],
   "note": "Which type sets each aggregate accepts, and the declared type, are characterised exactly for every set. The declared type is not always that of the result (C53_fails_declared)."
  },
  {
   "property": "C54",
   "status": "partial",
   "theorems": [
    "Mentat.C54_pull_partial",
    "Mentat.C54_entity",
    "Mentat.C54_accepted",
    "Mentat.C54_rel_partial",
    "Mentat.C54_tuple_partial",
    "Mentat.C54_scalar_partial",
    "Mentat.C54_coll_partial",
    "Mentat.C54_example",
    "Mentat.C54_entity_example",
    "Mentat.C54_fails_same_name",
    "Mentat.C54_fails_two_names",
    "Mentat.C54_fails_wildcard",
    "Mentat.C54_fails_wildcard_alias",
    "Mentat.C54_fails_id_name",
    "Mentat.C54_fails_coll"
   ],
   "note": "Proved for every set of specs that gives each attribute one name and each name to one attribute and has nothing after a wildcard, on every store reached by transactions; unconditional for pull_attributes_for_entity when idents are unambiguous. False for ambiguous specs, for specs after or aliases before a wildcard, and a find-collection leaves out entities with nothing to show (the C54_fails theorems). The order of the values of a cardinality-many attribute is left open, as in the SQL."
  },
  {
   "property": "C55",
   "status": "partial",
   "theorems": [
    "Mentat.SqlText.C55_reads_back_partial",
    "Mentat.SqlText.C55_arguments_distinct",
    "Mentat.SqlText.C55_arguments_shared_partial",
    "Mentat.SqlText.C55_total",
    "Mentat.SqlText.C55_identifier_partial",
    "Mentat.SqlText.C55_identifier_injective",
    "Mentat.SqlText.C55_fails_generated_parameter",
    "Mentat.SqlText.C55_fails_never_refused",
    "Mentat.SqlText.C55_fails_same_parameter",
    "Mentat.SqlText.C55_fails_nul",
    "Mentat.SqlText.C55_fails_keywords"
   ],
   "note": "The text of every select query, read by a model of SQLite's tokenizer with its arguments resolved, is the query; names free of NUL. The check against parameters that could be generated never refuses any, and keywords are not shared: proved as fails. Rust's {:e} of doubles is a parameter constrained only in shape."
  },
  {
   "property": "C56",
   "status": "proved",
   "theorems": [
    "Mentat.Sync.C56_action",
    "Mentat.Sync.C56_depends",
    "Mentat.Sync.C56_example"
   ],
   "note": "Full table, for every known head, remote head and mapping."
  },
  {
   "property": "C57",
   "status": "proved",
   "theorems": [
    "Mentat.Sync.C57_process",
    "Mentat.Sync.C57_example"
   ],
   "note": "Every log, starting point and receiver."
  },
  {
   "property": "C58",
   "status": "proved",
   "theorems": [
    "Mentat.Sync.C58_chain",
    "Mentat.Sync.C58_download"
   ],
   "note": "Chain, head, contents and what a download gives back; the last with distinct new UUIDs."
  },
  {
   "property": "C59",
   "status": "proved",
   "theorems": [
    "Mentat.Sync.C59_one_to_one",
    "Mentat.Sync.C59_latest",
    "Mentat.Sync.C59_example"
   ],
   "note": "Every sequence of updates."
  },
  {
   "property": "C60",
   "status": "partial",
   "theorems": [
    "Mentat.Sync.C60_partial",
    "Mentat.Sync.C60_fails",
    "Mentat.Sync.C60_example"
   ],
   "note": "False of the code: the partition map sent with a transaction forgets earlier entids (C60_fails, two real uploads). Proved when every incoming map covers the store it is applied to."
  },
  {
   "property": "C61",
   "status": "partial",
   "theorems": [
    "Mentat.Sync.C61_absent",
    "Mentat.Sync.C61_changed",
    "Mentat.Sync.C61_merged",
    "Mentat.Sync.C61_example_absent",
    "Mentat.Sync.C61_example_merged",
    "Mentat.Sync.C61_rebase_partial",
    "Mentat.Sync.C61_retracted_partial",
    "Mentat.Sync.C61_example_retracted",
    "Mentat.Sync.C61_example",
    "Mentat.Sync.C61_fails_split",
    "Mentat.Sync.C61_fails_ref",
    "Mentat.Sync.C61_fails_replace"
   ],
   "note": "False of the code in three ways, each shown by running the modelled upload, download and merge: an assertion about a shared entity moves to a new one, references are not renumbered, replaced values come back. Proved: within one rebased transaction every assertion holds of one entity per local entity (with the two exceptions of C20)."
  },
  {
   "property": "C62",
   "status": "partial",
   "theorems": [
    "Mentat.C62_tx_ids",
    "Mentat.C62_tx_data_partial",
    "Mentat.QueryEx.C62_tx_ids_total",
    "Mentat.QueryEx.C62_fails_fulltext",
    "Mentat.QueryEx.C62_fails_type",
    "Mentat.QueryEx.C62_example_ids",
    "Mentat.QueryEx.C62_example_data",
    "Mentat.QueryEx.C62_example_both",
    "Mentat.QueryEx.logged_ok"
   ],
   "note": "tx-ids: exactly the transactions in the half-open range, for every log and bounds, each once, and the query succeeds. tx-data: exactly the rows of the transaction, when no row is of a fulltext attribute and values are of one type per attribute and readable. Both functions may also stand among other clauses (C45_rows_partial). The code fails for fulltext values and joins values of other types when the variable's type is known."
  },
  {
   "property": "C63",
   "status": "partial",
   "theorems": [
    "Mentat.C63_statements",
    "Mentat.C63_panics_iff",
    "Mentat.C63_variables",
    "Mentat.C63_resolve",
    "Mentat.C63_fts_partial",
    "Mentat.C63_example",
    "Mentat.C63_fails",
    "Mentat.C63_fails_fts"
   ],
   "note": "Coverage, order and limit proved for every number of rows and every limit, as is the exact condition for the assertion to fail. That condition is met with SQLite's current default limit (C63_fails), and full-text rows have a second one (C63_fails_fts)."
  },
  {
   "property": "C64",
   "status": "proved",
   "theorems": [
    "Mentat.C64_intern",
    "Mentat.C64_example"
   ],
   "note": "Every sequence of interned values."
  },
  {
   "property": "C65",
   "status": "partial",
   "theorems": [
    "Mentat.C65_order_partial",
    "Mentat.C65_repeated_partial",
    "Mentat.C65_datoms_partial",
    "Mentat.C65_example",
    "Mentat.C65_entities_partial",
    "Mentat.C65_entities_example",
    "Mentat.C65_fails_anonymous"
   ],
   "note": "Proved for every store reached by transactions and every permutation of terms and tempids (and for repeated terms): both orders are accepted or neither, with the same schema, partitions, report, and the same datoms and log rows. The hypothesis MetaTold excludes stores whose metadata attributes were made cardinality many and hold keywords that cannot be read back; which of several errors is reported is not claimed. For transactions as given (C65_entities_partial) every map must have a :db/id; without, the full statement fails, since the ids of new entities are given out in the order of the maps."
  },
  {
   "property": "C66",
   "status": "proved",
   "theorems": [
    "Mentat.C66_coercion",
    "Mentat.C66_typed",
    "Mentat.C66_example"
   ],
   "note": "Exact table of accepted pairs."
  },
  {
   "property": "C67",
   "status": "partial",
   "theorems": [
    "Mentat.C67_allocated_partial",
    "Mentat.C67_example",
    "Mentat.C67_fails"
   ],
   "note": "Proved when reversed attributes are not given raw entids as values; C67_fails shows the unchecked entid."
  },
  {
   "property": "C68",
   "status": "partial",
   "theorems": [
    "Mentat.C68_rows_partial",
    "Mentat.C68_scalar_partial",
    "Mentat.C68_count_partial",
    "Mentat.QueryEx.C68_example",
    "Mentat.QueryEx.C68_example_gathered",
    "Mentat.QueryEx.C68_fails_none",
    "Mentat.QueryEx.C68_fails_given"
   ],
   "note": "For unordered queries of patterns, comparisons and negations, aggregating variables that are not given and whose types are known; sums of doubles and averages are not specified. Sums of nothing and aggregates of given variables behave otherwise (the fails theorems)."
  },
  {
   "property": "C69",
   "status": "partial",
   "theorems": [
    "Mentat.C69_restores_partial",
    "Mentat.C69_released",
    "Mentat.C69_unknown",
    "Mentat.C69_example",
    "Mentat.C69_fails"
   ],
   "note": "Proved for the tables, for every sequence of operations between setting and rolling back, nested savepoints included. False for what is kept in memory: schema, partition map, cache and the report to observers stay as they were before the rollback (C69_fails)."
  },
  {
   "property": "C70",
   "status": "partial",
   "theorems": [
    "Mentat.Sync.C70_replicates_partial",
    "Mentat.Sync.C70_uploads",
    "Mentat.Sync.C70_example",
    "Mentat.Sync.C70_fails_instant"
   ],
   "note": "Proved for every history of transactions between the common state and the uploaded one that keep the attributes in use, say unambiguously what they do to vocabulary and give :db/txInstant only to themselves: the downloading store gets the same schema, datoms, log and views (as tables; the partition map is not restored, see C60_fails). False without the last condition: a transaction that corrects an earlier transaction's instant cannot be downloaded (C70_fails_instant)."
  },
  {
   "property": "C71",
   "status": "partial",
   "theorems": [
    "Mentat.Sync.C71_incompatible",
    "Mentat.Sync.C71_example_incompatible",
    "Mentat.Sync.C71_writer_partial",
    "Mentat.Sync.C71_reader_partial",
    "Mentat.Sync.C71_example",
    "Mentat.Sync.C71_fails_first",
    "Mentat.Sync.C71_fails_report",
    "Mentat.Sync.C71_fails_boot"
   ],
   "note": "Proved for every interleaving of a writer's transactions (those C70 covers), its syncs and a reader's syncs, when both stores start with the same contents, the writer syncs first and the UUIDs made are new. False otherwise: a new store that syncs first leaves the writer unable to sync (C71_fails_first), stores made at different times keep different bootstrap instants (C71_fails_boot), and with a malformed remote transaction nothing is applied though a fast-forward is reported (C71_fails_report)."
  },
  {
   "property": "C72",
   "status": "partial",
   "theorems": [
    "Mentat.Sync.C72_installed_partial",
    "Mentat.Sync.C72_altering_partial",
    "Mentat.Sync.C72_example",
    "Mentat.Sync.C72_fails_identity",
    "Mentat.Sync.C72_fails_removed"
   ],
   "note": "Proved for one local transaction on top of any store that keeps its row invariants and has :db/ident as an indexed identity. False in general: a new local attribute found in the store through another identity alters the attribute found and loses its ident (C72_fails_identity), and of an attribute removed locally only the ident is removed (C72_fails_removed)."
  },
  {
   "property": "C73",
   "status": "partial",
   "theorems": [
    "Mentat.C73_history_partial",
    "Mentat.C73_answers_partial",
    "Mentat.C73_example",
    "Mentat.C73_answers_example"
   ],
   "note": "Proved for every history of transactions of values that read back (no BigInteger, no pre-1970 fractional instants, no improper reals), without undefining an attribute in use or redefining the attributes that describe attributes, and for any number of patterns whose attributes are given by ident or id; such a query does not fail (C74)."
  },
  {
   "property": "C74",
   "status": "partial",
   "theorems": [
    "Mentat.C74_patterns_partial",
    "Mentat.C74_algebrize_partial",
    "Mentat.C73_answers_partial",
    "Mentat.C73_answers_example",
    "Mentat.QueryEx.C74_fails_panic",
    "Mentat.QueryEx.C74_fails_twice",
    "Mentat.QueryEx.C74_fails_order",
    "Mentat.QueryEx.C74_fails_read"
   ],
   "note": "Proved for queries of patterns of the default source, without big integers and without :order, that find variables, each once; for running them also that a variable whose type is not known is met once and that the values of the answers read back. The cases left out do fail, each with a witness: a big integer or a named source is a panic, a variable found twice is an error, ordering a query known to have no answers is an error, a double joined with an instant is an error."
  },
  {
   "property": "C75",
   "status": "partial",
   "theorems": [
    "Mentat.QParse.C75_reads_partial",
    "Mentat.QText.C75_meaning_partial",
    "Mentat.QText.C75_words",
    "Mentat.QText.C75_meaning_example",
    "Mentat.QParse.C75_unambiguous",
    "Mentat.QParse.C75_answers_partial",
    "Mentat.QParse.C75_example",
    "Mentat.QParse.C75_answers_example",
    "Mentat.QParse.C75_fails_keyword",
    "Mentat.QParse.C75_fails_keyword_rows",
    "Mentat.QParse.C75_fails_word",
    "Mentat.QParse.C75_fails_pull",
    "Mentat.QParse.C75_fails_places"
   ],
   "note": "Proved for every form whose values read back (C07: no floats without a fraction, no text with quotes or backslashes), whose constant value in a pattern is not a keyword without namespace and whose functions are not named like the words type, the and pull; combined with C73, from the text of a query to its answers after any history. The cases left out are read otherwise than written, with witnesses."
  },
  {
   "property": "C76",
   "status": "proved",
   "theorems": [
    "Mentat.QParse.C76_parts",
    "Mentat.QParse.C76_order",
    "Mentat.QText.C76_refused",
    "Mentat.QText.C76_accepted",
    "Mentat.QParse.C76_example",
    "Mentat.QText.C76_refused_example"
   ],
   "note": ""
  },
  {
   "property": "C77",
   "status": "partial",
   "theorems": [
    "Mentat.QParse.C77_wellformed_partial",
    "Mentat.QParse.C77_example",
    "Mentat.QParse.C77_fails_panic",
    "Mentat.QParse.C77_fails_attribute"
   ],
   "note": "Proved for every text: the parser does not run forever, and what it accepts is well formed. Missing, with witnesses: it may panic (a reversed attribute with no name, a limit beyond 64 bits), and an attribute reversed once may still be backward."
  },
  {
   "property": "C78",
   "status": "partial",
   "theorems": [
    "Mentat.EParse.C78_reads_partial",
    "Mentat.EParse.C78_transacts_partial",
    "Mentat.EParse.C78_unambiguous",
    "Mentat.EParse.C78_example",
    "Mentat.EParse.C78_fails_repeated",
    "Mentat.EParse.C78_fails_words",
    "Mentat.EParse.C78_fails_reversed"
   ],
   "note": "Proved for every form whose values read back (C07: no floats without a fraction, no text with quotes or backslashes). In the reversed vector notation the value must be one that can also stand for an entity. Missing, with witnesses: a repeated attribute in map notation silently keeps the last value, the words of the grammar need no space after them, and a doubly reversed attribute is reversed once."
  },
  {
   "property": "C79",
   "status": "partial",
   "theorems": [
    "Mentat.EParse.C79_wellformed",
    "Mentat.EParse.C79_reach",
    "Mentat.EParse.C79_answers_partial",
    "Mentat.EParse.C79_example",
    "Mentat.EParse.C79_history_example",
    "Mentat.EParse.C79_fails_panic"
   ],
   "note": "Proved for every text: the parser returns, and what it accepts is well formed; histories of texts lead to the stores that the theorems on histories of terms speak of (values that read back, known entities under reversed attributes, no attribute in use undefined). Missing, with witnesses: the parser may panic (an attribute named only _, an integer beyond 64 bits)."
  },
  {
   "property": "C80",
   "status": "proved",
   "theorems": [
    "Mentat.C80_reads",
    "Mentat.C80_rejects",
    "Mentat.C80_prints",
    "Mentat.C80_days",
    "Mentat.C80_millis",
    "Mentat.C80_micros",
    "Mentat.C80_example",
    "Mentat.C80_rejects_example",
    "Mentat.C80_leap_differs"
   ],
   "note": "For every text of the shape of the grammar: it is read as the instant given by counting days of the Gregorian calendar from 1970-01-01, the time and the offset, or not read at all if there is no such day, time or offset; printing gives that day and time. The counts #instmillis and #instmicros are read as counts, and panic beyond the last year of chrono, which depends on its version."
  },
  {
   "property": "C81",
   "status": "partial",
   "theorems": [
    "Mentat.C81_views",
    "Mentat.C81_transact",
    "Mentat.C81_transact_conv",
    "Mentat.C81_table",
    "Mentat.C81_grows",
    "Mentat.C81_runs",
    "Mentat.C81_example",
    "Mentat.C81_fails_move",
    "Mentat.C81_fails_sync",
    "Mentat.C81_fails_example",
    "Mentat.C81_move_partial",
    "Mentat.C81_sync_partial",
    "Mentat.C81_move_example"
   ],
   "note": "Proved for transactions, for the views that queries read, and for reading the log where no fulltext value was touched. Missing, with witnesses: where the log is read directly the rowids are not looked up, so a transaction that touched a fulltext value cannot be moved off the main timeline, and a log with one cannot be read to be synchronized."
  },
  {
   "property": "C82",
   "status": "partial",
   "theorems": [
    "Mentat.C82_search",
    "Mentat.C82_tables",
    "Mentat.C82_history",
    "Mentat.QueryEx.C82_total",
    "Mentat.C45_rows_partial",
    "Mentat.QueryEx.searched_ok",
    "Mentat.QueryEx.C82_example",
    "Mentat.QueryEx.C82_example_clauses",
    "Mentat.C82_example_history",
    "Mentat.QueryEx.C82_fails_panic",
    "Mentat.QueryEx.C82_fails_order",
    "Mentat.QueryEx.C82_score"
   ],
   "note": "Which strings a search finds is a parameter. Among other clauses a search is covered by C45 when it binds no score (always 0 in the code) and no variable whose type is loose. Missing, with witnesses: a search whose text variable has a value panics, and one for what a later clause finds is refused."
  },
  {
   "property": "C83",
   "status": "partial",
   "theorems": [
    "Mentat.C83_coll",
    "Mentat.C83_tuple",
    "Mentat.C83_scalar",
    "Mentat.C83_coll_answers_partial",
    "Mentat.C83_tuple_answers_partial",
    "Mentat.C83_scalar_answers_partial",
    "Mentat.QueryEx.C83_example",
    "Mentat.QueryEx.C83_example_treated"
   ],
   "note": "The equations hold of every query without restriction on its clauses; the answers are those of C45, for the queries treated there."
  },
  {
   "property": "C84",
   "status": "partial",
   "theorems": [
    "Mentat.C84_uncached",
    "Mentat.C84_value_partial",
    "Mentat.C84_values_partial",
    "Mentat.C84_named",
    "Mentat.C84_inProgress_value_partial",
    "Mentat.C84_inProgress_values_partial",
    "Mentat.C84_values_cached_one",
    "Mentat.C84_value_cached_many",
    "Mentat.C84_example",
    "Mentat.C84_fails_one",
    "Mentat.C84_fails_many"
   ],
   "note": "Proved in full for attributes that are not cached; for cached ones, for one value of cardinality one and the values of cardinality many. Missing, with witnesses: the values of a cached attribute of cardinality one are always none, the value of a cached attribute of cardinality many is always none, and values cached may be given twice."
  },
  {
   "property": "C85",
   "status": "proved",
   "theorems": [
    "Mentat.EdnText.C85_reads",
    "Mentat.EdnText.C85_reads_alone",
    "Mentat.EdnText.C85_unambiguous",
    "Mentat.EdnText.C85_example"
   ],
   "note": "For every way of writing a value that reads back (C07 lists these), at any depth. Members of collections are taken to be apart by at least one blank or comment; the code also reads some texts without."
  },
  {
   "property": "C86",
   "status": "partial",
   "theorems": [
    "Mentat.EdnText.C86_reads_partial",
    "Mentat.EdnText.C86_one_line",
    "Mentat.EdnText.C86_narrow",
    "Mentat.EdnText.C86_example",
    "Mentat.EdnText.C86_fails",
    "Mentat.C07_float_fails"
   ],
   "note": "The layout algorithm is that documented by the pretty crate, which is not in the repository. Reading back holds at every width for the values that read back when printed (C07); the others print as they do there and fail with the same witnesses. Printing in one line, and the width of the lines, holds of every value."
  },
  {
   "property": "C87",
   "status": "partial",
   "theorems": [
    "Mentat.Edn.C87_sound",
    "Mentat.Edn.C87_complete_partial",
    "Mentat.Edn.C87_self_partial",
    "Mentat.Edn.C87_read",
    "Mentat.Edn.C87_complete_fails",
    "Mentat.Edn.C87_names_fails",
    "Mentat.Edn.C87_self_fails",
    "Mentat.Edn.C87_pairing_fails",
    "Mentat.Edn.C87_example"
   ],
   "note": "What is said to match does, for every pattern; what matches is found to for patterns without placeholders in sets or maps. Missing, with witnesses: with placeholders in a set or map a match may be missed, depending on the order of the members and on the names of the placeholders, and a value need not match itself. Members of sets are not paired off one to one."
  },
  {
   "property": "C88",
   "status": "partial",
   "theorems": [
    "Mentat.C88_terms",
    "Mentat.C88_values_partial",
    "Mentat.C88_text_partial",
    "Mentat.C88_progress_partial",
    "Mentat.C88_written",
    "Mentat.C88_commit",
    "Mentat.C88_committed",
    "Mentat.C88_example",
    "Mentat.C88_fails_refused",
    "Mentat.C88_fails_accepted",
    "Mentat.C88_fails_numbered"
   ],
   "note": "The conditions on types are needed, with witnesses: a number not declared a reference is refused where its text is accepted; an entity as the value of a string attribute is accepted if an upsert drops it before the check (C11). Numbered tempids have no text; they are confused with those the transactor makes for maps without :db/id (witness)."
  },
  {
   "property": "C89",
   "status": "partial",
   "theorems": [
    "Mentat.C89_allowed",
    "Mentat.C89_last",
    "Mentat.C89_order",
    "Mentat.C89_refused",
    "Mentat.C89_sequence",
    "Mentat.C89_answers_partial",
    "Mentat.C89_again",
    "Mentat.C89_forms",
    "Mentat.QueryEx.C89_example",
    "Mentat.QueryEx.C89_fails_again",
    "Mentat.QueryEx.C89_fails_instant",
    "Mentat.QueryEx.C89_fails_name",
    "Mentat.C89_answers_example"
   ],
   "note": "The answers are stated for queries of patterns (other clauses: C45 applies to the inputs C89_sequence gives). Executing a builder again without binding again does not answer the query, because executing empties it; an instant before 1970 that is not in whole seconds is bound as another (C01); a name without question mark is a panic."
  },
  {
   "property": "C90",
   "status": "partial",
   "theorems": [
    "Mentat.Cli.C90_grammar",
    "Mentat.Cli.C90_echo_partial",
    "Mentat.Cli.C90_echo_fails",
    "Mentat.Cli.C90_startup_partial",
    "Mentat.Cli.C90_fails_startup",
    "Mentat.Cli.C90_attribute_partial",
    "Mentat.Cli.C90_fails_attribute",
    "Mentat.Cli.C90_fails_timer",
    "Mentat.Cli.C90_fails_rest",
    "Mentat.Cli.C90_fails_sync",
    "Mentat.Cli.C90_example"
   ],
   "note": "The parser combinators are those the combine crate documents; the crate is not in the repository. The grammar is exact, and is not the one meant: no text turns the timer off, text after some commands is ignored, one argument to .sync is accepted and then a panic (witnesses). Timer, cache, help and sync commands are printed so that they are not read as themselves. Options by their long names, or joined with their arguments, give no commands, and queries are not put after transactions as the help says. Attributes are also read with the separators exchanged, and without namespace or name are a panic."
  },
  {
   "property": "C91",
   "status": "proved",
   "theorems": [
    "Mentat.Cli.C91_session",
    "Mentat.Cli.C91_unique",
    "Mentat.Cli.C91_lines",
    "Mentat.Cli.C91_interrupt",
    "Mentat.Cli.C91_example",
    "Mentat.Cli.C91_example_pending"
   ],
   "note": "The terminal and its history are not modelled."
  },
  {
   "property": "C92",
   "status": "partial",
   "theorems": [
    "Mentat.C92_rows_partial",
    "Mentat.C92_same_partial",
    "Mentat.C92_faithful",
    "Mentat.C92_connection_partial",
    "Mentat.C92_inProgress_faithful",
    "Mentat.C92_inProgress_partial",
    "Mentat.C92_example",
    "Mentat.C92_inProgress_example",
    "Mentat.C92_fails_many",
    "Mentat.C92_fails_stale",
    "Mentat.C92_fails_unbound",
    "Mentat.C92_fails_not",
    "Mentat.C92_fails_inProgress"
   ],
   "note": "Proved for queries of patterns with given attributes, comparisons, type annotations, and not and not-join of these nested to any depth (each with a pattern whose attribute is not cached or whose variables are all unified), for caches that say what the store holds (which follows from C37 and C38 for connections and for transactions in progress). Not covered: or, or-join and where-functions together with caches. The full statement fails: an attribute of cardinality many cached forward loses its answers, a stale reverse cache (C38) gives wrong ones, an input without a value is no error when a lookup binds it, a not-join whose clauses are all answered by the caches is left out instead of letting nothing through, and inside a transaction a value retracted there is still answered by the cache."
  },
  {
   "property": "C93",
   "status": "partial",
   "theorems": [
    "Mentat.C93_once",
    "Mentat.C93_run",
    "Mentat.C93_inProgress",
    "Mentat.C93_rows_partial",
    "Mentat.C93_later_partial",
    "Mentat.C93_example",
    "Mentat.C93_fails_inputs",
    "Mentat.C93_fails_caching"
   ],
   "note": "Preparing and running is running once, in full (C93_once). Later stores: for queries of patterns, comparisons and type annotations the rows are the answers then. The full statement fails: the inputs given to run are ignored, and a transaction told not to use the caches uses them for prepared queries. In Rust a prepared query borrows the connection, so the later store is one changed through another connection. Missing: a changed schema."
  },
  {
   "property": "C94",
   "status": "partial",
   "theorems": [
    "Mentat.Wire.C94_string",
    "Mentat.Wire.C94_keyword",
    "Mentat.Wire.C94_value_partial",
    "Mentat.Wire.C94_part_partial",
    "Mentat.Wire.C94_download_partial",
    "Mentat.Wire.C94_replicates_partial",
    "Mentat.Wire.C94_fails_infinite",
    "Mentat.Wire.C94_fails_double",
    "Mentat.Wire.C94_fails_keyword",
    "Mentat.Wire.C94_example"
   ],
   "note": "Strings and the exact class of keywords in full; all values except doubles with too many digits, instants outside the years 0 to 9999 and keywords with quotes, backslashes or control characters. The full statement fails: serde_json without float_roundtrip reads some doubles as their neighbour, doubles that are not finite are written as null, and keywords are read as &str, which fails for anything escaped. The text of the JSON around strings and the HTTP requests are not modelled."
  },
  {
   "property": "C95",
   "status": "partial",
   "theorems": [
    "Mentat.Sync.C95_two_rounds_partial",
    "Mentat.Sync.C95_reports",
    "Mentat.Sync.C95_example",
    "Mentat.Sync.C95_fails_head"
   ],
   "note": "The bound is proved for every store and every server whose head is its last transaction, as long as nobody else writes; the shape of the results for anything others do. Without the condition on the head the bound fails: after an upload that was cut off before it set the head, another client's sync merges twice, fails in the third round and in all later syncs."
  },
  {
   "property": "C96",
   "status": "partial",
   "theorems": [
    "Mentat.Sync.C96_accepting_partial",
    "Mentat.Sync.C96_blind",
    "Mentat.Sync.C96_fails_refused",
    "Mentat.Sync.C96_example"
   ],
   "note": "Proved for a server that accepts every request. The full statement fails, for every store: RemoteClient::put only logs an unexpected status, so a refused upload is recorded as done and its transactions are never uploaded later. Network errors panic (unwrap) and are not modelled."
  },
  {
   "property": "C97",
   "status": "partial",
   "theorems": [
    "Mentat.Sync.C97_chain_partial",
    "Mentat.Sync.C97_fails_race",
    "Mentat.Sync.C97_example"
   ],
   "note": "Proved for syncs that do not overlap. The full statement fails, for every store: set_head is unconditional, so a client that uploads after another has moved the head forks the chain and never gets what the other uploaded."
  },
  {
   "property": "C98",
   "status": "partial",
   "theorems": [
    "Mentat.C98_idle",
    "Mentat.C98_called",
    "Mentat.C98_refused",
    "Mentat.C98_ensured_partial",
    "Mentat.C98_again_partial",
    "Mentat.C98_example",
    "Mentat.C98_uncalled",
    "Mentat.C98_upgraded_partial",
    "Mentat.C98_upgrade_refused",
    "Mentat.C98_upgrade_example",
    "Mentat.C98_fails_newer",
    "Mentat.C98_fails_doubled"
   ],
   "note": "When the functions are called, what pre is told and that errors fail the whole: in full for definitions with distinct names. That every definition is then present: when pre leaves the verdicts on the definitions as they were (it may change any data), for definitions that C43 covers. The functions a definition has for its own upgrade are called for upgrades only, their errors fail the whole, and what runs after it gets a store with the definition when what runs before leaves the version found. The full statement fails: the verdicts given before pre are acted on after it, so a newer version that pre installs is replaced by the older one, and of two definitions of one name only the last is worked on although success is reported. What an error leaves in the InProgress is not part of the result."
  },
  {
   "property": "C99",
   "status": "partial",
   "theorems": [
    "Mentat.Ffi.C99_same_partial",
    "Mentat.Ffi.C99_given",
    "Mentat.Ffi.C99_typed",
    "Mentat.Ffi.C99_reported",
    "Mentat.Ffi.C99_stored_partial",
    "Mentat.Ffi.C99_transacted_partial",
    "Mentat.Ffi.C99_transacted_example",
    "Mentat.Ffi.C99_retracted_partial",
    "Mentat.Ffi.C99_retracted_example",
    "Mentat.Ffi.C99_bound_partial",
    "Mentat.Ffi.C99_bound_example",
    "Mentat.Ffi.C99_example",
    "Mentat.Ffi.C99_fails_timestamp",
    "Mentat.Ffi.C99_fails_keyword",
    "Mentat.Ffi.C99_fails_plain",
    "Mentat.Ffi.C99_fails_utf8",
    "Mentat.Ffi.C99_fails_nul",
    "Mentat.Ffi.C99_fails_reference",
    "Mentat.Ffi.C99_fails_reference_example"
   ],
   "note": "Exactly which values come back as given is proved (C99_same_partial, an equivalence): UTF-8 text, keywords written with one colon and two parts, sixteen bytes, and all longs, references, booleans and doubles; through the store for attributes of cardinality one that are not cached. The full statement fails: timestamps are taken as microseconds and given as seconds, so none but 0 comes back; a keyword loses what follows a second slash and one without a slash is a panic; text that is not UTF-8 becomes the empty string; a stored string with a NUL is a panic when taken; and a string under an attribute of references is not refused but taken as a tempid. Lifetimes of pointers are not modelled."
  }
 ]
}