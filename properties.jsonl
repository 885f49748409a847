{"id": "C01", "title": "Stored values read back unchanged", "statement": "Every value that can be asserted is read back from the store as the same typed value: decoding the (SQL value, type tag) pair written for a value yields exactly that value.", "quantifier": "every typed value of every value type", "why_tests_cant": "The value space is infinite (strings, 64-bit integers, instants, UUIDs, keywords); tests only sample it, and one value (the nil UUID) is in fact written but refused on read.", "anchors": ["db/src/db.rs: TypedSQLValue::to_sql_value_pair, TypedSQLValue::from_sql_value_pair", "core/src/sql_types.rs: SQLValueType::sql_representation"]}
{"id": "C02", "title": "SQL equality agrees with value equality within an attribute", "statement": "Two values of one attribute's value type are the same value exactly when SQLite treats their stored (value, tag) pairs as equal, so unique indices, joins and lookups neither merge distinct values nor split equal ones.", "quantifier": "every pair of values of one value type; and every pair of value types for the cross-type statement", "why_tests_cant": "Needs all pairs of values, including integer/real comparisons where SQLite identifies 1 and 1.0.", "anchors": ["db/src/db.rs: V1_STATEMENTS (idx_datoms_*), to_sql_value_pair", "core/src/sql_types.rs"]}
{"id": "C03", "title": "Instants survive conversion to and from microseconds", "statement": "Converting an instant to stored microseconds and back yields the same instant, for instants before and after 1970, at microsecond precision; converting from milliseconds denotes the same moment.", "quantifier": "every instant representable at microsecond precision", "why_tests_cant": "Sign/rounding boundaries depend on every residue of the timestamp, before and after the epoch.", "anchors": ["edn/src/types.rs: FromMicros, ToMicros, FromMillis, ToMillis"]}
{"id": "C04", "title": "Reversing an attribute keyword twice is the identity", "statement": "For a namespaced keyword, :ns/_name is backward, :ns/name is forward; unreversing a reversed keyword gives the keyword back, a keyword is exactly one of forward or backward, and no operation panics.", "quantifier": "every keyword namespace and name", "why_tests_cant": "Names are arbitrary strings; names that themselves begin with underscores are the interesting ones.", "anchors": ["edn/src/namespaceable_name.rs: NamespaceableName::to_reversed, is_backward, is_forward", "edn/src/symbols.rs: Keyword::to_reversed, unreversed"]}
{"id": "C05", "title": "Keywords print and parse back to themselves", "statement": "Printing a keyword or symbol and splitting the printed text on its namespace separator gives back the same namespace and name, and two different keywords never print the same text.", "quantifier": "every keyword/symbol with valid components", "why_tests_cant": "Strings are unbounded; collisions between (ns, name) splits cannot be excluded by examples.", "anchors": ["edn/src/namespaceable_name.rs: NamespaceableName", "db/src/lib.rs: to_namespaced_keyword", "edn/src/symbols.rs: Display"]}
{"id": "C06", "title": "EDN values are totally ordered consistently with equality", "statement": "The comparison on EDN values is a total order (reflexive, antisymmetric, transitive, total) whose equality is value equality, so sets and maps of EDN values behave as sets and maps.", "quantifier": "every pair and triple of EDN values, nested to any depth", "why_tests_cant": "Transitivity ranges over triples of arbitrarily nested values.", "anchors": ["edn/src/types.rs: Value, impl Ord/PartialOrd for Value, precedence"]}
{"id": "C07", "title": "Printing an EDN value and parsing it returns the value", "statement": "For EDN data made of nil, booleans, integers, text, keywords, symbols, vectors, lists, sets and maps, parse(print(v)) = v.", "quantifier": "every EDN value of the stated shapes, nested to any depth", "why_tests_cant": "Infinitely many nested values; escaping bugs hide in particular characters.", "anchors": ["edn/src/lib.rs: parse grammar", "edn/src/types.rs: Display for Value", "edn/src/pretty_print.rs"]}
{"id": "C08", "title": "Freshly allocated entids are fresh", "statement": "Each allocation hands out entids never handed out before by this partition map, inside the partition's bounds, with no overlap between partitions; allocation never goes past the partition's end silently.", "quantifier": "every partition map and every sequence of allocations of any sizes", "why_tests_cant": "Quantifies over all allocation histories.", "anchors": ["db/src/types.rs: Partition", "db/src/db.rs: PartitionMap::allocate_entids", "db/src/bootstrap.rs: bootstrap_partition_map"]}
{"id": "C09", "title": "Entids stay fresh across closing and reopening the store", "statement": "After reopening, the partition map recomputed from the transaction log never hands out an entid that was already used by a committed transaction, as entity or as reference value.", "quantifier": "every committed history followed by a reopen", "why_tests_cant": "Depends on which entids of a history happen to appear in entity position of the log.", "anchors": ["db/src/db.rs: create_current_partition_view, read_partition_map", "db/src/tx.rs: transact_simple_terms_with_action"]}
{"id": "C10", "title": "Change classification is exact", "statement": "After witnessing any sequence of additions and retractions, each key is classified as asserted (only added), retracted (only retracted), altered (both, with old and new value) or absent, exactly according to what was witnessed, never in two classes.", "quantifier": "every sequence of witnessed (key, value, added) triples", "why_tests_cant": "All interleavings of additions and retractions must be covered.", "anchors": ["db/src/add_retract_alter_set.rs: AddRetractAlterSet::witness"]}
{"id": "C11", "title": "Type checking rejects exactly the ill-typed assertions", "statement": "A transaction is rejected for type disagreement iff some [e a v] it asserts or retracts has a value whose type is not a's value type, and the error lists exactly those.", "quantifier": "every schema and every set of terms", "why_tests_cant": "Every combination of attributes and values.", "anchors": ["db/src/tx_checking.rs: type_disagreements"]}
{"id": "C12", "title": "Cardinality checking rejects exactly the conflicting assertions", "statement": "A transaction is rejected for a cardinality conflict iff it asserts two distinct values for one entity and cardinality-one attribute, or both asserts and retracts the same [e a v]; the result does not depend on the order of the entities.", "quantifier": "every schema and every list of terms in every order", "why_tests_cant": "Quantifies over all term lists and permutations.", "anchors": ["db/src/tx_checking.rs: cardinality_conflicts", "db/src/tx.rs: extend_aev_trie, into_aev_trie"]}
{"id": "C13", "title": "Every stored datom conforms to the schema's value type", "statement": "In every reachable store, every datom's value has the value type of its attribute.", "quantifier": "every history of transactions from an empty store, of any length", "why_tests_cant": "Invariant over unbounded histories.", "anchors": ["db/src/tx.rs: transact_simple_terms_with_action", "db/src/db.rs: update_datoms"]}
{"id": "C14", "title": "Cardinality-one attributes hold at most one value", "statement": "In every reachable store, an entity has at most one value for a cardinality-one attribute.", "quantifier": "every history of transactions of any length", "why_tests_cant": "Invariant over unbounded histories of replacements and retractions.", "anchors": ["db/src/db.rs: search, update_datoms", "db/src/tx_checking.rs"]}
{"id": "C15", "title": "Unique attributes identify at most one entity", "statement": "In every reachable store, at most one entity has a given value for a unique attribute, and a transaction that would break this fails without effect.", "quantifier": "every history of transactions of any length", "why_tests_cant": "Invariant over unbounded histories.", "anchors": ["db/src/db.rs: V1_STATEMENTS idx_datoms_unique_value, update_datoms"]}
{"id": "C16", "title": "Datoms are the replay of the transaction log", "statement": "In every reachable store, the current datoms are exactly what results from replaying all log rows in order: present iff the last log row for [e a v] is an addition, stamped with that row's transaction.", "quantifier": "every history of transactions of any length", "why_tests_cant": "Inductive statement about log and materialised view after arbitrary histories.", "anchors": ["db/src/db.rs: insert_transaction, update_datoms"]}
{"id": "C17", "title": "The log records exactly the net change of each transaction", "statement": "The rows a transaction adds to the log are exactly: an addition for each datom absent before and present after, a retraction for each datom present before and absent after, nothing else, none repeated.", "quantifier": "every store and every accepted transaction", "why_tests_cant": "Must hold for every combination of prior store and input terms.", "anchors": ["db/src/db.rs: search, insert_transaction, update_datoms"]}
{"id": "C18", "title": "Transactions are numbered increasingly and stamped once", "statement": "Each committed transaction has a fresh transaction id greater than all earlier ones, and the log holds exactly one :db/txInstant addition on that id.", "quantifier": "every history of transactions", "why_tests_cant": "All histories.", "anchors": ["db/src/tx.rs: start_tx, get_or_insert_tx_instant"]}
{"id": "C19", "title": "Re-asserting what is already true changes nothing", "statement": "Transacting datoms that are already present leaves all datoms (other than the new transaction's own) unchanged and logs nothing for them.", "quantifier": "every store and every set of already-present assertions", "why_tests_cant": "All stores and subsets.", "anchors": ["db/src/db.rs: insert_transaction, update_datoms"]}
{"id": "C20", "title": "Asserted datoms are present and retracted datoms absent afterwards", "statement": "After a successful transaction, every [e a v] it asserted is present, every [e a v] it retracted is absent, and every datom about an (entity, attribute) it did not mention is untouched.", "quantifier": "every store and every accepted set of terms", "why_tests_cant": "Interactions between replacing, adding and retracting values of one attribute in one transaction.", "anchors": ["db/src/db.rs: search, update_datoms"]}
{"id": "C21", "title": "A failed transaction has no effect", "statement": "When transacting returns an error, the store, schema, partition map and caches seen by later operations are those of before the call.", "quantifier": "every state, every input that fails, at every failing stage", "why_tests_cant": "Every failure point must be considered.", "anchors": ["transaction/src/lib.rs: InProgress::transact_terms, transact_entities", "src/conn.rs: Conn::transact", "src/store.rs"]}
{"id": "C22", "title": "Tempid resolution terminates", "statement": "The upsert resolution loop finishes for every input, in at most (number of complex upserts + 1) generations.", "quantifier": "every set of terms and every store", "why_tests_cant": "Termination over all inputs.", "anchors": ["db/src/tx.rs: transact_simple_terms_with_action", "db/src/upsert_resolution.rs: Generation::evolve_one_step, can_evolve"]}
{"id": "C23", "title": "Every tempid denotes one entity", "statement": "In an accepted transaction each tempid is replaced by one and the same entid at all its occurrences, and the transaction report maps each external tempid to that entid.", "quantifier": "every accepted transaction", "why_tests_cant": "All shapes of cross-referencing tempids across resolution generations.", "anchors": ["db/src/upsert_resolution.rs", "db/src/tx.rs: transact_simple_terms_with_action"]}
{"id": "C24", "title": "A tempid asserting an existing identity upserts", "statement": "If a transaction asserts [tempid a v] with a unique-identity and some entity already has [a v], then in an accepted transaction that tempid denotes that entity.", "quantifier": "every store and every accepted transaction", "why_tests_cant": "All stores/inputs, including chains through reference-valued identities.", "anchors": ["db/src/upsert_resolution.rs: evolve_one_step", "db/src/tx.rs: resolve_temp_id_avs"]}
{"id": "C25", "title": "Conflicting upserts are rejected", "statement": "If identity assertions make one tempid denote two different existing entities, the transaction fails.", "quantifier": "every store and every set of terms", "why_tests_cant": "All combinations over several generations.", "anchors": ["db/src/tx.rs: resolve_temp_id_avs, transact_simple_terms_with_action"]}
{"id": "C26", "title": "New tempids get new entids, and tempids sharing an identity are one entity", "statement": "Tempids that do not upsert get freshly allocated entids; two such tempids get the same entid iff they are linked by asserting the same unique-identity [a v].", "quantifier": "every set of unresolved terms", "why_tests_cant": "Transitive closure over arbitrarily many tempids.", "anchors": ["db/src/upsert_resolution.rs: temp_ids_in_allocations", "db/src/tx.rs: transact_simple_terms_with_action"]}
{"id": "C27", "title": "No assertion is lost and none is invented during tempid resolution", "statement": "Every term of the input appears, with its tempids replaced, among the terms applied to the store (or is already in the store), and every applied term comes from an input term.", "quantifier": "every accepted transaction", "why_tests_cant": "Terms move between populations over many generations; losing one is only visible for particular shapes.", "anchors": ["db/src/upsert_resolution.rs: evolve_one_step, into_final_populations", "db/src/tx.rs: into_aev_trie"]}
{"id": "C28", "title": "Transacting never panics", "statement": "For every input the transactor returns a report or an error; none of its internal assertions fails.", "quantifier": "every input and store", "why_tests_cant": "Internal assertions guard shapes no test exercises.", "anchors": ["db/src/tx.rs: transact_simple_terms_with_action asserts", "db/src/upsert_resolution.rs unreachable!()", "db/src/db.rs: insert_non_fts_searches assert"]}
{"id": "C29", "title": "Lookup refs resolve to the identified entity or fail", "statement": "Each lookup-ref (a, v) is replaced by the entity that has [a v] in the store before the transaction; if there is none or a is not unique, the transaction fails.", "quantifier": "every input with lookup-refs and every store", "why_tests_cant": "All stores/inputs.", "anchors": ["db/src/tx.rs: intern_lookup_ref, resolve_lookup_refs", "db/src/internal_types.rs: replace_lookup_ref", "db/src/db.rs: resolve_avs"]}
{"id": "C30", "title": "Map and nested notation mean their flat expansion", "statement": "Transacting map notation (nested maps, vectors, reversed attributes) yields exactly the terms of the equivalent flat list of assertions, with one fresh internal tempid per anonymous map.", "quantifier": "every map notation, nested to any depth", "why_tests_cant": "Unbounded nesting.", "anchors": ["db/src/tx.rs: entities_into_terms_with_temp_ids_and_lookup_refs"]}
{"id": "C31", "title": "Reversed attributes swap entity and value and keep the operation", "statement": "[op e :ns/_a v] means [op v :ns/a e].", "quantifier": "every entity, operation and attribute", "why_tests_cant": "All forms of both places.", "anchors": ["db/src/tx.rs: entity_v_into_term_e, AddOrRetract branch", "edn/src/entities.rs: EntidOrIdent::unreversed"]}
{"id": "C32", "title": "In-memory schema equals the schema recomputed from the store", "statement": "After every committed transaction, the in-memory schema (idents and attributes) equals the one obtained by reopening the store.", "quantifier": "every history of schema-changing transactions", "why_tests_cant": "All histories of installs, alterations and renames.", "anchors": ["db/src/metadata.rs: update_schema_from_entid_quadruples, update_attribute_map_from_entid_triples", "db/src/db.rs: update_metadata, read_db", "db/src/schema.rs: AttributeBuilder"]}
{"id": "C33", "title": "Only valid attributes are ever installed", "statement": "Every attribute in a reachable schema satisfies the validity rules (unique implies indexed, fulltext implies string and indexed, component implies ref).", "quantifier": "every history of schema transactions", "why_tests_cant": "Histories of installs and alterations.", "anchors": ["db/src/schema.rs: AttributeValidation::validate, AttributeBuilder::validate_install_attribute, validate_alter_attribute"]}
{"id": "C34", "title": "Altering one attribute property changes only that property", "statement": "A schema alteration changes the properties it mentions and leaves every other property and attribute as it was; the value type can never change.", "quantifier": "every attribute and every alteration", "why_tests_cant": "All combinations of properties.", "anchors": ["db/src/schema.rs: AttributeBuilder::mutate", "db/src/metadata.rs"]}
{"id": "C35", "title": "Idents and entids stay mutually inverse", "statement": "In every reachable schema, the ident-to-entid and entid-to-ident maps are inverse to each other.", "quantifier": "every history of ident additions, retractions and renames", "why_tests_cant": "Histories that move idents between entities within one transaction.", "anchors": ["db/src/metadata.rs: update_schema_from_entid_quadruples", "core/src/lib.rs: Schema"]}
{"id": "C36", "title": "Moving transactions off the main timeline restores the earlier state", "statement": "Moving the most recent transactions off the main timeline leaves the datoms exactly as they were before those transactions, and only the suffix of the log can be moved.", "quantifier": "every history and every suffix of it", "why_tests_cant": "All histories and cut points.", "anchors": ["db/src/timelines.rs: move_from_main_timeline, reversed_terms_for, is_tx_contiguous/collect_ordered_txs_to_move"]}
{"id": "C37", "title": "Forward attribute cache agrees with the store", "statement": "For a cached attribute, looking up an entity's value(s) in the cache gives what the store holds, after any sequence of committed transactions.", "quantifier": "every history after registration, every entity", "why_tests_cant": "All histories of adds, replacements and retractions.", "anchors": ["db/src/cache.rs: SingleValAttributeCache, MultiValAttributeCache, update_with_fallback"]}
{"id": "C38", "title": "Reverse attribute cache agrees with the store", "statement": "For a reverse-cached attribute, looking up the entities for a value gives exactly the entities having it in the store, after any sequence of committed transactions.", "quantifier": "every history after registration, every value", "why_tests_cant": "All histories.", "anchors": ["db/src/cache.rs: UniqueReverseAttributeCache, NonUniqueReverseAttributeCache"]}
{"id": "C39", "title": "Uncommitted cache changes are invisible and commit publishes exactly them", "statement": "Readers of the connection's cache see no effect of an in-progress transaction until commit; after commit they see the in-progress view; after rollback they see the old view.", "quantifier": "every base cache and every in-progress overlay", "why_tests_cant": "All overlay contents including deletions.", "anchors": ["db/src/cache.rs: InProgressSQLiteAttributeCache, commit_to"]}
{"id": "C40", "title": "Observers see exactly the commits that touch their attributes", "statement": "A registered observer is called for every committed transaction batch touching its attributes, with exactly the reports that touch them, in commit order, and never for others.", "quantifier": "every set of observers, every sequence of commits, every schedule of the delivery thread", "why_tests_cant": "All schedules of an asynchronous worker.", "anchors": ["db/src/tx_observer.rs: TxObserver::applicable_reports, TxObservationService::in_progress_did_commit, TxCommand::execute", "src/conn.rs: register_observer"]}
{"id": "C41", "title": "Rolled-back work is never observed", "statement": "No observer is notified of a transaction that did not commit.", "quantifier": "every interleaving of transact, rollback and commit", "why_tests_cant": "All interleavings.", "anchors": ["transaction/src/lib.rs: InProgress::commit, rollback", "db/src/tx_observer.rs"]}
{"id": "C42", "title": "Connection metadata moves only at commit", "statement": "The metadata generation increases by one exactly at each commit that installs an in-progress transaction's metadata; a transaction started from a stale snapshot cannot commit over a newer one; readers see the last committed schema.", "quantifier": "every interleaving of begin, commit, rollback and reads by several threads", "why_tests_cant": "All interleavings.", "anchors": ["transaction/src/metadata.rs: Metadata", "transaction/src/lib.rs: InProgress::commit", "src/conn.rs: Conn::begin_transaction, current_schema"]}
{"id": "C43", "title": "Vocabulary checks classify a definition correctly", "statement": "Checking a vocabulary reports Present only if the store has the same version with identical attributes; NotPresent/PresentButNeedsUpdate/PresentButTooNew/PresentButMissingAttributes exactly in their cases, and after a successful ensure a check reports Present.", "quantifier": "every stored vocabulary and every definition", "why_tests_cant": "All versions and attribute sets.", "anchors": ["src/vocabulary.rs: HasVocabularies, VocabularyCheck, ensure_vocabulary, check_vocabulary"]}
{"id": "C44", "title": "Query inputs must be exactly bound", "statement": "A query runs only if every :in variable is given a value; otherwise an error naming the missing variables is returned and nothing panics.", "quantifier": "every set of :in variables and supplied inputs", "why_tests_cant": "All pairs of sets.", "anchors": ["query-algebrizer/src/lib.rs: algebrize_with_inputs", "query-algebrizer/src/clauses/mod.rs: Intersection::keep_intersected_keys", "transaction/src/query.rs"]}
{"id": "C45", "title": "Pattern queries return exactly the matching bindings", "statement": "For conjunctions of data patterns with known attributes, the rows produced by the generated SQL are exactly the variable bindings under which every pattern matches a datom.", "quantifier": "every schema, every store and every list of patterns, of any length, with any sharing of variables", "why_tests_cant": "All stores and all join shapes.", "anchors": ["query-algebrizer/src/clauses/pattern.rs: apply_pattern_clause_for_alias", "query-algebrizer/src/clauses/mod.rs: bind_column_to_var, expand_column_bindings", "query-projector/src/translate.rs: to_constraint, cc_to_select_query"]}
{"id": "C46", "title": "Joins do not confuse values of different types", "statement": "A variable used in two places is bound to one typed value: rows never join a boolean with a long or a reference that happens to have the same SQL representation.", "quantifier": "every store and every pair of patterns sharing a value variable", "why_tests_cant": "Needs all pairs of types and values.", "anchors": ["query-algebrizer/src/clauses/mod.rs: expand_column_bindings, bind_column_to_var"]}
{"id": "C47", "title": "A query reported as empty has no answers", "statement": "When algebrizing decides the query cannot match (type mismatch, unknown ident, non-attribute), no store of the given schema has any matching binding.", "quantifier": "every schema, query and store", "why_tests_cant": "Soundness over all stores.", "anchors": ["query-algebrizer/src/clauses/mod.rs: mark_known_empty, constrain_var_to_type, narrow_types_for_var", "query-algebrizer/src/clauses/or.rs"]}
{"id": "C48", "title": "Type-set reasoning is sound", "statement": "The possible types recorded for a variable always include the type of every value it can take; narrowing, broadening and intersecting type sets are the set operations they claim to be.", "quantifier": "every sequence of constraints on a variable", "why_tests_cant": "All sequences of narrowing/broadening.", "anchors": ["core-traits/value_type_set.rs: ValueTypeSet", "query-algebrizer/src/clauses/mod.rs: narrow_types_for_var, broaden_types"]}
{"id": "C49", "title": "or and or-join mean union", "statement": "A query with or/or-join returns exactly the bindings satisfying the rest together with at least one arm; variables local to an or-join arm are invisible outside.", "quantifier": "every schema, store and list of arms", "why_tests_cant": "All arms and stores.", "anchors": ["query-algebrizer/src/clauses/or.rs: apply_or_join, apply_simple_or_join, apply_complex_or_join", "edn/src/query.rs: OrJoin"]}
{"id": "C50", "title": "not and not-join mean absence", "statement": "A query with not/not-join returns exactly the bindings of the rest for which the negated clauses have no match.", "quantifier": "every schema, store and negated clauses", "why_tests_cant": "All stores and bodies, including bodies answered from the cache.", "anchors": ["query-algebrizer/src/clauses/not.rs: apply_not_join", "query-projector/src/translate.rs: cc_to_exists"]}
{"id": "C51", "title": "Results have the shape the find spec asks for", "statement": "Scalar and tuple queries give at most one answer, rel results have rows of the declared width, row(i), rows() and into_iter agree, and tuple conversion succeeds exactly on matching length.", "quantifier": "every result and every width", "why_tests_cant": "All result sizes.", "anchors": ["query-projector/src/lib.rs: QueryResults, query_projection", "query-projector/src/relresult.rs: RelResult", "query-projector/src/binding_tuple.rs: BindingTuple"]}
{"id": "C52", "title": "Limits and orderings are honoured or rejected", "statement": "A positive limit bounds the result, zero, negative or non-integer limit inputs are rejected, ordering by an unbound variable is rejected, and ordering by a constant variable is dropped.", "quantifier": "every limit, input and order specification", "why_tests_cant": "All inputs.", "anchors": ["query-algebrizer/src/lib.rs: simplify_limit, validate_and_simplify_order", "edn/src/query.rs: Limit"]}
{"id": "C53", "title": "Aggregates accept exactly meaningful types", "statement": "count applies to any types, sum/avg only to numeric, min/max only to one ordered type or numeric; the declared result type is the type of the result.", "quantifier": "every aggregate and every set of possible types", "why_tests_cant": "All type sets.", "anchors": ["query-projector-traits/aggregates.rs: SimpleAggregationOp::is_applicable_to_types"]}
{"id": "C54", "title": "Pull returns exactly the requested present attributes", "statement": "Pulling attributes for entities yields, for each entity, exactly the requested attributes it has, under the requested names, with the values in the store, and nothing else.", "quantifier": "every store, entity set and attribute spec", "why_tests_cant": "All stores/specs.", "anchors": ["query-pull/src/lib.rs: Puller::prepare, Puller::pull", "db/src/cache.rs: make_cache_for_entities_and_attributes"]}
{"id": "C55", "title": "Generated SQL text cannot be broken by names or values", "statement": "Quoted identifiers read back as the original name whatever characters it contains, text and UUID values go only through bound arguments, equal strings share an argument, and distinct values never share one; user parameter names never collide with generated ones.", "quantifier": "every identifier and every sequence of values", "why_tests_cant": "All strings.", "anchors": ["sql/src/lib.rs: SQLiteQueryBuilder::push_identifier, push_typed_value, push_bind_param", "query-sql/src/lib.rs: format_select_var"]}
{"id": "C56", "title": "Sync chooses the action the two sides require", "statement": "The action chosen depends only on whether remote is empty/changed/unchanged and local is changed/unchanged, and loses no side's changes: a side with changes is always uploaded, downloaded or merged.", "quantifier": "every pair of local and remote states", "why_tests_cant": "Full decision table over derived states.", "anchors": ["tolstoy/src/syncer.rs: Syncer::what_do, RemoteDataState::from, LocalDataState::from"]}
{"id": "C57", "title": "Uploading visits every transaction once, in order", "statement": "Processing the log from a given point visits each later main-timeline transaction exactly once in order, with exactly its datoms.", "quantifier": "every log and every starting point", "why_tests_cant": "All logs.", "anchors": ["tolstoy/src/tx_processor.rs: Processor::process, DatomsIterator"]}
{"id": "C58", "title": "Uploaded transactions form one chain from the old remote head", "statement": "Each uploaded transaction's parent is the previously uploaded one, the first one's parent is the known remote head, and the new head is the last one.", "quantifier": "every list of uploaded transactions", "why_tests_cant": "All lengths.", "anchors": ["tolstoy/src/tx_uploader.rs: TxUploader::tx, done"]}
{"id": "C59", "title": "Local and remote transaction ids correspond one to one", "statement": "After any sequence of mapping updates, no transaction maps to two UUIDs and no UUID to two transactions, and the most recent mapping wins.", "quantifier": "every sequence of mapping updates", "why_tests_cant": "All sequences.", "anchors": ["tolstoy/src/tx_mapper.rs: TxMapper", "tolstoy/src/schema.rs: tolstoy_tu"]}
{"id": "C60", "title": "Fast-forwarding never causes entid reuse", "statement": "After applying remote transactions, later local allocations never reuse an entid present in the store.", "quantifier": "every local history, remote history and later transaction", "why_tests_cant": "All histories.", "anchors": ["tolstoy/src/syncer.rs: fast_forward_local", "tolstoy/src/tx_uploader.rs: allocate_partition_map_for_entids"]}
{"id": "C61", "title": "Merging preserves local facts", "statement": "After merging, each local fact is present again with its entity and reference values pointing to the same (possibly renumbered) entities.", "quantifier": "every pair of diverged histories", "why_tests_cant": "All histories.", "anchors": ["tolstoy/src/syncer.rs: merge"]}
{"id": "C62", "title": "Transaction-log queries select half-open ranges", "statement": "(tx-ids $ t1 t2) yields exactly the transactions t with t1 <= t < t2, and (tx-data $ t) exactly the log rows of t.", "quantifier": "every log and every bounds", "why_tests_cant": "All bounds.", "anchors": ["query-algebrizer/src/clauses/tx_log_api.rs: apply_tx_ids, apply_tx_data"]}
{"id": "C63", "title": "Bulk statements cover all rows within the variable limit", "statement": "Splitting rows into statements covers every row exactly once in order, no statement exceeds SQLite's variable limit, and no internal assertion fails for any number of rows.", "quantifier": "every number of rows and every variable limit", "why_tests_cant": "Boundary at exact multiples of the limit.", "anchors": ["db/src/db.rs: resolve_avs, insert_non_fts_searches, insert_fts_searches"]}
{"id": "C64", "title": "Interning gives one handle per value", "statement": "Interning equal values yields the same handle, different values different handles, and interning does not disturb earlier handles.", "quantifier": "every sequence of interned values", "why_tests_cant": "All sequences.", "anchors": ["edn/src/intern_set.rs: InternSet::intern"]}
{"id": "C65", "title": "Order of entities in a transaction does not matter", "statement": "Permuting the assertions of a flat transaction yields the same outcome (same acceptance, same datoms, same log rows as a set). So does permuting the entities of a transaction as it is given, with vectors, maps, lookup refs and reversed attributes.", "quantifier": "every store, every term list and every permutation of it", "why_tests_cant": "All permutations.", "anchors": ["db/src/tx.rs: into_aev_trie", "db/src/db.rs: search, update_datoms"]}
{"id": "C66", "title": "Value expressions are coerced only as documented", "statement": "Converting an EDN value to an attribute's type succeeds exactly on the listed pairs (an integer or keyword to a ref; otherwise only a value already of the type), and yields a value of that type.", "quantifier": "every EDN scalar and every value type", "why_tests_cant": "All pairs.", "anchors": ["db/src/schema.rs: SchemaTypeChecking::to_typed_value"]}
{"id": "C67", "title": "A transaction never writes a datom about an entity that was not allocated", "statement": "After a transaction written as entities, every entity of the new datoms (and every entity an entid in entity position names) was allocated by a partition: existing before, or handed out in this transaction.", "quantifier": "every reachable database and every entity transaction", "why_tests_cant": "All ways of writing an entity place: entids, idents, tempids, lookup refs, reversed attributes, nested maps.", "anchors": ["db/src/tx.rs: ensure_entid_exists, entity_v_into_term_e, entity_e_into_term_e"]}
{"id": "C68", "title": "Aggregates are computed per group over the distinct bindings", "statement": "A query with aggregates gives one row for each group of answers agreeing on the variables found; each row has the group's values and the aggregates of the answers of the group that differ in a variable found, aggregated or mentioned by :with: count their number, sum their sum, max and min a value none exceeds or undercuts.", "quantifier": "every store, every query of patterns, comparisons and negations, every list of found variables and aggregates, every :with", "why_tests_cant": "All groupings and stores.", "anchors": ["query-projector/src/project.rs: project_elements", "query-projector/src/translate.rs: re_project", "query-projector-traits/aggregates.rs: projected_column_for_simple_aggregate"]}
{"id": "C69", "title": "Rolling back to a savepoint restores the transaction in progress", "statement": "Rolling back to a savepoint set inside a transaction in progress puts everything back as it was when the savepoint was set, whatever was done in between, and leaves the savepoint usable; releasing it keeps what was done; a name not set is refused.", "quantifier": "every transaction in progress and every sequence of transactions, cachings and inner savepoints between setting and rolling back", "why_tests_cant": "All sequences, nestings and failures in between.", "anchors": ["transaction/src/lib.rs: InProgress::savepoint, rollback_savepoint, release_savepoint"]}
{"id": "C70", "title": "Fast-forwarding reproduces what was uploaded", "statement": "A store that holds what another held, and downloads every transaction the other has uploaded since, ends with the same schema, the same facts, the same transaction log and the same identifier and attribute tables, at the remote's head; and uploading from a store never fails.", "quantifier": "every pair of stores that agree, every sequence of later transactions on one of them, every remote", "why_tests_cant": "All histories; agreement after one download on samples says nothing about what a later transaction relies on.", "anchors": ["tolstoy/src/syncer.rs: fast_forward_local, fast_forward_remote, remote_parts_to_builder, rewind_tx_partition_by_one", "tolstoy/src/tx_uploader.rs: TxUploader", "db/src/db.rs: PartitionMap"]}
{"id": "C71", "title": "A reader that syncs has what the writer had when it last synced", "statement": "With one store that transacts and one that only reads, starting from new stores and an empty server, the writer can always sync; and once it has, the reader can always sync, which leaves the server as it was and the reader with the schema, facts, log and tables the writer had when it last synced.", "quantifier": "every interleaving of the writer's transactions, its syncs and the reader's syncs", "why_tests_cant": "All interleavings; any number of transactions between two syncs of either.", "anchors": ["tolstoy/src/syncer.rs: sync, first_sync_against_non_empty, what_do", "tolstoy/src/bootstrap.rs: BootstrapHelper", "tolstoy/src/datoms.rs: DatomsHelper", "tolstoy/src/metadata.rs: SyncMetadata"]}
{"id": "C72", "title": "Merging does not alter installed attributes", "statement": "When a local transaction, put on top of the incoming ones, names an attribute that is installed, or asserts a schema attribute of an entity it does not name, the merge is refused unless everything about that attribute stays as it is.", "quantifier": "every store and every local transaction", "why_tests_cant": "All local transactions: the two sets of entities depend on the order of their datoms, and what they alter on upserts.", "anchors": ["tolstoy/src/syncer.rs: merge (might_alter_installed_attributes, will_not_alter_installed_attribute)", "tolstoy/src/metadata.rs: SyncMetadata::has_entity_assertions_in_tx, is_tx_empty"]}
{"id": "C73", "title": "Queries answer from what has been transacted", "statement": "After any history of transactions, a query of patterns answers with exactly one row for each way of choosing values for its variables such that every pattern is matched by a datom some transaction asserted and no later one retracted.", "quantifier": "every history of transactions from a fresh store, every list of patterns and every list of variables found", "why_tests_cant": "All histories together with all queries: the pieces (transactor, materialized tables, algebrizer, SQL, projector) each keep their own representation of attributes, types and values.", "anchors": ["transaction/src/query.rs: q_once", "db/src/db.rs: MentatStoring", "query-algebrizer/src/clauses/pattern.rs: apply_pattern", "query-projector/src/project.rs: project_elements"]}
{"id": "C74", "title": "Queries of patterns do not fail", "statement": "A query whose clauses are patterns, whose inputs are all given and which finds variables of its patterns has a result: the algebrizer accepts it, the SQL speaks of columns that are there, and the rows can be read.", "quantifier": "every store, schema, list of patterns, list of variables found and inputs", "why_tests_cant": "All combinations of known and unknown attributes, types and values: whether a variable has a column, and whether its type tag is in scope, depends on the whole list of patterns and on the inputs.", "anchors": ["query-algebrizer/src/lib.rs: algebrize_with_inputs", "query-algebrizer/src/clauses/mod.rs: apply_clauses, expand_column_bindings, prune_extracted_types, process_required_types", "query-algebrizer/src/clauses/pattern.rs: into_typed_value, apply_pattern", "query-projector/src/project.rs: project_elements"]}
{"id": "C75", "title": "The text of a query is read as the query it writes", "statement": "The text of any query form, printed, is parsed as the query the form denotes: every clause, nested to any depth, every place of a pattern, every argument, find element and part is read as what it is written as, and nothing else.", "quantifier": "every query form and every query it denotes", "why_tests_cant": "The grammar is ordered choice over optional spaces: whether an alternative meant for one construct swallows the beginning of another depends on what follows, at any nesting.", "anchors": ["edn/src/lib.rs: parse_query, where_clause, pattern, fn_arg, find_spec, query_part", "edn/src/query.rs: Pattern::from_parts, ParsedQuery::from_parts, FnArg, PatternNonValuePlace, PatternValuePlace", "query-algebrizer/src/lib.rs: parse_find_string, FindQuery::from_parsed_query"]}
{"id": "C76", "title": "The parts of a query may come in any order, each at most once", "statement": "A list of parts makes a query exactly when it has a :find and a :where and no part twice; the query has what its parts say, whatever their order, and the defaults where there is no part. It is refused exactly when an :in or :with variable is repeated or the limit is a variable that is not an input.", "quantifier": "every list of parts", "why_tests_cant": "All lists of parts of any length and order.", "anchors": ["edn/src/query.rs: ParsedQuery::from_parts", "query-algebrizer/src/lib.rs: FindQuery::from_parsed_query"]}
{"id": "C77", "title": "Accepted text is a well-formed query", "statement": "The parser returns on every text; a query it accepts has a find spec with at least one element, clauses, patterns whose places are what they may be (no named source but with its sign, variables with their sign, attributes forward), no repeated variable in rule heads and a limit that fits.", "quantifier": "every text", "why_tests_cant": "All texts, including malformed and adversarial ones; recursion in the grammar is unbounded.", "anchors": ["edn/src/lib.rs: parse_query", "edn/src/query.rs: ParsedQuery::from_parts, Pattern::from_parts, Limit"]}
{"id": "C78", "title": "Transaction text is read as written", "statement": "Every transaction that can be written as EDN (assertions and retractions, map notation, vectors, lookup refs, transaction functions and reversed attributes, nested to any depth) is read from its text as exactly the entities it denotes, and so transacted as them; the entries of a map may be written in any order.", "quantifier": "every EDN form that denotes a transaction", "why_tests_cant": "All forms of any size and depth, all names and values; the grammar tries alternatives in order and a wrong order shows only on some combinations.", "anchors": ["edn/src/lib.rs: entities, entity, value_place, map_notation, entity_place, lookup_ref, tx_function", "edn/src/entities.rs", "transaction/src/lib.rs: InProgress::transact"]}
{"id": "C79", "title": "Accepted text is a well-formed transaction", "statement": "The parser of transactions returns on every text; the entities it accepts have entids and integers of 64 bits, keywords with proper parts and maps with distinct keys in order, at every depth. Stores reached by transacting texts satisfy what is proved of reachable stores, and query texts are answered from the log of those transactions.", "quantifier": "every text; every history of transaction texts", "why_tests_cant": "All texts, including malformed and adversarial ones; all histories.", "anchors": ["edn/src/lib.rs: entities", "transaction/src/lib.rs: InProgress::transact", "db/src/tx.rs"]}
{"id": "C80", "title": "Instants in text are those of the calendar", "statement": "The text of an instant is read as the moment that the Gregorian calendar, the time of day and the offset say, counted from the first of January 1970; digits that are no such day, time or offset are not read; printing an instant writes its day and its time. Counts of milliseconds and microseconds are read as such.", "quantifier": "every day of the years 0000 to 9999, every time, fraction and offset; every instant; every count", "why_tests_cant": "Leap years recur over 400 years and offsets cross day, month and year ends; the fractions have any number of digits.", "anchors": ["edn/src/lib.rs: inst_string, inst_millis, inst_micros, inst", "edn/src/types.rs: def_common_value_display"]}
{"id": "C81", "title": "Fulltext values are shown as their strings", "statement": "The tables hold a rowid of fulltext_values in place of each string of a fulltext attribute, in datoms and in the log. After any history, the view all_datoms shows exactly the datoms that the transactions left, with their strings; a transaction succeeds on the tables exactly when it succeeds on datoms with strings in place, with the same report; a text has one rowid and keeps it, no search is left in the table, and exactly the datoms of fulltext attributes have rowids, each of a text that is there.", "quantifier": "every history of transactions that does not undefine attributes in use, every schema, every number of variables of a statement", "why_tests_cant": "A text may be shared by many datoms and many transactions, inserted in the same or another chunk of a statement than the term that needs it, and be retracted and asserted again; what a rowid stands for depends on the whole history.", "anchors": ["db/src/db.rs: insert_fts_searches, insert_non_fts_searches, update_datoms, search, V1_STATEMENTS, from_sql_value_pair, update_metadata", "db/src/timelines.rs: reversed_terms_for", "tolstoy/src/tx_processor.rs: to_tx_part"]}
{"id": "C82", "title": "A fulltext search finds the datoms of the strings it finds", "statement": "(fulltext $ attribute search) [[?e ?text ?tx]] gives exactly the datoms of the attribute whose string the search finds, each once, with entity, string and transaction; none if the attribute is not a fulltext attribute. Alone it always succeeds. It combines with the other clauses as they do among themselves. After any history, searching the tables gives exactly the datoms that the transactions left whose string is found: not strings that remain in fulltext_values without a datom.", "quantifier": "every store, attribute, search text and meaning of MATCH; every history of transactions of values that read back; every combination with patterns, comparisons, disjunctions and negations", "why_tests_cant": "The join goes through rowids shared by many datoms; a text outlives its datoms and may belong to several attributes, so a missing condition shows only after certain histories.", "anchors": ["query-algebrizer/src/clauses/fulltext.rs: apply_fulltext", "query-algebrizer/src/clauses/mod.rs: bind_column_to_var", "query-sql/src/lib.rs: Constraint", "db/src/db.rs: fulltext_values"]}
{"id": "C83", "title": "Find specifications are views of the same rows", "statement": "A query that finds a collection `[?x ...]` gives the column of the same query finding rows; one that finds a tuple `[?x ?y]` gives the only row of the same query with a limit of one, or nothing; one that finds a scalar `?x .` gives the value of the tuple. So a collection is exactly the values of the answers, each once, and a tuple or scalar is an answer, the first in the order asked for, if there is an answer, and nothing only if there is none.", "quantifier": "all queries (whose limit is not an input variable), inputs, caches and stores for the equations; the queries of C45 for the answers", "why_tests_cant": "Each shape has its own projector; tests compare each with a literal, not with the others, and an empty result or one beyond the limit behaves differently in each.", "anchors": ["query-projector/src/projectors/simple.rs: ScalarProjector, TupleProjector, CollProjector, RelProjector", "query-projector/src/lib.rs: query_projection", "query-algebrizer/src/lib.rs: with_limit, is_unit_limited", "query-projector/src/lib.rs: QueryOutput"]}
{"id": "C84", "title": "Looking up a value gives the value held", "statement": "`lookup_values_for_attribute` gives exactly the values the entity holds for the attribute, each once, and `lookup_value_for_attribute` gives one of them, or nothing exactly if there is none; whether or not the attribute is cached, and for a name that is not known there is an error.", "quantifier": "all histories of transactions, all caches in step with them, all entities and attributes", "why_tests_cant": "The cached and the fetched path are different code, chosen by what happens to be cached; only a statement about both for every history says that caching changes nothing.", "anchors": ["transaction/src/query.rs: fetch_values, lookup_value, lookup_values, lookup_attribute", "src/conn.rs: lookup_value_for_attribute, lookup_values_for_attribute", "db/src/cache.rs: get_value_for_entid, get_values_for_entid"]}
{"id": "C85", "title": "Reading EDN does not depend on spacing, comments or the order of members", "statement": "A value is read the same however it is spaced: any run of spaces, commas, tabs, line ends and comments before, after and between the members of collections, the last comment possibly ending the text; the members of a set in any order and any number of times; the entries of a map in any order, the last one for each key counting. No text is a way of writing two values.", "quantifier": "all values that read back when printed (C07), nested to any depth, and all ways of writing them", "why_tests_cant": "Comments, commas and separators may appear at any place of any depth; tests read a few layouts.", "anchors": ["edn/src/lib.rs: value, list, vector, set, map, pair, whitespace, comment, __"]}
{"id": "C86", "title": "Pretty printing loses nothing", "statement": "A value pretty printed at any width is read back as this value, and a value that fits in the width is printed in one line, with one space between members; no line of the layout that has a space between members is wider than the width.", "quantifier": "all widths; all values that read back when printed (C07) for the first half, all values for the second", "why_tests_cant": "Where lines break depends on the width and on everything that follows; tests print a few values at a few widths.", "anchors": ["edn/src/pretty_print.rs: to_pretty, bracket, as_doc"]}
{"id": "C87", "title": "Matching a pattern means matching with one value for each placeholder", "statement": "A value matches a pattern exactly if there are values for the placeholders ?x with which it does: _ matches anything, ?x its value wherever it is, vectors and lists member by member, sets and maps if they have as many members and each has one that it matches in the other. In particular a value matches itself.", "quantifier": "all values and patterns, nested to any depth", "why_tests_cant": "The placeholders bound so far are shared by all attempts, also those that fail, so an answer depends on the order of members and on the names of placeholders.", "anchors": ["edn/src/matcher.rs: match_internal, matches, matches_any, matches_placeholder"]}
{"id": "C88", "title": "A transaction built from typed values does what its text does", "statement": "The terms a builder has are the assertions and retractions its calls stand for, in their order. If the values are of the types of their attributes, transacting them and transacting the text that writes them have the same outcome: the same store and report, or the same error, also inside a transaction in progress. Committing a builder transacts all its terms or leaves the connection as it was.", "quantifier": "all sequences of calls on the builders, all stores, all terms including lookup refs, vectors and maps nested to any depth, reversed attributes and tempids", "why_tests_cant": "Typed values and EDN values go through different conversions at every place of every notation; tests build a handful of terms.", "anchors": ["transaction/src/entity_builder.rs: TermBuilder, EntityBuilder, InProgressBuilder", "db/src/internal_types.rs: TransactableValue for TypedValue, TransactableValue for ValueAndSpan", "db/src/tx.rs: entities_into_terms_with_temp_ids_and_lookup_refs"]}
{"id": "C89", "title": "A query whose inputs are bound one at a time is the query with the last value bound to each variable", "statement": "The bindings succeed exactly if every name is a variable's and every keyword looked up is known. Executing then is running the query with, for every variable, the value and type last bound, whatever was bound before and in whatever order; it is refused if a type last given is not that of the value last given. For patterns with known attributes, after any history, the answers are the assignments that give the inputs these values and match datoms asserted and not retracted since. Results can be had as a scalar, collection, tuple or relation exactly if that is what the query finds.", "quantifier": "all sequences of bindings on a query builder, all query texts, all stores and histories", "why_tests_cant": "Bindings of several kinds overwrite one another in maps that executing empties; tests bind each variable once and execute once.", "anchors": ["src/query_builder.rs: QueryBuilder", "query-algebrizer/src/clauses/inputs.rs: QueryInputs::new, with_value_sequence"]}
{"id": "C90", "title": "Lines of the command line mean what the grammar says", "statement": "A text given to the command line is a command exactly if it is whitespace, a dot and the long or short name of a command with arguments of the right kind and number; what is printed for a command reads as that command; the options of the program give their commands in order; an attribute to cache is read as the keyword it is.", "quantifier": "all texts, all commands, all lists of program arguments", "why_tests_cant": "The parsers are combinators in which one alternative that takes a character hides the next, and short names are prefixes of long ones; tests try a few texts per command and none for turning the timer off.", "anchors": ["tools/cli/src/mentat_cli/command_parser.rs: command, Command::output, Command::is_complete", "tools/cli/src/mentat_cli/lib.rs: run", "tools/cli/src/mentat_cli/repl.rs: parse_namespaced_keyword, handle_command"]}
{"id": "C91", "title": "A command entered over several lines is the command that the lines are together", "statement": "What the command line handles is determined by the lines alone: the lines since the last command that was complete or refused, joined, are read as one text; a query or transaction is handled once its EDN is complete; an interrupt forgets the lines of an incomplete command and otherwise ends the session.", "quantifier": "all sequences of lines, interrupts and ends of input", "why_tests_cant": "The reader does not read the command again but adds lines to the arguments it remembers, so agreement with the joined text is an invariant over all ways of breaking a text into lines; no test drives the reader.", "anchors": ["tools/cli/src/mentat_cli/input.rs: InputReader::read_input", "tools/cli/src/mentat_cli/repl.rs: run", "tools/cli/src/mentat_cli/command_parser.rs: command"]}
{"id": "C92", "title": "Caching an attribute does not change the answers of a query", "statement": "If what the attribute caches hold is what the store holds, a query whose patterns are answered with the help of the caches (an entity looked up by a value, a value by an entity, with the values found used in later patterns) gives exactly the answers the store has, each once: the rows a query gives with the caches are, but for their order, those it gives without. The result that is computed without reading the store, when everything found has a value, is the one answer there is.", "quantifier": "all queries made of patterns with a given attribute, comparisons, type annotations and negations of these, all inputs, all stores, all caches faithful to the store (and all connections whose cached attributes were transacted in ways the caches follow)", "why_tests_cant": "Tests compare a handful of cached lookups with fixed answers; whether values bound by a lookup, the re-evolution of the patterns after them, the dropped joins and the constant results agree with the uncached query depends on the interplay of all clauses and on the whole history of the cache.", "anchors": ["query-algebrizer/src/clauses/pattern.rs: attempt_cache_lookup", "query-algebrizer/src/clauses/pattern.rs: reverse_lookup", "query-algebrizer/src/clauses/pattern.rs: evolve_pattern", "query-algebrizer/src/clauses/mod.rs: bind_value", "query-algebrizer/src/clauses/mod.rs: apply_evolved_patterns", "query-projector/src/lib.rs: query_projection"]}
{"id": "C93", "title": "A prepared query gives what the query run once gives", "statement": "Preparing a query and running what was prepared gives what running the query once gives, whatever the outcome: the same rows, the same error, the same constant or empty result. What was prepared can be run later: if the schema is the same and what the caches said then is what the store holds now, it gives exactly the answers the store has now. Inside a transaction queries see what the transaction did.", "quantifier": "all queries, inputs, schemas, caches and stores; all later stores reached by transactions of data; all transactions in progress", "why_tests_cant": "Tests prepare one query and compare one result; that the order in which errors are found, the constant and empty results and the bound statements all agree with the direct path, and that nothing prepared depends on the data, is a statement about all queries and all later stores.", "anchors": ["transaction/src/query.rs: PreparedQuery::run", "transaction/src/query.rs: q_prepare", "transaction/src/query.rs: run_algebrized_query", "transaction/src/lib.rs: InProgress::q_once", "transaction/src/lib.rs: InProgress::q_prepare", "src/conn.rs: Conn::q_prepare"]}
{"id": "C94", "title": "Uploaded chunks are read back as they were written", "statement": "What a client reads of an uploaded chunk of a transaction is the chunk that was uploaded: the JSON that serde writes of a TxPart, with its values of all types and the partitions of the transaction, is read back to the same TxPart, so that a client that fast-forwards by way of the remote server ends with the facts, history and schema of the client that uploaded.", "quantifier": "all chunks (entities, attributes, transactions, flags and partition maps), all values of all types, all strings and keywords, all stores and all transactions of an upload", "why_tests_cant": "there are no tests of the remote client with a server and none that write and read a TxPart; the values that do not survive (some doubles, doubles that are not finite, keywords with escaped characters) are found only by considering all values", "anchors": ["tolstoy/src/types.rs TxPart", "tolstoy/src/remote_client.rs SerializedTransaction, put_chunk, get_chunk, transactions_after", "core-traits/lib.rs TypedValue (Serialize, Deserialize)", "edn/src/namespaceable_name.rs SerializedNamespaceableName", "db/src/types.rs Partition"]}
{"id": "C95", "title": "Syncing a store ends after at most two rounds", "statement": "Store::sync repeats a sync as long as it is told that a merge needs a follow-up. If nobody else writes to the server meanwhile, the loop ends after at most two rounds, and if there were two, the first merged, the second uploaded or had nothing to do, and the client then knows the server's head. Whatever others do, all rounds of a sync that ended were merges except the last, the result is Atomic exactly if there was one round, and an error in a later round leaves what the earlier rounds committed.", "quantifier": "all stores, transaction maps and known heads, all servers (whose head is their last transaction, for the bound), everything other clients do between rounds, any number of rounds", "why_tests_cant": "whether a loop ends for all stores and servers cannot be found by running it; the tests of syncing never use a server", "anchors": ["src/store.rs Store::sync", "tolstoy/src/syncer.rs Syncer::sync, Syncer::merge, SyncResult", "src/sync.rs"]}
{"id": "C96", "title": "An upload is taken as done only if the server has it", "statement": "After a sync that reports that the remote was fast-forwarded, the server has the transactions and the head that the client has recorded as uploaded.", "quantifier": "all stores, servers, and all ways in which a server answers each request of an upload", "why_tests_cant": "needs a server that refuses some requests; what the client does must not depend on the answer, for all answers", "anchors": ["tolstoy/src/remote_client.rs RemoteClient::put, put_chunk, put_transaction, set_head", "tolstoy/src/tx_uploader.rs TxUploader::tx", "tolstoy/src/syncer.rs Syncer::fast_forward_remote"]}
{"id": "C97", "title": "The server's log is one chain", "statement": "The transactions on the server are one chain, each with the one before it as its parent, ending with the head, however many clients sync with it, so that no client can miss what another uploaded.", "quantifier": "all sequences of syncs of any number of clients with any stores, one after the other or overlapping", "why_tests_cant": "overlapping syncs of several clients are a matter of timing; there are no tests with a server", "anchors": ["tolstoy/src/syncer.rs Syncer::sync, Syncer::fast_forward_remote", "tolstoy/src/tx_uploader.rs TxUploader::tx", "tolstoy/src/remote_client.rs set_head"]}
{"id": "C98", "title": "A source of vocabularies acts before and after the work, and only if there is some", "statement": "ensure_vocabularies calls the pre function of its source exactly when some definition is not present, before anything is changed and told which definitions need work and why, and the post function after the work; an error of either fails the whole. The functions of a definition are called for an upgrade of it and otherwise not. When it succeeds, every definition of the source is present, and calling it again does nothing.", "quantifier": "all stores, all sources: any lists of definitions, any functions before and after", "why_tests_cant": "the functions are arbitrary programs acting on the store between a check and the work based on it", "anchors": ["src/vocabulary.rs InProgress::ensure_vocabularies, VocabularySource, SimpleVocabularySource, CheckedVocabularies"]}
{"id": "C99", "title": "Values pass through the foreign interface unchanged", "statement": "A value that a foreign program gives to the store through one of the typed functions of the C interface (in_progress_builder_add_*, query_builder_bind_*) becomes the value of that type, and taken back through the function for its type it is what was given; added under an attribute of cardinality one and looked up afterwards it is found so. A value of another type than the attribute's is refused.", "quantifier": "all C values: strings, longs, references, keywords, booleans, doubles, timestamps, UUIDs; all stores reached by histories of transactions, all entities and attributes", "why_tests_cant": "each direction is converted by its own code in its own units, over unbounded strings and numbers", "anchors": ["ffi/src/lib.rs in_progress_builder_add_*, query_builder_bind_*, typed_value_into_*, store_value_for_attribute, kw_from_string", "ffi/src/utils.rs strings::c_char_to_string, string_to_c_char, kw_from_string, error::translate_opt_result", "core-traits/lib.rs Binding::into_*, TypedValue::into_*"]}
{"id": "C100", "title": "The parts of results are reached through the foreign interface, and beyond them there is nothing", "statement": "row_at_index gives the row at an index and value_at_index the value at an index, and a null pointer if there is none; the iterator over a result gives its rows in order, each once, then null; value_at_index_into_* give the value at an index converted as typed_value_into_* convert it.", "quantifier": "all results, all indexes a C int can hold, all numbers of calls", "why_tests_cant": "signed indexes are cast to unsigned ones and multiplied by the width with wrapping; boundaries are where this goes wrong", "anchors": ["ffi/src/lib.rs row_at_index, value_at_index, value_at_index_into_*, typed_value_result_set_into_iter, typed_value_result_set_iter_next", "query-projector/src/relresult.rs RelResult::row"]}
{"id": "C101", "title": "What a query answers does not depend on the order or repetition of its clauses, nor on the names of its variables", "statement": "Two queries that differ only in the order of their clauses, in how often a clause is written, or in the names of their variables answer with the same rows, in whatever order.", "quantifier": "all queries, all orders and repetitions of their clauses, all injective renamings of variables, all stores", "why_tests_cant": "clauses are applied one after another to a growing state of columns, types and aliases, so each of the orders is another execution", "anchors": ["query-algebrizer/src/clauses/mod.rs ConjoiningClauses::apply_clauses, apply_clause", "query-algebrizer/src/clauses/not.rs apply_not_join", "query-algebrizer/src/clauses/resolve.rs resolve_numeric_argument", "query-algebrizer/src/lib.rs algebrize_with_inputs"]}
{"id": "C102", "title": "Queries in which nothing is negated are monotone", "statement": "What a query answers it also answers where more is asserted, when nothing in it is negated; and a query with fewer clauses that finds the same variables answers at least as much.", "quantifier": "all queries, all subsets of their clauses, all pairs of stores of which one holds the facts of the other", "why_tests_cant": "ranges over pairs of stores and of queries; a wrong join, a wrong DISTINCT or a pattern wrongly known to be empty loses rows only for some", "anchors": ["query-algebrizer/src/clauses/mod.rs ConjoiningClauses::apply_clauses, mark_known_empty", "query-sql/src/lib.rs, query-projector/src/translate.rs", "transaction/src/query.rs q_once"]}
{"id": "C103", "title": "Giving a variable a value selects the rows with that value", "statement": "A query with some of the variables it finds given as inputs answers with exactly the rows of the query without the inputs in which these variables have the values given.", "quantifier": "all queries, all subsets of the variables found, all values of any type, all stores", "why_tests_cant": "inputs take another way through the algebrizer (values in place of columns, types known in advance, places of patterns filled in), for every subset and value", "anchors": ["query-algebrizer/src/lib.rs algebrize_with_inputs", "query-algebrizer/src/clauses/mod.rs ConjoiningClauses::with_inputs", "query-algebrizer/src/clauses/pattern.rs make_evolved_pattern", "query-algebrizer/src/clauses/pattern.rs apply_pattern_clause_for_alias", "query-algebrizer/src/clauses/inputs.rs QueryInputs"]}
{"id": "C104", "title": "Finding fewer variables gives the same rows without the other columns", "statement": "A query that finds some of the variables another query with the same clauses and inputs finds, in any order, answers with the rows of the other with those columns only, each once.", "quantifier": "all queries, all subsets and orders of the variables found, all stores", "why_tests_cant": "which variables are found decides the columns selected, the tags read beside them and what DISTINCT compares", "anchors": ["query-projector/src/project.rs project_elements", "query-projector/src/lib.rs query_projection", "query-projector/src/translate.rs query_to_select", "query-sql/src/lib.rs SelectQuery"]}
{"id": "C105", "title": "A transaction is undone by transacting what it changed the other way round", "statement": "Let a transaction be accepted, and let its rows of the log be transacted the other way round: what it added retracted, what it retracted added (but for its own :db/txInstant). Then the store holds exactly the datoms it held before, besides the times of the two transactions. In particular a replaced value of a cardinality-one attribute comes back.", "quantifier": "all stores reached by transactions, all accepted transactions with tempids, upserts, replacements and retractions, all entities, attributes and values", "why_tests_cant": "The rows come from three SQL searches whose joins differ with cardinality; whether retracting the new value and adding the old one in one transaction collide depends on all rows of the entity.", "anchors": ["db/src/db.rs insert_transaction", "db/src/db.rs update_datoms", "db/src/tx.rs transact_simple_terms", "db/src/timelines.rs reversed_terms_for"]}
{"id": "C106", "title": "Transactions about different things can be made in either order, or at once", "statement": "Take two lists of assertions and retractions such that none of one is about the same entity and attribute as one of the other. Transacting the first and then the second, the second and then the first, or both in one transaction leaves the same datoms, besides the times of the transactions.", "quantifier": "all stores, all lists of terms without tempids about data, all entities, attributes and values", "why_tests_cant": "Interference would show only for particular combinations of rows, cardinalities and terms in the shared temporary search tables; a test covers a few of them.", "anchors": ["db/src/db.rs search", "db/src/db.rs insert_transaction", "db/src/db.rs update_datoms", "db/src/tx.rs transact_simple_terms"]}
