# Formal model of qpdb/mentat in Lean 4

## Scope and method

`/repo` (Rust) is read as text; nothing of it is run.  Each Lean definition under
`lean/Verif/` carries a comment naming the file and lines it models and any simplification.
The model is a set of total, computable functions over lists, integers, options and plain
structures.  `Result::Err` is an explicit error value; a Rust panic (`assert!`, `unreachable!`,
index out of bounds, integer underflow) is an explicit `panic` value, never totalised away.

Layout: `Verif/Model/*.lean` model; `Verif/Proofs/*.lean` helper lemmas;
`Verif/Props/*.lean` the property theorems, each with a small independent spec and a
concrete case meeting the hypotheses.

Where the code violates the property, the negation is proved on a concrete witness
(theorem `..._fails`) and the strongest true part is kept as `..._partial`.

## Trusted base

* Lean 4.33.0's kernel and elaborator; axioms `propext`, `Classical.choice`, `Quot.sound` only.
* The reading of the Rust sources into the definitions (cited line by line).
* SQLite is modelled as list comprehensions over rows with the declared unique indices
  (LEFT JOIN, UNION ALL, DELETE, INSERT, partial unique index); its SQL comparison rules for
  integer/real/text/blob are modelled in `Model/SqlValue.lean`.  Not modelled: query planner,
  fulltext tokenizer, file locking, disk.
* 64-bit integers are unbounded `Int` unless the property is about overflow.  Floats are finite
  doubles represented exactly as integer multiples of 2^-1074; NaN, infinities and -0.0 are out
  (EDN values have the first two).  Rust's `{}` and `parse` of doubles are in `Model/FloatText` as its documentation
  describes them: nearest, ties to even; shortest digits that read back.
* BTreeMap/HashMap are association lists with the map laws proved; iteration order only matters
  where cited.

## What is modelled

| module (`lean/Verif/Model`) | code |
|---|---|
| `Base`, `Names`, `SqlValue`, `Intern` | typed values, attributes, schema maps; keywords; SQL encoding of values; `InternSet` |
| `Edn`, `EdnParse` | EDN values, their order and printer; the PEG grammar of `edn/src/lib.rs` |
| `Partition`, `AddRetractAlter`, `Trie`, `Upsert` | entid partitions; `AddRetractAlterSet`; `AEVTrie` and its checks; tempid resolution |
| `Store`, `Transact`, `Metadata`, `Bootstrap`, `Reopen` | datoms and log tables, `search`/`update_datoms`/`insert_transaction`; `transact_simple_terms_with_action`; `update_metadata` and `metadata.rs`; bootstrap; reopening a store |
| `Entities` | stages 1 and 2 of `tx.rs`: map/vector/reversed notation, lookup refs, tempids, transaction functions |
| `Sync` | `tolstoy`: choosing the action, `Processor`, `TxUploader`, `TxMapper`, fast-forwarding either side; the server is an append-only list |
| `Timelines` | `timelines.rs`: rewinding the newest transactions and moving their log rows to another timeline |
| `Merge` | `syncer.rs` `merge`: rewind, apply incoming, rebase each local transaction |
| `Chunks` | splitting rows over statements: `resolve_avs`, `insert_non_fts_searches`, `insert_fts_searches`, `repeat_values`; the transactor model otherwise assumes that no assertion of these fails |
| `Cache`, `Session` | db/src/cache.rs (single, multi, unique, non-unique value caches; `AttributeCaches`, `InProgressSQLiteAttributeCache`, `SQLiteAttributeCache`, transact watcher), transaction/src/lib.rs `InProgress` (transact, savepoint, rollback_savepoint, release, commit), transaction/src/metadata.rs, src/conn.rs (connect, begin, transact, register, unregister). An `Arc` shared with a reader is one flag (`shared`): `Arc::get_mut(..).unwrap()` in commit panics when it is set. Savepoint names are compared exactly. |
| `Observer` | db/src/tx_observer.rs: observers, `TxCommand` with its weak reference, the delivery thread. The allocation of the observer map is a number; a schedule is a list of events. |
| `Model/Sql` | the SQL syntax tree of `query-sql`, the tables and views of `db.rs:169-240`, and SQLite's evaluation of a `SELECT` (joins, nested subqueries, affinity of comparisons, DISTINCT, ORDER BY, LIMIT, scoping of columns). Trusted: that SQLite evaluates the printed text this way. The FTS table is modelled with `MATCH` as a parameter (`Tables.«matches»`). Not modelled: printing and parsing of the text, non-integer numeric strings under affinity |
| `Model/QueryAst`, `Model/CC`, `Model/Algebrize` | parsed queries and the whole algebrizer: patterns, evolution, cache lookups, type sets, predicates, type annotations, `ground`, `tx-ids`, `tx-data`, `fulltext` (clauses/fulltext.rs), `or`/`or-join`, `not`/`not-join`, inputs, order and limit. Not modelled: rules, named sources (an error in the code too) |
| `Model/Project` | projection, type tags, constant projection, aggregates with grouping, the run of a query end to end. SQLite's floating-point `sum` and `avg` are parameters |
| `Spec/Query`, `Proofs/Query*`, `Props/Query*` | what a query means (assignments of typed values satisfying its clauses) and that the rows read are its answers, for patterns, comparisons, annotations and negations |
| `Model/QueryResult.lean` | query-projector/src/relresult.rs, binding_tuple.rs, lib.rs `into_*`, `len`: the ways to read a result |
| `Model/SqlText`, `Spec/SqlText` | `SQLiteQueryBuilder` (sql/src/lib.rs) and the printing of `SelectQuery` (query-sql/src/lib.rs), character by character; the spec is a model of SQLite's tokenizer for the characters that occur. Rust's `{:e}` of doubles and `char::is_alphanumeric` beyond ASCII are parameters; the tree printed is that of query-sql, its translation from the evaluation model's tree is not stated. SQLite's limits (number of tables, variables, depth) are not modelled |
| `Model/Pull`, `Spec/Pull` | Pull: `Puller::prepare`, `Puller::pull`, the cache filled for it, `pull_attributes_for_entity/entities`, and the four projectors with pulls (query-pull/src/lib.rs, query-projector/src/pull.rs, projectors/pull_two_stage.rs, db/src/cache.rs 1086-1290). Left out: the SQL text, the decoding of values, fulltext storage. |
| `src/vocabulary.rs` | `Model/Vocabulary.lean`: reading, checking, describing, installing, upgrading vocabularies, `verify_core_schema`. Values are looked up in the datoms rather than by queries or in the attribute cache; the terms of a `TermBuilder` go straight to the transactor after the type check of their values; all errors of the module are one. Sources with functions of their own: `Model/VocabularySource`. Not modelled: the `HasSchema` helpers of `Definition` builders. |
| materialized metadata: `metadataAssertions` sorts the assertions as the SQL's `ORDER BY e, a, v, value_type_tag, added` (db/src/db.rs, `committed_metadata_assertions`) | ties (values SQLite cannot separate) keep the order of the log; C65 shows the order of the terms does not show through |
| `tolstoy/src/syncer.rs` `sync`, `first_sync_against_non_empty`, `bootstrap.rs`, `datoms.rs` | `Model/SyncFlow.lean`: a whole sync, given the current time and a source of UUIDs; the merge is Model/Merge's |
| `Model/QueryParse`, `Spec/QueryForms` | the query rules of the PEG grammar (`edn/src/lib.rs:321-523`), the conversions of EDN values and `ParsedQuery::from_parts` (`edn/src/query.rs`), `FindQuery::from_parsed_query`; the spec says which EDN forms denote which queries, and `Spec/QueryText` how to write each query the algebrizer may get. Spans are not modelled |
| `Model/EntityParse`, `Spec/EntityForms` | the transaction rules of the PEG grammar (`edn/src/lib.rs:240-320`), `BTreeMap` order of map notation, `InProgress::transact` of a text; the spec says which EDN forms denote which entities and what accepted entities have. Spans are not modelled |
| `Model/Calendar`, `Spec/Calendar`, `Spec/InstText` | days of the Gregorian calendar and the texts of instants and UUIDs as the chrono and uuid crates read and write them (`edn/src/lib.rs:134-174`, `edn/src/types.rs:536-590`); the crates are not in the repository: their documented behaviour is modelled, with chrono 0.4 for the last year and for leap seconds |
| `Model/Fulltext` | the physical tables: rowids of `fulltext_values` in `datoms` and in the log, the two search tables filled chunk by chunk (`db/src/db.rs:645-820`, `893-1080`), the views `fulltext_datoms` and `all_datoms` (`db/src/db.rs:169-280`), the bootstrap on them, and the readers of the log in `timelines.rs` and `tx_processor.rs`. `update_metadata` reads its values with their strings (none of the attributes it reads is fulltext). The other models have the strings in place: C81 proves that this is what the views show. The tokenizer and `MATCH` are not modelled |
| `Model/Lookup` | `transaction/src/query.rs` `fetch_values`, `lookup_value(s)`, `lookup_attribute`, the lookups by name; `src/conn.rs` lookups; values stand for scalar bindings |
| `Model/FloatText` | the text of doubles: reading to the nearest, printing the shortest digits, positional |
| `edn/src/pretty_print.rs` 20-107 | `Model/PrettyPrint`; documents and their layout as the `pretty` crate documents them: a group is in one line if it fits with what follows up to the next line end |
| `edn/src/matcher.rs` | `Model/Matcher`; the map of placeholders is threaded, so what a failed attempt bound stays |
| transaction/src/entity_builder.rs `TermBuilder`, `EntityBuilder`, `InProgressBuilder`; transaction/src/lib.rs `transact_entities`, `transact_builder` | `Model/Builder` (a use of the builders is a list of calls; errors of the builder do not exist) |
| `src/query_builder.rs`; `inputs.rs` `QueryInputs::new` | `Model/QueryBuilder` |
| `tools/cli/src/mentat_cli/command_parser.rs`, `input.rs`, the arguments in `lib.rs`, `parse_namespaced_keyword` in `repl.rs` | `Model/Cli`; the combinators as the `combine` crate documents them (a failure after taking a character is not followed by an alternative, except under `attempt`). Handling a command is not modelled here: queries and transactions are those of the other models |
| Queries with caches | `CC.cacheLookup`, `reverseLookup`, `bindValue`, `reEvolve`, `applyEvolved` (Model/CC.lean) now have their own theorems (Proofs/QueryCached.lean, Props/QueryCached.lean); the caches are those of a connection, not the overlay of a transaction in progress |
| `Model/CC.AttrCache`, `Model/Lookup.InProgress.known`: queries of a transaction in progress, with its copy-on-write caches | transaction/src/lib.rs 395-440, db/src/cache.rs `InProgressSQLiteAttributeCache` |
| `Model/Prepared`: prepared queries (statement, constant, empty), running them | transaction/src/query.rs 51-90, 399-442; transaction/src/lib.rs 420-427; SQLite statements are their `Select`; the bound schema serves pull only and is not used |
| Verif/Model/Wire.lean | tolstoy/src/types.rs TxPart, remote_client.rs put_chunk / get_chunk / transactions_after by way of the JSON; the derived Serialize / Deserialize of TypedValue (core-traits/lib.rs), Partition and PartitionMap, the hand-written one of NamespaceableName (edn/src/namespaceable_name.rs). JSON is a tree whose strings keep their escaped text; the punctuation between is not modelled. serde, serde_json (escaping, unescaping, reading a float from its digits by f64_from_parts, without float_roundtrip), ryu (shortest digits, as in FloatText), chrono and uuid are modelled by their documented behaviour; allow_excision is a constant of each partition |
| Verif/Model/StoreSync.lean | src/store.rs `Store::sync` (the loop, with fuel; `none` if it is not over), the single requests of an upload (remote_client.rs `put`, which ignores the status; tx_uploader.rs; `fast_forward_remote`) against a server that may do anything with each, and `sync` split between reading the head and the rest. A failed round is taken to have sent nothing; network errors (`unwrap`) are not modelled |
| `Model/VocabularySource` | src/vocabulary.rs: `ensure_vocabularies` for any source, `SimpleVocabularySource`, `VocabularyStatus`. The functions of a source are any functions of the store; one that commits is excluded, as the documentation says |
| `Model/Ffi` | ffi/src/lib.rs and utils.rs: conversions of strings, keywords and values in both directions, `in_progress_builder_add_*` and `_retract_*`, `query_builder_bind_*`, `typed_value_into_*`, `store_value_for_attribute`, access to rows and values by index and iterator. A `char *` is null, not UTF-8 or a text; pointers, their lifetimes and destructors are not modelled; a panic is a panic, whatever unwinding through C does |

Not modelled: which strings a fulltext search finds (a parameter), `excise`, the memory of the FFI
(pointers, ownership, destructors), the SDKs, what the command line prints, SQLite's durability and locking.

## Disagreements between code and properties

Each is a theorem about the model with a concrete witness.

| theorem | what happens |
|---|---|
| `C01_fails` | the nil UUID and pre-1970 instants with fractions do not read back |
| `C02_fails` | keywords whose parts contain separators are stored alike |
| `C03_fails` | `from_micros` and `from_millis` are wrong off whole seconds before 1970 / for millis |
| `C04_fails` | reversing a name with leading underscores is not an involution |
| `C05_fails` | constructors accept components with separators |
| `C07_fails`, `C07_float_fails`, `C07_panics` | text is printed unescaped, every float without a fraction is printed without a point and so is read as an integer or panics, some inputs panic the reader |
| `C09_fails` | an entid only used as a reference value is handed out again after reopening |
| `C10_fails` | a key witnessed several times can be both asserted and altered |
| `C11_fails` | an ill-typed assertion merged away by an upsert is accepted |
| `C13_fails`, `C14_fails`, `C15_fails` | an attribute with datoms can be undefined and redefined with another type, cardinality or uniqueness |
| `C20_fails`, `C20_fails_upsert`, `C20_retract_other_fails` | retracting one value and asserting another of a cardinality-one attribute; a term lost in an upsert |
| `C24_C25_fails`, `C25_fails_chain` | rows of an attribute altered to unique are not indexed, so upserts miss them; chained conflicts are not seen |
| `C28_fails`, `C28_fails_txInstant`, `C28_fails_bare` | panics of the transactor on accepted input |
| `C29_fails` | lookup ref on an attribute altered to unique misses existing rows |
| `C31_fails` | `:db/retract` with a reversed attribute adds |
| `C67_fails` | a reversed attribute accepts a raw unallocated entid |
| `C60_fails` | the partition map sent with a transaction forgets earlier entids, so a fast-forwarded store reuses one |
| `C36_fails` | a datom restored by a move carries the id of a transaction that is in no log |
| `C36_fails_schema` | after a move the schema still has attributes whose installation was moved away |
| `C61_fails_split`, `C61_fails_ref`, `C61_fails_replace` | merging moves assertions about shared entities to new ones, leaves references with their old numbers, and loses retractions |
| `C63_fails` | with SQLite's default limit of 32766 variables a transaction of 5461 rows panics |
| `C63_fails_fts` | a statement whose full-text values were all seen in earlier statements panics |
| `C34_fails`, `C32_fails` | Altering any property of a unique attribute without restating `:db/unique` resets its uniqueness in memory (`AttributeBuilder::mutate` compares with a default of none); the datom and a reopened store still say unique. |
| `C33_fails` | Alterations are not validated: a string attribute can be made a component, after which the store cannot be opened. |
| `C32_fails_leftover` | Schema datoms left behind by removing an attribute count again, for a reopened store only, once the attribute is reinstalled. |
| `C35_fails` | Exchanging the idents of two entities in one transaction loses one of them from the ident map. |
| `C37_fails`, `C37_fails_alter`, `C37_fails_duplicate`, `C37_inProgress_fails` | Asserting the value a cached cardinality-one attribute has, while retracting another, leaves the cache without it; altering a cached attribute to cardinality many loses its values from the cache; re-asserting a value of a cardinality-many attribute duplicates it; inside a transaction a retracted value falls through to the committed cache. |
| `C38_fails`, `C38_fails_nonUnique`, `C38_fails_retract` | Replacing a value leaves the old one in the reverse cache (unique or not); retracting a unique value from an entity that does not hold it removes the entry of the one that does. |
| `C39_fails`, `C39_fails_reregister`, `C39_fails_shared` | A value visible in the session can vanish on commit; unregistering and registering again publishes the stale cache; committing while a clone of the cache is alive panics. |
| `C21_fails`, `C21_fails_metadata` | after an error inside an `InProgress` the tables are not restored: deleted values stay deleted, or datoms and log of the failed transaction stay and its id is reused |
| `C40_fails`, `C40_fails_drop`, `C40_fails_leak`, `C40_fails_noop` | changing the observers, or closing, loses waiting batches; attributes of a failed attempt are reported with the next transaction; re-assertions are reported |
| `C41_fails`, `C42_savepoint_leak` | rolling back to a savepoint undoes the tables only: schema, caches and reports keep the undone work |
| `C44_fails` | a query with fewer inputs than `:in` variables panics in `keep_intersected_keys`; an `:in` variable bound by `ground` need not be given |
| `C45_fails_distinct`, `C46_fails` | SQL compares without the type tag: `SELECT DISTINCT` merges the long 1 with the double 1.0, and a variable of known type joins values of other types in a pattern without an attribute |
| `C45_fails_given`, `C45_fails_order`, `C45_fails_fulltext` | a query that finds only given variables does not look at the store; ordering by a variable that is not found repeats answers; an integer matches the row number of a fulltext value |
| `C50_fails` | a negation whose patterns give no condition is ignored |
| C62 | `(tx-data $ t)` shows, for a fulltext attribute, the number of a row of the fulltext table with the tag of a string, so reading it fails with `BadSQLValuePair` (`C62_fails_fulltext`); when the type of its value variable is known no condition on the tag is added, so values of other types with the same SQL value join (`C62_fails_type`). |
| `C52_fails_unit`, `C52_fails_number` | a query for a scalar or tuple accepts any limit, even a negative one or a string; ordering by a variable that may be a long or a double makes a statement SQLite rejects |
| `C45_fails_compare` | a comparison of a variable of unknown type narrows its recorded types to numbers but does not constrain the rows: references, instants and booleans are returned as longs |
| `C51_fails_no_rows` | a `RelResult` made from no rows has width 0; reading its rows panics |
| `C53_fails_declared`, `C53_fails_compare` | C53 The declared type of an aggregate is not that of its result: the min of numbers that may be longs or doubles is declared a double; avg of a given long is a long |
| `C68_fails_none` | C68 sum of nothing is NULL, which is not filtered (`is_nullable` is false for sum), so the result cannot be read; count of nothing gives 0 or no row depending on whether emptiness is known |
| `C68_fails_given` | C68 max, min and avg of a given variable are projected as the value itself, so there is a row per answer |
| `C55_fails_generated_parameter`, `C55_fails_never_refused` | C55 `push_bind_param` compares the name, without its `$`, with the prefix `$v`: `BindParamCouldBeGenerated` is never raised, and `v0` is the parameter of the first text |
| `C55_fails_same_parameter`, `C55_fails_nul`, `C55_fails_keywords` | C55 `?a-b` and `?a_b` have one parameter; a NUL in a name ends the statement; equal keywords are not shared |
| C54 | When two pulled attributes have the same alias, one of them is lost; an attribute pulled under two names appears under the last only; specs after `*` are ignored and aliases before it lost; `[:find [(pull ?e ..) ...]]` leaves out entities with nothing to show (`C54_fails_*`). |
| C43 | Versions 0 and 4294967295 can be installed but not read back (`C43_fails_version`); `:db/noHistory` is described but never read, so such a definition contradicts itself once installed (`C43_fails_no_history`); an upgrade that alters a unique attribute and leaves it unique makes the schema in memory forget the uniqueness (`C43_fails_upgrade_unique`); adopting a unique attribute made outside any vocabulary by a definition without uniqueness leaves it unique (`C43_fails_adopted`). `:db.schema/attribute` is unique, so a definition with an attribute of another vocabulary can never be ensured; the error is one of SQLite's (`C43_shared_refused`, `C43_shared_example`). |
| `C69_fails` | rolling back to a savepoint restores the datoms, but `InProgress` keeps the schema, partition map and cache it had: `rollback` of a savepoint is plain SQL, and only the in-memory copy made at `begin` is discarded when the whole transaction ends |
| `QueryEx.C46_fails_instant` | an integer constant without an attribute also matches a `:db.type/instant` of that many microseconds and an entity of that id, because the constraint written compares numbers and excludes booleans only |
| C70: downloading reproduces the uploaded history | a downloaded `:db/txInstant` datom is always put on the new transaction (`remote_parts_to_builder`), so a transaction that corrects the instant of an earlier one conflicts with itself and can never be downloaded (`C70_fails_instant`) |
| C71: the reader gets what the writer had | `sync` drops the report of `fast_forward_local`: with a remote transaction that lacks its partition map nothing is applied and LocalFastForward is reported (`C71_fails_report`); a new store that syncs first uploads its bootstrap transaction, after which a store with more than the bootstrap cannot sync (`C71_fails_first`); the remote's bootstrap transaction is mapped to the local one without its contents, so stores made at different times keep different instants (`C71_fails_boot`) |
| C72: merging does not alter installed attributes | only entities with a tempid of their own are examined: a local attribute with a new ident that upserts through another identity attribute alters the attribute found, and its ident is dropped (`C72_fails_identity`); the local removal of an attribute is rebased as the retraction of its ident alone, which leaves a nameless attribute (`C72_fails_removed`) |
| `C49_fails_panic`, `C49_fails_local`, `C49_fails_local_unbound`, `C49_fails_types`, `C49_fails_column` | an `or` of patterns of one shape none of which can match panics (or.rs: "we just checked that"); the types of variables local to an `or-join` are recorded for a variable of the same name outside, which loses answers or fails; a variable with different types in the arms of an `or` is `UnboundVariable` when found; arms copy `extracted_types` of the clauses outside and their SQL refers to a column out of scope |
| `C74_fails_panic` | a big integer in a pattern, and a pattern of a named source, are panics |
| `C74_fails_twice`, `C74_fails_order`, `C74_fails_read` | finding a variable twice is an error; ordering a query known to have no answers by a variable it no longer binds is an error instead of no rows; a double joined with an instant cannot be read |
| `C75_fails_keyword`, `C75_fails_keyword_rows` | `[?e :f/kind :baz]`: a keyword without namespace in the value place is read as the transaction of a pattern without value, so the entity is not found |
| `C75_fails_word`, `C75_fails_pull`, `C75_fails_places` | `[(type? :f/t)]` is the type annotation of a variable `?`; `(pull ?e [:f/_knows])` is an aggregate named `pull`; `[__ ?x]` binds three places |
| `C77_fails_panic`, `C77_fails_attribute` | `[?e :f/_ ?x]` and `:limit 9223372036854775808` panic in the parser; `[?e :f/__a ?x]` leaves the backward attribute `:f/_a` in the pattern |
| C78, C79 | `edn/src/lib.rs:242-320` | `{:db/id e :x/many 1 :x/many 2}` silently asserts only the last value; `:db/add1` is read as `:db/add` of entity 1 and `(lookup-ref5 a)` as a lookup ref; `:x/__r` is reversed to the still reversed `:x/_r`; an attribute `:x/_` and an entid beyond 64 bits make the parser panic. `C78_fails_*`, `C79_fails_panic` |
| `C07_instant_fails` | an instant of the year 10000 or later is printed with a signed year, which the reader does not accept |
| `C07_panics_instant` | `#instmillis` and `#instmicros` unwrap: a count beyond 64 bits, or beyond the last year of chrono, panics |
| `C81_fails_move`, `C81_fails_sync`, `C81_fails_example` | the log has rowids with the tag of a string, which `from_sql_value_pair` refuses: a transaction that wrote or retracted a fulltext value cannot be moved off the main timeline, and a log with one cannot be read to be uploaded or merged. So C36, C57 to C61 and C70 to C72, whose models have the strings in the log, say nothing of logs with fulltext values |
| `C82_fails_panic`, `C82_fails_order` | a `fulltext` clause whose text variable has a value (given, or known from `ground`) panics: `bind_column_to_var` is called without the check that the other places have (clauses/fulltext.rs:267-281, clauses/mod.rs:434-439); a search for a variable that a later clause binds is refused, though the clauses of a query have no order otherwise |
| `C84_fails_one`, `C84_fails_many`, `C84_values_cached_one`, `C84_value_cached_many` | once an attribute is cached, `lookup_values` of an attribute of cardinality one gives nothing, because only the table of several values is consulted, and `lookup_value` of one of cardinality many likewise (transaction/src/query.rs:195-250, db/src/cache.rs:1388-1422); values cached may be given twice |
| C87 | The map of placeholders of the pattern matcher keeps what failed attempts bound, and `any` takes the first member that matches: `#{[3 2] [2 1]}` does not match `#{[?x ?y] [?y ?z]}`, `[{:a 1 :b 2} :a :b]` matches `[{?x 1 ?y 2} ?x ?y]` but not `[{?y 1 ?x 2} ?y ?x]`, and `[#{_ ?x} ?x]` does not match itself (`C87_complete_fails`, `C87_names_fails`, `C87_self_fails`). |
| C87 | `#{[1] 2 3}` matches `#{[_a] [_b] _c}`: members of sets are not paired off (`C87_pairing_fails`). |
| `C36_fails_mixed` | after a move the next transaction reuses the id of the one moved away; a second move then takes the rows of the first along, since `move_transactions_to` selects by transaction id whatever the timeline |
| C88: `numbered_tempid` makes tempids that are also made by the transactor for maps without `:db/id` (both count from 1), so that two entities become one | `C88_fails_numbered` |
| C88: what is built may be refused where its text is accepted (a `Long` for a reference) and accepted where its text is refused (an entity for a string, dropped by an upsert) | `C88_fails_refused`, `C88_fails_accepted` |
| C89 | A `QueryBuilder` that is executed a second time has lost its bindings (`mem::take`), so a query with inputs is then refused (`C89_fails_again`); `bind_instant` of a time before 1970 with a fraction of a second binds another time (`C89_fails_instant`). |
| C90 | `.timer off` is refused: `string("on").or(string("off"))` has no `attempt`, so after the `o` the second is not tried; text after `.timer on`, `.cache a both` and `.import p` is ignored; `.sync u` is accepted and panics at `args[1]`; `:/x` given to `.cache` panics, `/x:one` is read as `:x/one`; `Timer`, `Cache`, `Help` and `Sync` are printed so that they are not read back; options are run in the order given, though the help says queries come after transactions, and only in the form `-q Q` |
| A pattern `[entity :attr ?v]` with an attribute of cardinality many cached forward finds nothing (`attempt_cache_lookup` asks for the single value, gets none and marks the query empty): `C92_fails_many`. An entity is found by a value it no longer has when the attribute is cached in reverse: `C92_fails_stale`. A declared input without a value is an error, except when a cache lookup happens to bind it: `C92_fails_unbound` | C92 |
| C93: `PreparedQuery::run` takes inputs and ignores them (`C93_fails_inputs`) | transaction/src/query.rs:67 |
| C93: `InProgress::q_prepare` uses the caches even when `use_caching(false)` was said; `q_once` does not (`C93_fails_caching`) | transaction/src/lib.rs:421 |
| C92: a value retracted inside a transaction is still answered by the cache of that transaction (`C92_fails_inProgress`) | db/src/cache.rs (`InProgressAttributeCache` removals), C37 |
| C92: a `not-join` all of whose clauses are answered by the caches has no constraints left and is dropped, so that it excludes nothing (`C92_fails_not`) | query-algebrizer/src/clauses/not.rs:62-66 |
| C94: a chunk with a double such as 10/11 arrives with the neighbouring double (`Wire.C94_fails_double`); NaN and the infinities are written as `null` and cannot be read (`Wire.C94_fails_infinite`); a keyword with a quote, backslash or control character is uploaded and then cannot be downloaded by anybody (`Wire.C94_fails_keyword`; the edn reader never makes one, `Keyword::namespaced` does) | tolstoy/src/remote_client.rs, edn/src/namespaceable_name.rs |
| C95: transactions on the server after its head (an upload cut off before `set_head`) make another client merge twice and then fail in every sync with `TimelinesMoveToNonEmpty` (`Sync.C95_fails_head`) | src/store.rs:64-89, tolstoy/src/syncer.rs:372-683 |
| C96: `RemoteClient::put` returns `Ok` whatever the status, so a refused upload is recorded as done and never made up for (`Sync.C96_fails_refused`, for every store) | tolstoy/src/remote_client.rs:117-121 |
| C97: `set_head` does not check what the head was; of two clients that upload at the same time the second never gets what the first uploaded (`Sync.C97_fails_race`, for every store) | tolstoy/src/remote_client.rs:219-227, tolstoy/src/syncer.rs:782 |
| C98_fails_newer: the checks made before `pre` are acted on after it, so a newer vocabulary that `pre` installed is replaced by the older definition | src/vocabulary.rs:722-775 |
| C98_fails_doubled: of two definitions of one name in a source only the last is worked on; success is reported though the other is not there | src/vocabulary.rs:641-644 |
| C99_fails_timestamp: timestamps are taken as microseconds and given as seconds, so none but 0 comes back as it was given | ffi/src/lib.rs:582-594, 1785-1789, core-traits/lib.rs:919-924 |
| C99_fails_keyword, C99_fails_plain: `kw_from_string` uses the first two of the parts between slashes, so `:a/b/c` is `:a/b`; without a slash it panics | ffi/src/utils.rs:33-38 |
| C99_fails_utf8, C99_fails_nul: text that is not UTF-8 becomes the empty string; a string with a NUL, which a transaction can store, panics when it is taken | ffi/src/utils.rs:20-31, core-traits/lib.rs:538-552 |
| C99_fails_reference: a string added under an attribute of references is not refused, as documented, but names a tempid | ffi/src/lib.rs:412-436, db/src/internal_types.rs:114-119 |
| C100_fails_value: `value_at_index` returns null only beyond the length, so at the length it panics | ffi/src/lib.rs:1931-1943 |
| C100_fails_row: `row_at_index(-1)`: the end of the slice wraps to 0 and its beginning does not, so the slice panics | ffi/src/lib.rs:1843-1852, query-projector/src/relresult.rs:61-69 |
| C65_fails_anonymous: the ids of the entities of maps without `:db/id` are given out in the order of the maps, so swapping two such maps swaps the ids | db/src/tx.rs:311-316 |
| C101_fails_before: a comparison or a negation written before the pattern that binds its variables is refused, after it answered | query-algebrizer/src/clauses/resolve.rs:51, not.rs:38 |
| C101_fails_column: a variable bound by a pattern without an attribute and by one with is read from the column met first; where `1.0` and `true` are joined (C46_fails) one order is answered and the other an error | query-algebrizer/src/clauses/mod.rs:1131 |
| C103_fails_type: a value of a type that a comparison does not take, given for one of its variables, is an error instead of no rows | query-algebrizer/src/clauses/resolve.rs:40-46 |
| C104_fails_distinct: a variable of unknown type found alone loses a double for which there is a long of the same number (as C45_fails_distinct) | query-projector/src/translate.rs |
| C105_fails: making an attribute cardinality many is accepted and its opposite always refused, because `SELECT EXISTS` always has a row (as for C34) | db/src/db.rs:1248-1300 |
| C106_fails: a unique value can move from one entity to another in two transactions in one order only (by design of the unique index; the full statement needs both orders accepted) | db/src/db.rs:877 |

## Plan per property

| id | model | proof |
|----|-------|-------|
| C01 | `to_sql_value_pair` / `from_sql_value_pair` over an SQL value type | round trip by cases; nil UUID counterexample |
| C02 | SQL `=` on (value, tag) | case analysis; Long 1 / Double 1.0 counterexample across types |
| C03 | `from_micros`, `to_micros`, `from_millis` with Rust's truncating `/` and `%` | arithmetic (omega); counterexamples for negative sub-second and millis |
| C04, C05 | `NamespaceableName` on character lists | list lemmas; counterexamples for leading underscores |
| C06 | `Value` inductive with the code's `cmp` | structural (mutual) induction |
| C07 | printer and recursive-descent reading of the PEG grammar | induction on value with a continuation lemma; escape counterexamples |
| C08, C09 | `Partition`, `PartitionMap`, parts view | invariant over allocation sequences; reopen counterexample |
| C10 | `AddRetractAlterSet` | invariant over witness sequence |
| C11, C12 | `AEVTrie`, checks | set characterisation of the trie; permutation invariance |
| C13-C20 | store = datoms + log; search/update_datoms/insert_transaction as list programs | invariants by induction over histories; refinement to a replay spec |
| C21 | `InProgress`/`Conn::transact` protocol as a step function with failing stages | case analysis; in-progress counterexample |
| C22-C28 | `Generation` and loop from tx.rs, union-find as closure | measure for termination; invariants over evolve steps; counterexamples |
| C29-C31 | stage 1 and 2 of the pipeline | induction on entity size |
| C32-C35 | `metadata.rs`, `AttributeBuilder`, schema views | comparison of incremental and recomputed maps; counterexamples |
| C36 | `timelines.rs` | reversal lemma on the log invariant; for histories with moves, a weaker invariant about the main timeline, kept along the line of states that moves go back on |
| C37-C39 | cache structures | refinement to store functions; counterexamples |
| C40-C42 | commit protocol and worker queue as a labelled transition system | invariants over all interleavings |
| C43 | vocabulary check decision; one definition and several ensured together | decision theorem, round trip; for several: what a check of the older store said stays true of the definitions not yet worked on (`Undisturbed`, `Fits`) |
| C44-C52 | algebrizer core, SQL semantics of the select | soundness and completeness against a Datalog semantics; counterexamples |
| C53 | aggregate typing | finite table + set algebra |
| C54 | puller over store | characterisation |
| C55 | builder and printer on strings, tokenizer as a state machine | what is written between two states of the builder reads as the pieces, by mutual induction on the tree |
| C56-C61 | tolstoy | decision table, induction on logs; counterexamples |
| C62 | range constraint | direct, through SQL semantics |
| C63 | chunking | induction; boundary counterexample |
| C64 | intern set | invariant |
| C66 | `to_typed_value` | finite case analysis over constructors |
| C53, C68 | aggregates | case analysis on type sets; spec of the projection loop, then groups as filtered lists in step with the rows |
| C65 | whole transaction pipeline run on two lists with the same members | simulation: every stage maps lists with the same members to lists with the same members; tempid labels depend only on the set of tempids because they are sorted. `Props/PermuteEntities`: entities by the flat list of C30 and the meaning of each assertion (C31) |
| C69 | savepoints of one `InProgress` | induction over the operations nested between a savepoint and its rollback |
| C70 | replaying a transaction from its log rows (Proofs/Replay), then the upload and download of a whole history | the log rows of a transaction, transacted again on equal tables, search and apply to the same rows; induction over the later transactions |
| C71 | the history of a writer, a reader and a server | invariant over the moves: what the server holds is the segment of the log up to the last sync, the reader is a replica of some earlier state whose head it knows; C70 carries it forward |
| C72 | the terms made of a local transaction (`rebase_terms`), and what the check after transacting says | the terms characterized from the entities; an entity with no log rows in the transaction keeps its facts; upserts by C24 |
| C49 | `Proofs/QueryOr*`, `Props/QueryOr` | each arm is applied to a copy of the clauses outside restricted to the shared variables; the computed table (or the alternatives on one table) holds exactly the rows of the arms; induction on nesting; union of the arm queries follows from C45. Or-joins with variables of their own (`Proofs/QueryFrame`, `Proofs/QueryLocal`): the state with the types of these variables dropped behaves the same, clause by clause, and is the one the answers are read from |
| C73 | `Props/Answers` | the invariant that every logged value reads back, by induction on the history; the tables of the store satisfy what C45 asks; rows and log related by C16 |
| C74 | `Proofs/QueryTotal`, `Props/QueryTotal` | invariants of the clauses along a run of patterns: the types known are single, every column recorded has its type or the tag beside it, every column spoken of is of a table in `FROM`, every variable of a pattern applied is bound; then the projection and, by C45, the reading of the rows |
| C75 | `Proofs/QueryParse`, `Props/QueryParse` | for each rule of the grammar, in order of mention: it reads the printed form of its construct and stops there, and it fails on the printed forms of the constructs tried after it; mutual induction on clauses and arguments. `Proofs/QueryText`: each query has a parsed query that its form denotes and that is converted to it |
| C76 | `Proofs/QueryParts` | `from_parts` is a loop with one slot for each kind of part; the invariant relates the slots to the parts seen |
| C77 | `Proofs/QueryWf` | each rule leaves a shorter rest, so the fuel (the length of the text) is enough; what it returns is well formed, by induction on the fuel |
| C78 | `Proofs/EntityParse`, `Props/EntityParse` | as C75: each rule reads the printed form of its construct and fails on those tried after it; map notation by: insertion into an ordered list gives the one ordered permutation |
| C79 | `Proofs/EntityWf`, `Props/EntityParse` | each rule leaves a shorter rest and returns well-formed parts; flattening keeps the atoms, so that the terms transacted have storable values, and a history of texts is a history in the sense of C73 |
| C80 | `Date.dayNumber`/`ofDayNumber`, `stamp`, `DateTime.rfc3339` | days counted one by one are the day numbers; every text of the grammar is read by cases on its fields; counts by year bounds |
| C81 | `Proofs/Fulltext`, `Proofs/FulltextDb` | an invariant of the tables (rowids and texts unique, cells fit the attribute) and a refinement: each statement on the tables does, to what they show, what the model of transactions does to datoms |
| C82 | `Proofs/QueryFulltext`, `Props/QueryFulltext` | the step of a clause is that of `tx-data` with another table joined (`Drawn`): the two rows joined by rowid are a datom with its string, since rowids and texts are one to one (C81) |
| C83 | `Props/FindSpecs` | algebrizing does not look at the shape of what is found (`algebrizeQuery_find`), and the projection of each shape is that of rows, read differently; the answers then follow from C45 and C65 |
| C84 | `Props/Lookup` | a pattern of an entity and an attribute not cached forward does not consult the cache (`fetch_uncached`), so the query is one of C83; with C37 for what is cached and C14 for cardinality one |
| C85 | `Spec/EdnText`, `Props/EdnText` | `Written v s` says how values are written; by induction on it the parser reads `s` before any text that a value may stop at, since blanks are skipped (`skip_blank`) and sets and maps are rebuilt in order |
| C86 | `Props/PrettyPrint` | whatever the renderer decides, the text is a layout of the document (`render_lays`), and every layout of the document of a value is a way of writing it (`lays_written`), so C85 applies |
| C87 | `Spec/Matcher`, `Props/Matcher` | the placeholders bound only grow (`matcher_mono`), so every comparison that succeeded still holds of the last ones (`matcher_sound`); without placeholders in sets and maps nothing is bound in vain (`matcher_complete`) |
| C88 | `Spec/Built`, `Proofs/Built`, `Props/Built` | one turn of the entity loop on the written entity is that on the built one (`step_written`), if the values fit; what is pushed back fits again, so the loops agree (`run_written`). The text is C78 |
| C89 | `Spec/Bound`, `Proofs/Bound`, `Props/Bound` | the maps are kept in the order of the variables, so what they hold determines them (`sorted_ext`); the calls hold the last binding (`calls_ok`); the answers are C45 and C74 |
| C90 | `Spec/Cli`, `Proofs/Cli`, `Props/Cli` | each parser succeeds on exactly the texts of one rule of the grammar (`val_*`), and those before it fail on them (`means_of_val`, `val_of_means`) |
| C91 | `Spec/Cli`, `Proofs/CliReader`, `Props/Cli` | a query or transaction with text added is the command of the text with it added (`command_append_*`), so the reader remembers what the joined lines are (`Remembers`, `take_line`) |
| C92 | Induction over evolved patterns and clauses: each cache lookup is a step that adds the condition a datom matches (`step_bindValue`, `step_cachedPattern`), with the invariant that clauses without conditions have no tables | `C92_rows_partial`, `C92_same_partial`, `C92_connection_partial` |
| C93 | `Model/Prepared`, `Props/Prepared` | the two paths are unfolded to the same binds (`prepare_run`); transactions of data keep the schema (`DataOnly.schema`) |
| C94 | `Model/Wire`, `Proofs/Wire`, `Props/Wire` | escaping and unescaping invert each other by induction over the string; each type of value by computation on generic JSON; small doubles by correctness of `roundDouble` on exact quotients; chunks, downloads and whole fast-forwards by composing with C70 |
| C95 | `Model/StoreSync`, `Props/StoreSync` | a merge leaves the client knowing the last transaction downloaded (`merge_head`), which is the head; a client that knows the head does not merge (`sync_known`); results by induction on the rounds |
| C96 | `Model/StoreSync`, `Props/StoreSync` | two uploads with different servers keep the same client state, by induction over the transactions (`visit_same`); the accepting server is the one of C58 |
| C97 | `Model/StoreSync`, `Props/StoreSync` | induction over the syncs with C58; the race by the specification of uploads (`upload_spec`) |
| C98 | `Model/VocabularySource`, `Props/VocabularySource`, `Props/VocabularyUpgrade` | the checks depend on the store only through the verdict on each definition, so after a `pre` that keeps the verdicts the work is that of C43 on the store it left; witnesses by evaluation |
| C99 | `Model/Ffi`, `Props/Ffi` | the conversions as functions on what a caller sees; which values come back is an equivalence by cases on the type; through the store by C20, C14 and C84 |
| C100 | `Model/Ffi`, `Props/Ffi` | arithmetic modulo 2^64; induction over the calls of the iterator |
| C101 | `Props/QueryOrder` | the answers of C45 and C73 are conjunctions over the members of the clauses; both lists of rows are without repetition, so they are permutations; renaming by composing assignments |
| C102 | `Props/QueryOrder` | satisfaction is monotone in the facts by mutual induction over clauses without negation; then C45 and C73 on both sides |
| C103 | `Props/Selection` | an answer under the inputs is an answer without them that agrees with them; both lists of rows are without repetition |
| C104 | `Props/Narrow` | the rows of both queries are the images of the same assignments; a column of a row is the value of its variable |
| C105 | `Props/Undo` | the log rows of a transaction are its net change (C17), so the opposite is known in terms of the datoms; then the effect of its queue on each row |
| C106 | `Props/Commute` | the values of an entity and attribute after a transaction are a function of those before and the terms about them (`values_transacted`) |
