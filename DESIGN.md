# Formal model of featuretools in Lean 4: design

## 1. Layout

The source in /repo is read as text; nothing is executed. The Lean project has four layers.

* `lean/Verif/Model/*.lean`: total computable functions which follow the Python functions branch by branch. Every definition
  cites the file and lines it models and says what it simplifies.
* `lean/Verif/Spec/*.lean`: small specifications which do not mention the functions of the model (they use its data types).
* `lean/Verif/Lemmas/*.lean`: intermediate facts.
* `lean/Verif/Props/*.lean`: the property theorems `Cnn_...`, each with an `example` which shows that its hypotheses hold in a
  concrete, non-trivial case. `Cnn_..._partial` covers part of the property; `Cnn_..._violated` (and some with a telling name)
  are theorems which refute the property in a case that the partial theorem leaves out.

`properties.jsonl` lists the properties, `MANIFEST.json` the theorems for each, `seeded/LOG.jsonl` the wrong programs tried.

Conventions of the model:

* pandas tables are lists of rows; a row is a map from column name to a cell; a missing column is an error value.
* cells are missing, integers (numbers and times), strings or booleans. Primitives of the standard library that divide use exact
  fractions.
* Python exceptions are `Except` values that name the exception; loops are structural or take fuel, and then a theorem shows how
  much fuel suffices (or that no fuel does).
* sets and dicts whose order of iteration is unspecified are lists plus a permutation parameter wherever the order can matter.
* primitives of the user are parameters: theorems quantify over every primitive function.

## 2. What is modelled, file by file

| file in /repo/featuretools | model | left out |
|---|---|---|
| `entityset/relationship.py` | `Basic`, `Schema` | display |
| `entityset/entityset.py` 298-430 (paths) | `Schema` | |
| `entityset/entityset.py` creation, relationships, normalisation, metadata | `EntitySet` | Dask, Koalas, plotting |
| `entityset/entityset.py` 763-906 (last time index) | `LastTime` | Dask, Koalas |
| `entityset/entityset.py` 974-1120 (queries) | `Query`, `Dask` | Koalas |
| `entityset/entityset.py` equality, concat; `add_interesting_values` | `EntitySetEq`, `Interesting` | |
| `entityset/entity.py` | `EntitySet`, `Query`, `Interesting` | dtype conversion (parameter `Lib`) |
| `entityset/serialize.py`, `deserialize.py` | `Serialize`, `Disk` | archives, S3, URLs |
| `entityset/timedelta.py`, `utils/wrangle.py` | `Timedelta` | float values |
| `feature_base/feature_descriptions.py` | `Describe` | reading the metadata file; `str.upper` and `str.lower` are parameters; format specifications, conversions and attributes in templates; different texts have different hashes |
| `feature_base/feature_base.py` | `Feature`, `Synth`, `FeatureFile`, `Operators`, `Build`, `Names` | |
| `feature_base/features_(de)serializer.py` | `FeatureFile` | text of the JSON |
| `primitives/utils.py`, `primitives/__init__.py`, `primitives/base/*` | `PrimFile`, `MakePrim`, `DfsInput`, `Listing` | |
| `primitives/options_utils.py` | `Options`, `DfsInput` | warnings |
| `primitives/standard/cum_transform_feature.py`, `Diff` | `Cumulative` | |
| `primitives/standard/aggregation_primitives.py` | `Aggregate`, `Stats` | rounding; what pandas, numpy and scipy do with a group is written out |
| `primitives/standard/transform_primitive.py` | `TransPrims`, `Haversine` | rounding, time zones; what pandas does with a column is written out |
| `primitives/standard/binary_transform.py` | `Operators` | rounding; what numpy does with two cells is written out |
| `computational_backends/feature_set.py` | `FeatureSet` | |
| `computational_backends/feature_set_calculator.py` | `Calculator`, `AggNames`, `Progress`, `Dask` | Koalas, dtypes |
| `computational_backends/calculate_feature_matrix.py` | `Cfm`, `Chunk`, `Progress`, `DaskMatrix` | display of the progress bar, elapsed times, cluster start-up |
| `computational_backends/utils.py` | `Util`, `FeatureSet`, `Chunk`, `Disk` | |
| `synthesis/deep_feature_synthesis.py`, `dfs.py` | `Match`, `Options`, `Synth`, `Dfs`, `DfsRun`, `DfsInput`, `DfsMatrix`, `Pipeline`, `SavedDfs`, `Unused` | warnings |
| `synthesis/encode_features.py` | `Encode`, `Encoded` | dtypes (`to_numeric`) |
| `selection/selection.py` | `Selection` | |
| `utils/entity_utils.py` (`infer_variable_types`) | `Infer` | |
| `utils/gen_utils.py`, `time_utils.py`, `description_utils.py`, `trie.py` | `Util`, `Trie`, `VarTypes` | |
| `variable_types/*` | `VarTypes`; type strings, subtype tables in `Synth`/`Infer`/`Serialize` | |
| `feature_base/feature_visualizer.py` | `Graph` | layout, colours, captions, files |
| `utils/entry_point.py` | `EntryPoint` | running times |
| `demo/*`, `config_init.py`, `utils/{cli,plot,s3,koalas}_utils.py`, `__main__.py` | not modelled | |

## 3. Trusted base

* Lean 4.33.0's kernel.
* Axioms: at most `propext`, `Classical.choice`, `Quot.sound`; none of our own. No `sorry`, `native_decide`, `bv_decide`.
* The reading of the Python code into the model, and of the pandas operations (`isin`, `merge`, `groupby`, `drop_duplicates`,
  `reindex`, `sort_values`, `update`, ...), which is stated beside each definition.
* These parameters stand for code that is not modelled. Theorems hold for every value of the parameter unless a hypothesis says
  otherwise.
  * `Lib` (`EntitySet`): type inference, conversion of columns, looking at the first value of a time column.
  * `Json`, `Codec` (`Serialize`, `Disk`): values written as JSON; encodings of files. `json.loads` inverts `json.dumps`.
  * `Lang`, `Namer` (`Synth`, `Dfs`): text that primitives put into names; `setOrder`: iteration order of Python sets.
  * `Stats` (`Selection`): `Series.corr`, `select_dtypes`. `EncOpts.eqName`, `le` (`Encode`): text and order of labels.
  * `Counting` (`Interesting`): order of `value_counts` among equal counts. `InferArgs.sample`: the random sample.
  * `polyfit` (`Aggregate`): given by the normal equations. Floats are exact fractions.
  * `now`, `idLe`, `Exec` (`Cfm`): the current time, the order in which pandas sorts ids, the order in which workers finish.
  * The Dask tree reduction is any tree over any partition (`Aggregate`). Merges and `agg` of Dask frames return the rows that pandas
    returns in an arbitrary order, and compute each group from any partition of its rows (`Dask`, `Arrange`).

## 4. Conditions in the partial theorems

* `Spec.Regular` (calculator): features fit their entities (checked by the constructors of features), names identify features,
  computed columns are not named like key columns or each other, link columns (`customers.region_id`) are not named like
  something else, a slice is not itself requested, two direct features over one relationship have different base columns, the
  training window does not count observations. `CalcExample` shows entity sets with direct, transform, group-by, aggregation
  features with conditions and `use_previous` that meet it.
* `Spec.ApproxOk` (C34, C60 with `approximate`): the same for the features that remain when the approximated ones are looked up and
  for the approximated ones at the bin; these have one output each, nothing is computed on the full entity where they are looked up,
  and no entity on the way is linked by its own index. `ApproxExample` shows features of both kinds that meet it.
* `Spec.Orderly` (last time indexes): one relationship per pair of entities, times after 1800, all or none of the child rows of a
  parent observed.
* `Spec.Describable` (descriptions): default names and class parameters, registered types, sorted data, secondary time indexes
  only beside a time index.
* `NamesTell` (C47), `FullNamesTell` (C48): among the features in question a name belongs to one feature only. `Proper` (C48):
  the group-by feature is not also an input.
* `NewNamesApart` (C50): indicator columns are not named like other columns. `TellsType` (C58): the column has rows, or a dtype
  that has a type of its own.
* `Vocabulary.Clear`, `Made`, `Whole` (C87): identifiers without `( ) [ ] , . =` and blanks, primitives and windows told apart by their
  names, no relationships to and fro; features without names given by hand. `NamesExample.V` meets it.
* `Fair` (C32, C33): at least one worker and every chunk completes; `SizeOk`: chunk sizes are positive.

## 5. Plan and result per property

For each property: what is modelled, how it is proved, what is left open. The theorem names are in `MANIFEST.json`; they are in
`lean/Verif/Props/`.

* **C01** Forward paths are exactly the cycle-free relationship chains.
  *Model:* `Model/Schema`: `_forward_entity_paths` as a depth-first search with a copied seen set, by well-founded recursion. *Proof:* soundness and completeness against the inductive relation of simple chains in `Spec/Schema`. *Status:* proved.
* **C02** Backward paths mirror forward paths, and path uniqueness is decided correctly.
  *Model:* `Model/Schema`: `find_backward_paths`, `has_unique_forward_path` (StopIteration as error value). *Proof:* from C01, case analysis on the enumeration. *Status:* proved.
* **C03** Deep forward/backward entity enumeration lists every path on acyclic schemas.
  *Model:* `Model/Schema`: `get_forward_entities`/`get_backward_entities` with fuel. *Proof:* a rank function gives enough fuel on acyclic graphs; on cyclic ones no fuel suffices. *Status:* proved.
* **C04** Relationship list stays well-formed under every history of schema operations.
  *Model:* `Model/EntitySet`: all operations as a state machine. *Proof:* invariant by induction over histories. *Status:* partial. Proved for histories that do not reuse entity ids; creating an entity under an existing id breaks it (C04_reused_id_violated). add_relationship exact; add_relationships exact (C04_add_relationships_iff), but an empty list raises (C04_no_relationships_violated).
* **C05** The metadata view always describes the current schema.
  *Model:* `Model/EntitySet`: the cached metadata and when it is reset. *Proof:* invariant for the operations that reset it; negations for the others. *Status:* partial. Proved for creating, normalising, successful relating and updating, descriptions; stale after deleting/converting variables on an entity and after a refused relationship (three violations proved).
* **C06** normalize_entity preserves information and referential integrity.
  *Model:* `Model/EntitySet`: `normalize_entity` on tables. *Proof:* functional correctness; join-back by keep-first de-duplication laws. *Status:* proved.
* **C07** Every entity index is unique; make_index numbers rows 0..n-1.
  *Model:* `Model/EntitySet`: `_create_index`, `set_index`, `update_data`. *Proof:* case analysis on every branch. *Status:* partial. Creation and make_index exact; a failing creation can set the time type (C07_failure_sets_time_type), a failing update_data leaves repeated index values (C07_failed_update_violated).
* **C08** Value queries return exactly the matching rows in original order.
  *Model:* `Model/Query`: `query_by_values`. *Proof:* exact row list as a filter of the table. *Status:* proved.
* **C09** A cutoff time hides exactly the later rows.
  *Model:* `Model/Query`: `_handle_time`. *Proof:* iff for each row; monotonicity. *Status:* proved.
* **C10** A training window keeps exactly the rows inside it.
  *Model:* `Model/Query`: `_handle_time` with a training window. *Proof:* iff for each row; partition of consecutive windows. *Status:* proved.
* **C11** Secondary time indexes hide not-yet-known columns.
  *Model:* `Model/Query`: secondary time index masking. *Proof:* iff for each cell; negation for chained secondary times. *Status:* partial. Exact when no secondary time column is itself governed by another secondary time index; the chained case leaks (C11_chained_secondary_leaks, proved).
* **C12** last_time_index is the latest time over an instance and all its descendants.
  *Model:* `Model/LastTime`: the queue algorithm with fuel; `Model/LastTimeDask`: its Dask branch. *Proof:* loop invariant to the maximum over descendants; termination on acyclic schemas; negations. *Status:* partial. Proved under Orderly: one relationship per pair of entities, times after 1800, and all or none of the child rows of a parent observed; without these and for cyclic schemas the claim is refuted (four C12_*_violated theorems). Termination is proved for schemas without cycles. The Dask branch is modelled apart (Model/LastTimeDask): there rows never observed do no harm, but index values must be distinct, which Dask entities do not check (C12_dask_duplicate_index_violated).
* **C13** concat merges two entity sets by index, first one wins.
  *Model:* `Model/EntitySetEq`: `concat`. *Proof:* laws of de-duplication and sorting. *Status:* partial. Proved for entities whose index was not made by make_index; concatenating two made indexes fails (C13_made_index_violated). Last time indexes after concat: C89.
* **C14** EntitySet equality is an equivalence and deep equality compares data.
  *Model:* `Model/EntitySetEq`: the `__eq__` methods. *Proof:* exact characterisation, then algebraic laws; negations. *Status:* partial. Exact characterisation, reflexive and transitive; symmetric only with equally many relationships (C14_symmetry_violated); deep equality ignores cells of non-empty frames (C14_deep_data_violated).
* **C15** Entity set descriptions round-trip.
  *Model:* `Model/Serialize`: descriptions to and from. *Proof:* round trip by induction over entities, variables, relationships. *Status:* partial. Proved for Describable entity sets (default names, default class parameters, registered types, sorted data, secondary time indexes only beside a time index); refuted for renamed variables, Boolean variables with own values, and secondary time indexes without a time index (three C15_*_violated theorems). The files themselves (csv, parquet, pickle) are a parameter: the frames read are those written.
* **C16** A crash while saving never yields a readable but wrong entity set.
  *Model:* `Model/Disk`: a disk changed byte by byte, a crash after any step. *Proof:* all prefixes of the write sequence; negation for overwriting. *Status:* partial. Proved in full for directories without a saved entity set, and for saving over one whose files are not reused; refuted for saving over one in the same format (C16_overwrite_violated, for every encoding). The encodings are parameters: a description cut short cannot be parsed. Archives and S3 are not modelled.
* **C17** Schema version checking orders versions numerically.
  *Model:* `Model/Util`: `check_schema_version`. *Proof:* comparison of digit strings; negations. *Status:* partial. Numeric comparison proved when the first differing components have equally many digits; the code compares text (C17_compared_as_text) and crashes on a version that extends the other (C17_prefix_crashes).
* **C18** Timedelta serialization, negation and naming.
  *Model:* `Model/Timedelta`. *Proof:* round trip, involution, injectivity of names for one unit; negations. *Status:* partial. Round trip, negation, equality and single-unit names hold; multi-unit names collide on order/plural forms (C18_names_collide) and calendar-offset objects do not survive get_arguments (C18_offset_roundtrip_fails).
* **C19** Timedelta strings parse to the written value and unit.
  *Model:* `Model/Timedelta`: the regular expression as a scanner. *Proof:* iff: accepted strings are exactly the decompositions. *Status:* proved.
* **C20** Trie behaves as a map from paths.
  *Model:* `Model/Trie`. *Proof:* refinement to a map from paths. *Status:* proved.
* **C21** Feature dependencies and depth are the transitive closure.
  *Model:* `Model/Feature`: `get_dependencies`, `get_depth`. *Proof:* induction on the feature tree against the reachability relation. *Status:* proved.
* **C22** The computation plan contains every dependency at the right path.
  *Model:* `Model/FeatureSet`: the construction of the plan. *Proof:* loop invariant to the inductive relation `Planned`. *Status:* proved.
* **C23** Features are grouped in dependency order and only with alike features.
  *Model:* `Model/FeatureSet`: `group_features`. *Proof:* sortedness and the depth relaxation as invariant; negations. *Status:* partial. Partition, alikeness of single-unit windows and dependency order proved; a slice of a path feature breaks the order (C23_slice_of_aggregation_first) and multi-unit windows are put in one group (C23_multi_unit_windows_grouped).
* **C24** Calculated values equal the definition of the feature.
  *Model:* `Model/Calculator`: `feature_set_calculator.py`, frame by frame. *Proof:* refinement: every frame holds the denotation `Spec.meaning`; induction over the plan. *Status:* partial. Proved for every regular computation (Spec.Regular: names identify features, no name clash of computed columns with key or link columns, no slice targets, distinct base columns of direct features); outside it the code fails or differs (C24_renamed_identity_error, C28_condition_as_base_dropped, C29_same_base_twice_error). C24_plain_partial gives the same result from plain conditions on names and windows. A slice of a feature with several outputs cannot be calculated on its own (C24_slice_target_violated).
* **C25** No information from after the cutoff leaks into a feature.
  *Model:* the same. *Proof:* the run reads an entity only through queries, which show the same data; induction over the plan, for arbitrary features. *Status:* partial. Proved for all features and arbitrary plans when secondary time columns are not themselves governed by another secondary time index (chained case leaks, C11_chained_secondary_leaks); visibility includes the last_time_index test of training windows as documented.
* **C26** An instance's values do not depend on the other instances requested.
  *Model:* the same. *Proof:* from C24. *Status:* partial. Proved for every regular computation (Spec.Regular: names identify features, no name clash of computed columns with key or link columns, no slice targets, distinct base columns of direct features); each instance visible; batches and order arbitrary. Primitives must say when they look at other rows: TimeSincePrevious does not (C26_time_since_previous_violated).
* **C27** The matrix has one row for each requested instance, in order, and one column for each feature output.
  *Model:* the same: assembly of the result. *Proof:* from C24, and separately for no data. *Status:* partial. Proved for every regular computation (Spec.Regular: names identify features, no name clash of computed columns with key or link columns, no slice targets, distinct base columns of direct features); unknown ids without repetition; repeated unknown ids raise (C27_repeats_violated), and if nothing is visible repeats are kept (C27_no_instances).
* **C28** Aggregation features see exactly their group.
  *Model:* the same: the aggregation handler. *Proof:* specification of the group; the handler alone for arbitrary frames. *Status:* partial. Proved for every regular computation (Spec.Regular: names identify features, no name clash of computed columns with key or link columns, no slice targets, distinct base columns of direct features); other rows/columns unchanged in general (C28_rows_unchanged); fails for a condition which is also a base and for deep paths with two relationships between one pair.
* **C29** Direct features look up the linked parent.
  *Model:* the same: the direct feature handler. *Proof:* specification of the lookup; the handler alone for arbitrary frames. *Status:* partial. Proved for every regular computation (Spec.Regular: names identify features, no name clash of computed columns with key or link columns, no slice targets, distinct base columns of direct features); child rows kept in general (C29_rows_unchanged); two direct features with one base fail.
* **C30** Groupby transforms act within their group only.
  *Model:* the same: the group-by handler. *Proof:* specification within the group; the handler alone for arbitrary frames. *Status:* partial. Proved for every regular computation (Spec.Regular: names identify features, no name clash of computed columns with key or link columns, no slice targets, distinct base columns of direct features); rows kept in general (C30_rows_unchanged).
* **C31** Chunking partitions the cutoff rows and respects the size.
  *Model:* `Model/Chunk`. *Proof:* induction on the rows. *Status:* proved.
* **C32** The feature matrix does not depend on chunk size, number of jobs or completion order.
  *Model:* `Model/Cfm`: `calculate_feature_matrix` with any chunk size, number of workers and completion order. *Proof:* both runs equal the specification of C33; completion order by invariance of re-indexing under permutations. *Status:* partial. Independence of the order in which workers finish is proved for all features, with and without approximation. Independence of chunk size and number of workers is proved for regular features without approximation; with approximation under the conditions of C34 (C32_approximate_partial). An unknown instance twice in one bin gives a matrix or an error depending on the chunks: C32_unknown_instance_violated.
* **C33** Rows come back in the order of the cutoff table, each computed at its own cutoff.
  *Model:* `Model/Cfm`. *Proof:* permutation of the rows by definition, restored by re-indexing. *Status:* partial. For regular features without approximation, rows with a time and passed columns whose names are not feature names; counterexamples for the excluded cases are proved.
* **C34** Approximation never looks past the row's cutoff time and bins correctly.
  *Model:* `Model/Util`: binning; `Model/Cfm`: approximation. *Proof:* integer arithmetic; the calculator proof generalised to features that are given, the table of looked-up values by the proof for C33, then grouping and re-indexing as in C33; negations. *Status:* partial. Binning proved for single absolute units; integer windows do not bin (C34_integer_window_does_nothing), multi-unit windows give no times (C34_multi_unit_no_result). The whole matrix is proved equal to the definition with the approximated aggregations looked up at the bin, for regular features with single-output aggregations (C34_values_partial); if every aggregation is approximated the rest is computed with all data there is now (C34_values_now_partial). C34_plain_partial and C34_plain_now_partial give the same from plain conditions on names, features and data, C34_single_partial, C34_single_now_partial and C34_all_instances_partial for a single cutoff time. Counterexamples for the excluded cases: C34_full_entity_violated, C34_multi_output_violated, C34_own_index_violated, C34_unknown_instance_violated, C34_pass_names_violated.
* **C35** Exactly the aggregations behind direct features are approximated.
  *Model:* `Model/FeatureSet`: `gather_approximate_features`. *Proof:* iff with chains of direct features. *Status:* proved.
* **C36** Saved progress files are complete and cover all computed chunks.
  *Model:* `Model/Disk`: `save_csv_decorator`. *Proof:* all prefixes of the writes; file names collide exactly when ...; negations. *Status:* partial. Every file is complete at every crash point (C36_complete); every chunk keeps its file unless two times agree on a 12-hour clock (C36_same_file is exact), which refutes the rest of the claim (C36_afternoon_violated, C36_not_timestamp_violated).
* **C37** Worker count is between 1 and the number of CPUs.
  *Model:* `Model/Chunk`: `n_jobs_to_workers`. *Proof:* integer arithmetic. *Status:* proved.
* **C38** Cutoff tables are validated.
  *Model:* `Model/Util`: `_check_cutoff_time_type`, header validation. *Proof:* decision table as iff. *Status:* partial. Full iff for entities whose index is not named time; proved to fail for an index named time (C38_index_called_time).
* **C39** Synthesised features have unique names, are sorted by depth, filtered and capped.
  *Model:* `Model/Dfs`, `Model/DfsRun`. *Proof:* invariants of the synthesis state; sorting and filter laws. *Status:* proved.
* **C40** max_depth bounds the depth of every returned feature.
  *Model:* `Model/Dfs`. *Proof:* invariant on depth; negations. *Status:* partial. Violated by the code in three ways, each with a witness (conditions are not counted, features reached by a shortcut are used at any distance, slices of several outputs count one more). Proved: the bound without conditions and several outputs where chains of parents are shortest walks, and in general the bound with the exact overshoot allowed to direct features and conditions.
* **C41** Ignored entities and variables never appear in a feature.
  *Model:* `Model/Dfs`. *Proof:* invariant on every feature in the state and its dependencies. *Status:* partial. Proved for every feature used at any depth and every column, where ignoring is by variable name and options of a primitive may include again. Violated for paths: the rows of an ignored entity still link others (witness).
* **C42** dfs terminates on acyclic schemas and visits each entity once.
  *Model:* `Model/Dfs` with fuel. *Proof:* rank of the schema gives enough fuel. *Status:* proved.
* **C43** Input matching is sound, complete and free of repetitions.
  *Model:* `Model/Match`. *Proof:* induction on input types, iff. *Status:* proved.
* **C44** Stacking rules hold for every synthesised feature.
  *Model:* `Model/Dfs`, `Model/Synth`. *Proof:* invariant on every input of every feature. *Status:* partial. Proved for every input of every transform and aggregation feature used. base_of_exclude raises AttributeError (witness), so the theorem says the list is empty on anything stacked on.
* **C45** Where clauses stack at most where_stacking_limit times.
  *Model:* `Model/Dfs`. *Proof:* invariant on chains of conditions. *Status:* proved.
* **C46** Primitive options are respected.
  *Model:* `Model/Options`, `Model/Dfs`. *Proof:* iff with documented predicates; invariant on inputs. *Status:* partial. Proved for the inputs of every primitive at every depth, and the filters are exactly the predicates of Spec/Dfs. Conditions are not filtered (witness).
* **C47** The unused-primitive report is exact.
  *Model:* `Model/Unused`. *Proof:* iff; negations. *Status:* partial. The report is exact where the names of the features that are used tell them apart (Spec.NamesTell), which the code does not ensure across entities (C47_names_violated) nor for primitives given as text in another case (C47_case_violated).
* **C48** Feature definitions round-trip through save_features/load_features.
  *Model:* `Model/FeatureFile`. *Proof:* round trip by induction over the dependency order; negations. *Status:* partial. Round trip proved for features whose full names tell them apart and whose group-by feature is not also an input; C48_groupby_violated and C48_names_violated show both exceptions. json.dumps/json.loads are taken to be inverse to each other. Any file, also one not written by save_features: what loads is what the file says under the listed names, and files with missing or circular definitions are refused.
* **C49** Primitive lookup on load is order independent.
  *Model:* `Model/PrimFile`: cache and generator position. *Proof:* invariant over histories of requests. *Status:* partial. Round trip proved for classes that occur once among the subclasses and for arguments that Python's == does not confuse with a default; C49_twice_violated and C49_true_violated show the two exceptions. Copying of the class tree into the importable namespace is not modelled.
* **C50** encode_features is a faithful one-hot encoding.
  *Model:* `Model/Encode`. *Proof:* column by column; negations. *Status:* partial. Exact where the names of the new columns are new (Spec.NewNamesApart), top_n is not negative and drop_first is not combined with a dict; C50_names_violated, C50_drop_first_violated, C50_negative_violated show the exceptions. str(label) and the order of labels are parameters.
* **C51** Feature selection removes exactly the documented columns.
  *Model:* `Model/Selection`. *Proof:* iff for each column; negations. *Status:* partial. What each function keeps is proved exactly. Two parts of the documented behaviour fail: a column whose null share equals the threshold is removed (C51_boundary_violated), and remove_low_information_features drops features with several outputs whose columns stay (C51_outputs_violated). Shares are exact fractions, not floats.
* **C52** Correlation selection leaves no highly correlated pair and never drops protected features.
  *Model:* `Model/Selection`. *Proof:* loop invariant; negation. *Status:* partial. Proved for the order of features_to_check; if that differs from the order of the matrix the column further left may go (C52_order_violated). Series.corr and select_dtypes are parameters.
* **C53** Cumulative primitives satisfy their recurrences.
  *Model:* `Model/Cumulative`. *Proof:* prefix laws by induction. *Status:* proved.
* **C54** Distributed aggregation equals the single-frame one for every partitioning.
  *Model:* `Model/Aggregate`: both versions. *Proof:* homomorphism over concatenation, any partition and reduction tree. *Status:* proved.
* **C55** Aggregation primitives meet their definitions.
  *Model:* `Model/Aggregate`. *Proof:* specification for all inputs; normal equations for Trend. *Status:* partial. Trend is the least squares slope, but per a unit of time that depends on the first row (C55_trend_unit_violated). Median, Skew, Std, Entropy, Min, Max, Sum, Mean and Count are C68.
* **C56** Interesting values are the most frequent ones, at most max_values.
  *Model:* `Model/Interesting`. *Proof:* sorting and filter laws, iff. *Status:* partial. Columns of dtype category are left out: categories that do not occur become interesting values (C56_categories_violated).
* **C57** make_temporal_cutoffs spaces cutoffs evenly before each instance's cutoff.
  *Model:* `Model/Util`: `make_temporal_cutoffs`. *Proof:* arithmetic progressions; negations. *Status:* partial. Window+number and number+start exact; window+start does not reach the cutoff in general (C57_cutoff_missing) and a lone number is accepted (C57_only_number_accepted).
* **C58** Variable type inference is a function of the column alone.
  *Model:* `Model/Infer`: the loop with its carried variable. *Proof:* independence by unfolding one column; negations. *Status:* partial. For columns of at most 10000 rows that have rows or a dtype with a type of its own; C58_carry_over_violated and C58_sample_violated show the exceptions.
* **C59** Natural-language helpers are correct for all inputs.
  *Model:* `Model/Util`. *Proof:* case analysis modulo 100; unit table. *Status:* partial. Ordinals exact; time units consistent up to days, but a year is not twelve months (C59_year_not_twelve_months).
* **C60** Rows of a feature matrix do not see data later than their own cutoff.
  *Model:* `Model/Cfm`, `Model/Calculator`, two data sets. *Proof:* C25 carried through grouping, chunks, execution and reindexing; negation for approximate. *Status:* partial. Proved for calls without approximation where no secondary time index hides another one or a key column, and with approximation when some aggregation is not approximated (C60_approximate_partial, for data sets that show the same at the cutoff and at its bin). If all aggregations are approximated the claim is false: C60_approximate_violated. C60_all_instances_partial: the same when no instances are given.
* **C61** Deep Feature Synthesis finds the features it is asked for.
  *Model:* `Model/Dfs`, `Model/Match`, `Model/Options`. *Proof:* the stages of a visit, each of which only adds; what is visited stays; completeness of matching; negations. *Status:* partial. Proved for primitives without options of their own, inputs that are features of one output or outputs of features of several (for transforms: of aggregations), and descendants sure to be visited (children, or any descendant without limits on depth and paths). Missing: user options, grandchildren under a depth limit in tree schemas. In general the claim is false: C61_order_violated (features found depend on the order of relationships), C61_groupby_violated (no grouping by a parent's feature).
* **C62** Expressions over features compute what they say.
  *Model:* `Model/Operators`: methods, primitives, cells. *Proof:* induction over expressions against relational rules for values and types. *Status:* partial. Proved for complete boolean columns and for scalars that are not text in arithmetic and comparisons by order. Missing: booleans with missing values (objects; C63_missing_violated shows what they do), text operands that raise. Numbers are exact fractions with two infinities, not floats.
* **C63** Commutative primitives do not depend on the order of their inputs.
  *Model:* `Model/Operators`: functions and the flag. *Proof:* case analysis on primitives; negations. *Status:* partial. Proved for every primitive marked as commutative except SubtractNumeric and DivideNumeric(commutative=True), and And and Or with missing booleans: C63_subtract_violated, C63_missing_violated.
* **C64** Names of features built by operators say which feature it is.
  *Model:* `Model/Operators`: names. *Proof:* splitting names at the first space or parenthesis; negations. *Status:* partial. The text is proved for all expressions without group-by features. That names identify features is proved for at most one operator; false in general: C64_grouping_violated (no parentheses), C64_scalar_violated (text scalars are not quoted).
* **C65** Descriptions of features say what the feature is.
  *Model:* `Model/Describe`: `str.format`, templates, phrases. *Proof:* mutual induction against relational rules for templates and descriptions; negations. *Status:* partial. Proved for all features whose conditions compare with a scalar, slices of aggregations and transforms, and dictionaries whose descriptions are not empty and whose keys tell features apart. False otherwise: eight C65_..._violated theorems (conditions other than equality share a description; comparisons of two features and boolean columns as conditions fail; braces in scalars; empty custom descriptions; keys; slices of group-by and direct features; custom descriptions inside a chain of parents).
* **C66** Transform primitives meet their definitions.
  *Model:* `Model/TransPrims`: numpy's calendar, ranks, cells. *Proof:* the calendar against the recurrence of year lengths by case analysis of 400-year cycles; ranks by induction over runs of the sorted column; negations. *Status:* partial. Calendar parts, elapsed times, ages, characters, IsIn, pointwise primitives and percentiles are exact. Words are proved for texts with single spaces (C66_words_violated shows the others), coordinates for rows labelled 0, 1, ... (C66_latlong_violated), and the week is the ISO week, not the documented one (C66_week_violated). Numbers are exact fractions, datetimes have no time zone.
* **C67** Haversine is the distance on the sphere.
  *Model:* `Model/Haversine` over Mathlib's real numbers. *Proof:* half-angle identities against the angle of two unit vectors; triangle inequality of angles from Mathlib. *Status:* partial. Exact over real numbers for rows labelled 0, 1, ...; other labels raise TypeError for a missing pair (C67_error, C67_labels_violated). Symmetry, metric laws, units and names are proved without that condition. Rounding is not modelled.
* **C68** Numeric aggregation primitives are the statistics they are named after.
  *Model:* `Model/Stats` over fractions and Mathlib's real numbers. *Proof:* equivalence with definitions of mean, median, deviation, skewness and entropy for all groups; Gibbs' inequality for the bounds; negations. *Status:* partial. Exact over fractions and real numbers; rounding is not modelled. Std is two statistics: C68_std_violated (called directly it divides by n, in a feature matrix by n-1); Mean(skipna=False) skips missing cells with Dask and Koalas: C68_mean_skipna_violated.
* **C69** Primitives made from functions do what the function does.
  *Model:* `Model/MakePrim`: calls of Python functions, `functools.partial`, class attributes. *Proof:* binding of arguments against a relation saying what each parameter receives, by induction over signatures; negations. *Status:* partial. Proved for functions whose column parameters have no default; the others cannot be called (C69_default_column, C69_default_column_violated). Keyword arguments reach neither the name nor the saved form (C69_arguments_lost, C69_saved_violated) nor the default value (C69_default_value_violated); class attributes that are also arguments are lost (C69_attributes_violated). *args and **kwargs in functions and constructors among the class attributes are not modelled.
* **C70** Features aggregated together do not get mixed up.
  *Model:* `Model/AggNames`: `to_agg`, `agg_rename` and identities of function objects. *Proof:* invariant of the loop (keys are distinct and name the features), injectivity of keys; negations. *Status:* partial. Proved unless one input is counted by two features of a pass (C70_two_counts_violated: the first one gets no column) or a condition is one of two inputs (C70_condition_violated: the function is called with one column). Dask and Koalas, where every function is passed by its name, are not modelled.
* **C71** Watching a call does not change it.
  *Model:* `Model/EntryPoint`: the wrapper, with arbitrary handlers and a log. *Proof:* induction over the handlers; negations. *Status:* partial. Proved for handlers that do not raise and leave the program's objects alone; for all others, that the function runs at most once with the given arguments and that no value is made up (C71_never_made_up). A handler that raises stops the call, loses the result or replaces the exception (C71_on_call_violated, C71_on_return_violated, C71_on_error_violated); interrupts are not reported (C71_interrupt_violated); of *args one object is reported (C71_star_violated).
* **C72** The lineage graph shows what a feature is calculated from.
  *Model:* `Model/Graph`: `get_feature_data` with its memory, `get_entity_table`. *Proof:* induction over the recursion: every step keeps what is drawn, and features whose row is new are drawn completely; invariant of lines; negations. *Status:* partial. Rows, lines, diamonds and tables proved where entity and name tell the features apart (C72_names_violated otherwise); that nothing else leads to a feature also needs names that differ between entities (C72_shared_diamond_violated). Steps start at 1 unless something is grouped by a calculated feature (C72_step_zero_violated) and respect the order of calculation unless a feature is used at two distances (C72_order_violated). Texts of nodes are taken not to coincide otherwise; drawing and captions are not modelled.
* **C73** Progress reports are honest and harmless.
  *Model:* `Model/Progress`: the calculation of `Model/Calculator` and `Model/Cfm` with the reports made on the way. *Proof:* erasing the reports gives the calculation (induction over the plan); the sum of the reports is bounded by, and under freshness of names equal to, the rows done; negations. *Status:* partial. That a callback changes nothing, that reports add up and never go back, and that successful calls report 100 percent once and last is proved for all calls; that failing calls stay at or below 95 percent except for parallel calls with approximate (C73_failed_violated: 190 percent, then an error). C73_counts_rows_partial: without approximate the updates but the last add up to exactly 95 percent of the rows that have a time (in one process: if the columns of the features are new). Exact numbers instead of floats; the elapsed time is not modelled; the number of columns made by one call of agg is a parameter (at most one for each feature).
* **C74** Features built by hand are the ones asked for, or refused.
  *Model:* `Model/Build`: the constructors of features, as decisions over schemas. *Proof:* equivalences: acceptance exactly under a specification in terms of chains of relationships; errors; negations. *Status:* partial. Acceptance is characterised exactly for every class; ambiguous requests are refused. The property fails in places: paths that are given are checked at their ends only (C74_given_path_violated), inputs only as far as the shorter list goes (C74_inputs_violated), windows on numeric time indexes always fail (C74_window_violated), negative columns pass (C74_slice_violated), the list given to a group-by feature is changed (C74_groupby_list_violated), features read from a file cannot be used with others (C74_loaded_violated), arguments that do not apply are dropped (C74_ignored_violated).
* **C75** Arguments of feature synthesis mean what they say, or are refused.
  *Model:* `Model/DfsInput`: the arguments as they are written, the library as a list of classes. *Proof:* equivalence of acceptance with a specification of what each argument means (induction over option dicts and entries); errors; negations. *Status:* partial. Acceptance and meaning are characterised exactly (C75_read), for libraries whose names differ in lower case; otherwise the class a text stands for depends on the order of a set (C75_case_violated). Names in primitive_options are not checked and not lowered (C75_option_name_violated), the kind of where primitives is not checked (C75_where_kind_violated), and an unknown option of a primitive given as a class is reported by a TypeError about the message (C75_message_violated). Data in pandas; warnings are left out.
* **C76** Variable types are known by their names.
  *Model:* `Model/VarTypes`: the two regular expressions as scans, the classes as a tree, the dict of types. *Proof:* the two passes against a one-pass rule by induction over the length; injectivity on camel case; the dict as the last class of a type string; negations. *Status:* partial. Proved where type strings differ, which they do for the library's classes (C76_builtin) and for any names in camel case without two capitals in a row (C76_camel_case). Otherwise the class that is found last wins (C76_same_string_violated: IpAddress replaces IPAddress in files). Variables of type Variable come back as Unknown (C76_plain_variable_violated), those of a class of the user named Text as the library's (C76_own_text_violated). Names are ASCII.
* **C77** Primitives are listed and loaded completely.
  *Model:* `Model/Listing`: rows of the list, file names as characters, modules as lists of names, entry points. *Proof:* equivalences by induction over dicts, directories, modules and entry points; negations. *Status:* partial. The list is proved complete for libraries whose names differ in lower case. Files: whether a name is a directory is looked up where the program runs (C77_directories_violated); imported primitive classes count as defined (C77_imports_violated); in the list of an entry point everything after something that is no class is lost, and names of the library can be replaced (C77_entry_points_violated); a path ending with / is an IndexError (C77_empty_name_violated). What running a file leaves in its module is a parameter.
* **C78** Features on Dask entity sets are those on pandas.
  *Model:* `Model/Dask`: the Dask branches of the calculator; order of rows after each merge and partitions of each group are parameters. *Proof:* simulation of the pandas run (induction over the plan): at every node the Dask frame has the same columns and a permutation of the rows; negations. *Status:* partial. Proved for every arrangement that keeps the rows and every aggregation whose Dask version agrees with the primitive (C78_values_partial, C78_same_as_pandas_partial; C78_num_unique is an instance). Unknown ids get no row although pandas gives a row of defaults (C78_unknown_violated); a direct feature of the parent's index is a KeyError (C78_index_feature_violated); group-by features and aggregations of features that need the full entity are refused (C78_groupby_violated, C78_full_entity_violated), aggregations of several columns are a TypeError (C78_several_columns_violated), training windows a ValueError (C78_window_refused). Features of the full entity at the target are shown by an example only (C78_full_at_root_partial). use_previous in observations, divisions, dtypes and the scheduler are not modelled.
* **C79** dfs returns the matrix of the features it lists.
  *Model:* `Model/DfsMatrix`: the features of `Model/Dfs` read as features of `Model/Calculator`, the two steps in sequence. *Proof:* every feature that the synthesis can build satisfies the conditions of C24 and C33 (induction over how it was built), given plain conditions on names, data and primitives; negations. *Status:* partial. Proved for all schemas and arguments, with seed features that can be computed themselves (SeedsComputable), without approximation or with it (C79_approximate_partial, C79_approximate_now_partial; not if a feature computed on a full entity needs features of the entity of an approximated one: C79_approximate_full_entity_violated) and without windows of a number of rows, if columns have different names (NamesApart), the data have proper keys (DataFor) and primitives give what they declare (PrimsOk). Excluded because the code fails there: transforms of one output of an aggregation with several (C79_slice_violated: KeyError), conditions with the name of an input (C70_condition_violated), equal column names (C24).
* **C80** The feature matrix of a Dask entity set is that of the pandas one.
  *Model:* `Model/DaskMatrix`: the Dask branches of `calculate_feature_matrix` and `calculate_chunk`, with the outer merges of the passed columns; the order of rows after each merge is a parameter. *Proof:* every piece is a permutation of the specified rows (induction over the passed columns for the merges), pieces and times are put together as for C33; what the code does differently is shown by concrete calls. *Status:* partial. Proved for calls in one process, for every way Dask may spread and order rows, if ids are given, columns have different names and none is called time when columns are passed (C80_table_partial, C80_single_partial, C80_all_instances_partial; C80_same_as_pandas_partial when all instances are visible; C80_refused). With several workers no call on Dask succeeds (C80_parallel_violated, for all arguments); instances not visible get no row, or missing values instead of defaults if columns are passed (C80_unknown_violated); the cutoff times are not in the result (C80_time_lost); a passed column with the name of a feature splits rows (C80_pass_name_violated); a feature called time is lost (C80_time_column_violated).
* **C81** Encoded features reproduce the encoding.
  *Model:* `Model/Encoded`: the features that the encoding returns as features of `Model/Calculator`, the matrix as the frame that is encoded. *Proof:* the meaning of each returned feature is computed from that of the original one; the rows of the two matrices of C33 are split into the cells of their features and compared with C50; the conditions of C24 on the returned features follow from those on the given ones; negation. *Status:* partial. Proved for cutoff tables and for single cutoff times (C81_single_partial), without approximation, whose instances are visible at their times, if columns have different names; the returned features are calculable under plain conditions (C81_computable_partial). Instances that are not visible get missing values instead of the encoding (C81_not_visible_violated). Dtypes (to_numeric) are not modelled.
* **C82** dfs does not look into the future.
  *Model:* `Model/Pipeline`: `dfs` on an entity set, with what the synthesis and the calculator see of it. *Proof:* the synthesis sees the schema only; the conditions of C60 follow for every feature the synthesis can build, since its paths consist of relationships of the entity set; negation. *Status:* partial. Proved without approximation, or with it if some aggregation is not approximated (C82_approximate_partial; otherwise C60_approximate_violated), for seed features that follow relationships of the entity set, if secondary time indexes hide no keys. Interesting values are counted over all rows, so entity sets that agree up to t may get different features (C82_interesting_violated); the schema in the theorems includes the interesting values.
* **C83** A reloaded entity set gives the same result.
  *Model:* `Model/Pipeline` and `Model/Serialize`. *Proof:* the synthesis uses entities only by looking them up (induction over its recursion), the calculator too; with C15 everything that is looked up is the same; negation. *Status:* partial. Proved for the entity sets of C15 (Describable), with last time indexes as add_last_time_indexes computes them, or none. Renamed variables lose their name and with it the names of features (C83_name_violated).
* **C84** Saved features of dfs keep their meaning.
  *Model:* `Model/SavedDfs`: the features of the synthesis as `save_features` sees them, and what loaded features are for the calculator. *Proof:* every feature the synthesis can build satisfies the conditions of C48 (induction over how it was built) and comes back as it was; the matrix follows with C82; negation. *Status:* partial. C84_well_formed holds for all calls. Proved when seed features are features of the entity set (without use_previous, which is not represented), different features that are used have different full names, no group-by feature is grouped by its own input, and the primitives can be stored (C49). For a group-by feature grouped by its own input, which dfs builds, the claim is false (C84_own_group_violated).
* **C85** A created entity is what was asked for.
  *Model:* `Model/EntitySet`: `entity_from_dataframe` with everything it calls. *Proof:* equivalence of success with a specification of the arguments, and the entity as specified: each step is characterised by an equivalence, put together in the order of the code; the kind of time by cases over the operations. *Status:* proved.
* **C86** Replacing data and changing variables does what it says.
  *Model:* `Model/EntitySet`: `update_data`, `delete_variables`, `convert_variable_type`. *Proof:* equivalences with a specification; negations for descriptions. *Status:* partial. Acceptance and result are characterised exactly. Two details are not as the property says: replacing data makes the variables of index and time index anew, so their descriptions, interesting values and other parameters are lost (C86_description_lost_violated); so does converting a variable (C86_convert_description_violated).
* **C87** Names identify features and columns.
  *Model:* `Model/Names`: the names of all kinds of features, of their outputs and of relationships. *Proof:* a tree of what a name says; the text determines the tree (induction with everything that may follow a name), the tree determines the feature (induction over how it was made); negations. *Status:* partial. Proved for features of any depth made from a clear vocabulary: identifiers without the characters names use, primitives told apart by upper-case name and arguments, no two relationships to and fro between two entities; primitives that make up their own names (operators, IsIn, Haversine) are left out except comparison with a value in a condition. Without these conditions the claim is false of the code: two relationships of an entity to itself (C87_self_relationships_violated), relationships to and fro (C87_two_way_violated), points in identifiers (C87_point_violated), names differing in case (C87_case_violated), outputs of features taken over (C87_slices_violated).
* **C88** dfs answers every request that makes sense.
  *Model:* `Model/Dfs`, `Model/DfsRun`: the whole synthesis, with the check of input types. *Proof:* the run answers: induction over the recursion, each step answers from a state in which every recorded feature belongs to its entity; the inputs that are matched have the types of the primitive, so the check passes; negations where the order of the inputs is changed. *Status:* partial. Proved for all schemas, primitives and arguments (C88_answers_partial), refusals exactly (C88_refused). Excluded because the code raises there: commutative primitives with inputs of different types (C88_commutative_violated: AssertionError) and primitives with base_of_exclude (C44_base_of_exclude_violated: AttributeError).
* **C89** Last time indexes stay right when data changes.
  *Model:* `Model/ConcatLast`: `concat` and `update_data` followed by `add_last_time_indexes`. *Proof:* the loop comes to exactly the entities below those it starts from (invariant), and all it comes to are right (C12); times of entities not above a changed one do not depend on it (induction over how a row is observed); negation. *Status:* partial. Proved under Orderly (see C12) for concat, and for update_data of entities with a last time index or without timed parents; refuted for update_data of an entity without a last time index whose parents have one (C89_update_stale_violated).
* **C90** What is saved is found where it was saved.
  *Model:* `Model/Places`: the tests on paths, directories and archives on the disk and elsewhere, on top of `Model/Disk`; `tarfile`, `smart_open` and JSON texts are parameters or taken to keep what they hold. *Proof:* cases of the tests on paths, with C16 for what is read; equivalences for what is refused; negations for names that are taken for something else. *Status:* partial. Proved for all paths except directories whose name ends in .tar (written but not readable, C90_tar_directory_violated), local names starting with http (refused, C90_http_directory_violated) and feature files whose name is itself JSON (C90_features_location_violated).
* **C91** Pictures and texts of an entity set show it.
  *Model:* `Model/Plot`: `plot`, `__repr__` and the writing of pictures; of `graphviz`: boxes, arrows, the meaning of colons and `render`. *Proof:* equivalences with the texts; injectivity by splitting texts at the first separator (induction over lists of entities, variables, lines); negations for names with separators and for path objects. *Status:* partial. Boxes, arrows, texts and files exact. Telling entity sets apart is proved for names without the characters used as separators; other names violate it (C91_names_violated, C91_colon_violated). Path objects always raise (C91_path_violated).
* **C92** The objects of the package work in lists, sets and dictionaries.
  *Model:* `Model/Keys`: `__eq__` and `__hash__` of relationships, paths, variables, entities and features; of Python: `in`, `set`; hashes are parameters. *Proof:* that equality is an equivalence the hash respects, then induction over the members; negations for entities and features. *Status:* partial. Relationships, paths (lists), variables: exact. Entities in sets: if one text object stands for each id (C92_entities_violated otherwise). Features in sets: those of one entity and of one output, for texts without hash collisions (C92_feature_sets_violated otherwise); in lists the claim is false (C92_feature_lists_violated).

## 6. Findings

Places where the code does not do what the property (or its documentation) says. Where a theorem is named, it proves the
deviation about the model with a concrete witness.

Entity sets

* C04 `C04_reused_id_violated`: creating an entity under an id that exists replaces the entity and leaves relationships that do not
  fit it.
* C05: `es.metadata` is stale after `Entity.delete_variables`, after `Entity.convert_variable_type` and after a refused
  relationship (three theorems `C05_..._violated`).
* C06: the index of the base entity can be named among the columns to move.
* C07 `C07_failure_sets_time_type`, `C07_failed_update_violated`: a failed creation can set the time type of the entity set; a
  failed `update_data` leaves a frame with repeated index values.
* C11 `C11_chained_secondary_leaks`: when a secondary time column is governed by another secondary time index it is blanked first
  and then nothing is hidden by it. Also, cells are hidden at the cutoff itself although rows at the cutoff are shown.
* C12: four theorems `C12_..._violated`: a missing time hides other times; of two relationships between a pair of entities one is
  ignored; times before 1800; the computation never ends on a cycle of relationships.
* C13 `C13_made_index_violated`: entity sets with an index made by `make_index` cannot be concatenated.
* C14: equality is not symmetric when one side has more relationships; deep equality ignores the cells of non-empty frames.
* C15: names of variables, values of Boolean variables and secondary time indexes without a time index do not survive a
  description (three theorems).
* C16 `C16_overwrite_violated`: a crash while saving over an older version can leave a readable mixture of both.
* C17: versions are compared as text ("10" < "9"), and a version that extends another one crashes the loader.
* C18: "1 Day 2 Hours"-like names collide; date offsets do not survive `get_arguments`. C19: upper-case units are rejected, a
  trailing newline is accepted.

Computing

* C23: slices are computed before the multi-output aggregation they belong to; aggregations with different multi-unit windows are
  put into one group.
* C24, C28, C29: a renamed identity feature is an `AssertionError`; a condition that is also a base feature is dropped from the
  arguments; two direct features with one base column are a `KeyError`; two relationships between a pair of entities below the
  first step of a path are a `KeyError`.
* C27 `C27_repeats_violated`: an unknown id requested twice is a `ValueError`.
* C33 `C33_missing_time_violated`, `C33_pass_name_violated`: a row of the cutoff table without a time gets neither values nor its
  passed cells; a passed column named like a feature overwrites the feature.
* C32: with workers and no chunk size, the number of rows of a chunk is the share of one worker, and for one worker the chunk size
  becomes one row (`_handle_chunk_size(1.0 / n)` gives 1.0, which is read as a number of rows).
* C34: an integer `approximate` does nothing (true division), several units give no times at all. With approximation, passed
  columns called `target_time` are overwritten and `_original_time` fails (`C34_pass_names_violated`).
* C34 `C34_full_entity_violated`: with `approximate`, `customers.SUM(..)` and `customers.CUM_SUM(SUM(..))` requested together: the
  running sum is taken over the customers that other rows of the bin happen to have. `gather_approximate_features` asks whether a
  full-entity feature depends on the direct feature, not on the aggregation it takes out of the computation. Deep Feature Synthesis
  builds such pairs of features by itself (C79 `C79_approximate_full_entity_violated`).
* C34: with `approximate`, an aggregation of several outputs is a `KeyError` if no row of a bin has a parent
  (`C34_multi_output_violated`); an entity linked by its own index is a `KeyError` (`C34_own_index_violated`); an unknown instance with
  two rows in a bin is a `ValueError` (`C34_unknown_instance_violated`).
* C60: with `approximate`, if every aggregation of the call is approximated, all other features are computed with the data there
  is now, so a row shows values from after its cutoff.
* C36: file names use a 12-hour clock, so results for 9 am and 9 pm overwrite each other; a single cutoff time ignores
  `save_progress`.
* C38: a cutoff table for an entity whose index is called `time` is misread.

Deep Feature Synthesis

* C40: three ways to exceed `max_depth` (conditions are not counted, features reached by a shortcut, slices).
* C41: ignoring is by variable name only, and rows of ignored entities still link others.
* C43: `replace` with `commutative` repeats choices. C44: `base_of_exclude` raises `AttributeError`; a slice of a seed direct
  feature of a multi-output transform gets around the stacking rule.
* C46: conditions are not filtered by primitive options; the group-by check of `require_direct_input` looks at a tuple.
* C61: with a depth limit what is found depends on the order of the relationships: an entity is visited once, with the budget of the
  path that reaches it first, so in one order a region gets the sum of its sales and in the other no feature at all. A group-by
  primitive never groups by a feature of a parent unless an input is one too (the tuple again).
* C47: names are not unique across entities, so a used primitive can be reported as unused; so can a primitive given in another
  case.

Files

* C48: a group-by feature that is also an input is dropped from the inputs on loading; features with one full name are conflated.
* C49: a class defined twice; an argument `True` is not saved where the default is `1`.

Columns and values

* C50: an indicator column overwrites a column of the same name; `drop_first` with a dict is a `TypeError`; negative `top_n`.
* C51: a column exactly at the threshold is removed; `remove_low_information_features` drops the feature of several outputs but
  keeps its columns.
* C52: which column of a pair goes depends on the order of `features_to_check`.
* C55: the unit of time of Trend depends on the first row. C56: categories that never occur become interesting values.
* C57: window and start do not reach the cutoff; a lone number of points is accepted.
* C58: the type of an empty column is the one of the column before it; above 10000 rows it depends on a random sample.
* C59: a year is not twelve months.

Operators

* C63: `SubtractNumeric` is marked as commutative, so Deep Feature Synthesis offers `a - b` but not `b - a`. `And` and `Or` with
  a missing boolean depend on the order: `np.logical_and` on objects is Python's `and`, and NaN counts as true.
* C64: names have no parentheses: `(a + b) * c` and `a + (b * c)` are both called `a + b * c`. Text scalars are not quoted:
  `c == "d"` and `c == d` are both called `c = d`. Everything that goes by names (feature sets, saved files, columns of the matrix)
  takes them for one feature.

Descriptions

* C65: the condition is always written as `where x is v`, so `WHERE device = phone` and `WHERE device != phone` have one
  description; a condition without a scalar (`AttributeError`) or on a boolean column (`IndexError`) cannot be described; a scalar
  with a brace breaks its own template; an empty custom description is a `TypeError`; features are looked up by name and entity id
  written one after the other, and one with the same text in another entity is an `AssertionError`; an output of a group-by feature
  lists the grouping as an input; an output of a direct feature is described as "output from applying PrimitiveBase"; the custom
  description of a direct feature is ignored if another direct feature is built on it.

Transform primitives

* C26: `TimeSincePrevious` looks at the row before but, unlike `Diff`, is not marked `uses_full_entity`, so its values depend on
  which instances are asked for together, on chunk boundaries and on the number of workers.
* C66: `Week` gives ISO weeks: 2021-01-01 is in week 53, although the documentation says that the first week starts on January 1.
  `NumWords` counts spaces: a missing or empty text has one word, and every extra space adds one. `replace_latlong_nan` builds its
  replacement with the labels 0, 1, ..., so a missing coordinate in a row with another label stays and raises `TypeError`.

Statistics

* C68: `Std` returns `np.std`. Called on a series it divides by the number of cells; in a feature matrix `groupby.agg` replaces
  `np.std` by the method `std` of pandas, which divides by one less, so the primitive and the matrix differ on all cells that are
  not all equal, and a group of one cell has the deviation 0 in one and none in the other.
* C68: `Mean(skipna=False)` has no effect with Dask and Koalas.

Primitives made from functions

* C69: the keyword arguments of a primitive made by `make_agg_primitive` or `make_trans_primitive` are in `**kwargs` of its
  constructor, which `get_arguments` skips. So they are neither in feature names nor in saved features: two features with different
  arguments have one name, and a loaded feature silently computes with the defaults.
* C69: a default on a parameter that takes a column makes every call a `TypeError` (multiple values). The default value for
  instances without data is inferred with the defaults, whatever the primitive is built with. `cls_attributes` such as `stack_on` or
  `commutative` are overwritten. Unknown keywords are noticed at the first call only.

Aggregation in one pass

* C70: functions are passed to `groupby.agg` under the `id` of the function object, a second use being wrapped; but `Count` is passed as
  the text `"count"`. Two count features of one input (such as a feature and its renamed copy, in one entity with the same condition
  and window) therefore share a column name: the first one is missing in the result and the calculation of the matrix fails.
  The theorems about feature matrices (C24 and following) take `groupby.agg` as calling each function: C70 is the proof that this is so
  otherwise.
* C70: an input that is also the condition is not counted by `_can_agg`: a function of two inputs is then called with one column.

Entry points

* C71: exceptions of registered handlers are not contained. One that raises in `on_call` keeps `dfs` from running, one that raises in
  `on_return` throws away a feature matrix that is finished, and one that raises in `on_error` hides the error.
* C71: `except Exception` does not see `KeyboardInterrupt`, so handlers are not told how such a call ended.

Lineage graphs

* C72: the depth of a group-by feature is dropped (`_ = get_feature_data(groupby, ...)`), so the graph of a cumulative feature grouped by
  a calculated feature says "Step 0". A feature used at two distances is numbered by its first use: an input can have a later step than
  what uses it.
* C72: diamonds are named by distance, feature and primitive, without the entity. Features of the same name in two entities (such as
  the day of `customers.date` and of `products.date`) at the same distance share one diamond, and the drawing mixes up their inputs.
* C72: whether a feature is known already is decided by its name, so a feature renamed to the name of a column is left out with all
  that it is calculated from.
* C73: in parallel runs the bar moves by the number of rows a worker returns. With `approximate`, an unknown instance with k rows in one
  bin returns k times k rows: the callback is told more than 100 percent, then the call fails.
* C32: the same cutoff table gives a matrix if its rows fall into different chunks (more workers, a smaller `chunk_size`), and a
  `ValueError` otherwise.

Features built by hand

* C74: `AggregationFeature(..., relationship_path=p)` looks at the direction of all steps and at the two ends of `p` only. Relationships
  that do not join, or that are not in the entity set, are accepted.
* C74: `use_previous` on an entity with a numeric time index raises `AttributeError`: `_check_time_against_column` reads `time.unit` and
  `Timedelta._time_units`, which do not exist.
* C74: `_check_input_types` zips the signature with the inputs, so a call with too few or too many inputs is accepted.
* C74: `GroupByTransformFeature` appends the group to the list of the caller.
* C74: `feature[-4]` of a feature with three columns is accepted and fails when its name is asked for.
* C74: `Entity.__hash__` is the address of the id. A feature that was read from a file and a new feature of the same entity are "not of
  the same entity".
* C74: `Feature(variable, parent_entity=e, where=w)` without a primitive is the identity feature; the other arguments are dropped. A
  transform primitive (as an object) with a parent entity is a `TypeError` of `issubclass` instead of the assertion.

Arguments of feature synthesis

* C75: names in `primitive_options` are compared with `primitive.name` as they are. Options for `"SUM"`, or for a misspelt name, are
  accepted and never used, though `agg_primitives=["SUM"]` works.
* C75: the kind of the elements of `where_primitives` is not checked.
* C75: the message about an unknown option joins the keys as texts; with a class or an instance as key it fails with a `TypeError` of
  its own.
* C75: `get_aggregation_primitives` makes a dict from names in lower case by walking through a set. Of two classes whose names differ
  in their case only, one is unreachable by name, and which one it is can change from run to run.

Variable types

* C76: `find_variable_types` keeps one class per type string, the last one found. A user's class `IpAddress` (or one with the name of a
  library class in another module) silently replaces the library's `IPAddress` in `variable_types` and in loaded entity sets.
* C76: `Variable` is not found by its type string: variables of this type are saved as `variable` and loaded as `Unknown`, with a
  warning only.
* C76: `Text` is put on top of the dict, so a user's class of that name is loaded as the deprecated one.

Listing and loading primitives

* C77: `list_primitive_files` calls `os.path.isdir` on the bare name, relative to the working directory. Directories called `x.py` are
  listed; files are left out if the working directory has a directory of that name.
* C77: `load_primitive_from_file` counts every global that is a primitive class. A file that imports `Sum` to extend it has "more than
  one primitive"; one that imports `PrimitiveBase` too, since only the two other bases are excepted.
* C77: at import, an element of an entry point's list that is no class ends the loop silently (`issubclass` raises, the exception is
  dropped); primitives after it are missing. A registered class with the name of a library class replaces it for everyone.

Dask entity sets

* C78: an id that is not in the data gets a row of defaults with pandas and no row with Dask.
* C78: `_calculate_direct_features` renames the columns of the parent before merging; a direct feature of the parent's index renames
  away the column that the merge needs, a `KeyError` about the parent variable.
* C78: group-by features fail with a `TypeError` from inside the handler (`if df.shape[0] == 0` on a lazy number), not with a
  message that they are not supported. `dfs` does not create them, but nothing stops one from being built by hand.
* C78: aggregations that several columns or outputs need end in `pd.merge` with a Dask frame, a `TypeError`.

The matrix of a synthesis

* C79: `dfs` builds transforms of single outputs of an aggregation of several outputs; the calculation then looks up a column that is
  not there yet or any more (`KeyError`, `C79_slice_violated`): the slice counts as an aggregation when the plan is ordered, its name
  is not what the plan stores (same cause as `C23_slice_of_aggregation_first`).

* C24: one output of a feature with several outputs (`feature[0]`) cannot be calculated on its own: of a transform it is an unknown
  feature type, of an aggregation a `KeyError` (`C24_slice_target_violated`). As a base of other features it works.

The matrix on Dask

* C80: with `n_jobs` other than 1 every call fails: `parallel_calculate_chunks` puts the parts together with `pd.concat`, which takes no
  Dask frames. Nothing checks this before the calculation.
* C80: without passed columns, instances that are not visible have no row; with passed columns they have one, with missing values where
  pandas has the defaults (0 for counts).
* C80: the cutoff times are not part of the result and `cutoff_time_in_index` is ignored, so that two times of one instance cannot be
  told apart.
* C80: the merge of a passed column is on all common columns. With the name of a feature, rows whose cells differ fall into two.
* C80: a column `time` is added for the merges and dropped after them, also if it is a feature.

Encoded features

* C81: for an instance that is not visible at its cutoff time `encode_features` says `is unknown`, while the features it returns give
  missing values: transform features have the default NaN. The two matrices differ in these rows (`C81_not_visible_violated`).

`dfs` on entity sets

* C82: `add_interesting_values` counts the values of all rows. Conditions on values that occur only after the cutoff time become features,
  so the columns of a matrix for an early time tell what happens later (`C82_interesting_violated`).
* C83: the name given to a variable is written and not read (C15), and features carry it: after reloading `dfs` returns features with
  other names (`C83_name_violated`).
* C84: `dfs` builds features such as `CUM_COUNT(shop) by shop`, grouped by their own input. `get_arguments` leaves the input out, so the
  loaded feature has the same name and no input, and its function is called without arguments (`C84_own_group_violated`).

Entities

* C86: `update_data` sets index and time index again, which makes their variables anew: descriptions, interesting values and other
  parameters are lost (`C86_description_lost_violated`). The same for `convert_variable_type` (`C86_convert_description_violated`).

Names

* C87: `has_unique_forward_path` from an entity to itself finds the empty path only, so aggregations over two relationships of an entity to
  itself are all called after the entity: the number of employees managed and of those mentored are both `COUNT(employees)`
  (`C87_self_relationships_violated`).
* C87: a path down and a step up are written the same way. With employees in departments and departments with heads,
  `SUM(employees.departments.budget)` is the name of two different features of companies (`C87_two_way_violated`).
* C87: identifiers are not quoted: a variable `customers.age` reads like the age of the customer (`C87_point_violated`). The names of
  primitives are made upper case (`C87_case_violated`). An output of a feature taken over and the feature of the output taken over have one
  name, and equal values (`C87_slices_violated`).

Answers

* C88: the inputs matched for a commutative primitive are sorted by name and then checked against the types of the primitive one by one. If
  these differ, `dfs` raises an `AssertionError` for schemas where the names are in the other order (`C88_commutative_violated`).
* C65: a description whose input is empty reads "None" (`C65_emptyInput_violated`).

Last time indexes when data changes

* C89 `C89_update_stale_violated`: `update_data` works out last time indexes anew only if the entity itself has one. For an entity created
  after `add_last_time_indexes`, the last time indexes of its parents stay as they were.
* C89 `C89_concat_new_partial`: concatenating two entity sets without last time indexes gives every entity one, since an empty list of
  entities to update means all.

Places

* C90 `C90_http_directory_violated`: a local path that starts with `http`, like `httpd_logs/es`, is taken for a URL; nothing can be saved there.
* C90 `C90_tar_directory_violated`: an entity set saved to a directory whose name ends in `.tar` cannot be read: `tarfile.is_tarfile` raises
  for directories.
* C90 `C90_features_location_violated`: features saved in a file whose name is a JSON text (`2020`, `true`) cannot be loaded by that name.

Pictures

* C91 `C91_path_violated`: `get_graphviz_format` converts a path object to text, but `save_graph` slices what was given, so `plot`,
  `graph_feature` and `graph_variable_types` raise a `TypeError` for every path object.
* C91 `C91_colon_violated`: the arrow to an entity with a colon in its name leads to a box that stands for no entity.
* C91 `C91_names_violated`: names are not escaped; different entity sets can have the same picture.
* C04 `C04_no_relationships_violated`: `add_relationships([])` raises an `IndexError`.
* C92 `C92_entities_violated`: the hash of an entity is the address of its id, so an entity of an entity set that was read from a file is
  equal to the original and yet not found in a set that has it.
* C92 `C92_feature_lists_violated`: `feature in features` is true for every list of features of the entity that is not empty, since `==`
  builds a feature.
* C92 `C92_feature_sets_violated`: the hash of a feature runs its name and entity together; asking for `ab` of `c` in a set that has `a` of
  `bc` raises an `AssertionError`.
* C12 on Dask: the Dask branch of `add_last_time_indexes` takes the maximum of the times that are there, so the same data has
  other last time indexes than on pandas when a child row has none (`C12_dask_pandas_differ_violated`). Index values are not
  checked to be distinct on Dask, and rows that share one exchange their times (`C12_dask_duplicate_index_violated`).
