{"id": "C01", "title": "Forward paths are exactly the cycle-free relationship chains", "statement": "EntitySet.find_forward_paths(a, b) yields a list of relationships iff it is a chain of child-to-parent relationships of the entity set that starts at a, ends at b and never visits an entity twice; with no duplicate relationships each such chain is yielded once. The enumeration terminates on every entity set, including cyclic and self-referential ones.", "quantifier": "every relationship list (any size, cycles, parallel relationships, self loops) and every pair of entity ids", "why_tests_cant": "Tests enumerate a handful of schemas; completeness and termination are claims about all graphs.", "anchors": ["featuretools/entityset/entityset.py:EntitySet.find_forward_paths", "featuretools/entityset/entityset.py:EntitySet._forward_entity_paths", "featuretools/entityset/entityset.py:EntitySet.get_forward_relationships"]}
{"id": "C02", "title": "Backward paths mirror forward paths, and path uniqueness is decided correctly", "statement": "find_backward_paths(a, b) yields exactly the reversals of find_forward_paths(b, a). has_unique_forward_path(a, b) raises when there is no forward path, returns True when there is exactly one and False when there are several.", "quantifier": "every entity set and pair of entity ids", "why_tests_cant": "Depends on the number of simple paths in an arbitrary multigraph.", "anchors": ["featuretools/entityset/entityset.py:EntitySet.find_backward_paths", "featuretools/entityset/entityset.py:EntitySet.has_unique_forward_path"]}
{"id": "C03", "title": "Deep forward/backward entity enumeration lists every path on acyclic schemas", "statement": "On an acyclic schema get_forward_entities(e, deep=True) (resp. get_backward_entities) yields exactly the pairs (entity, non-empty directed relationship path from e to it) and terminates; with deep=False exactly the one-step pairs. On a cyclic schema the deep enumeration never ends.", "quantifier": "every relationship list and start entity", "why_tests_cant": "Termination depends on acyclicity of an arbitrary graph.", "anchors": ["featuretools/entityset/entityset.py:EntitySet.get_forward_entities", "featuretools/entityset/entityset.py:EntitySet.get_backward_entities", "featuretools/entityset/relationship.py:RelationshipPath"]}
{"id": "C04", "title": "Relationship list stays well-formed under every history of schema operations", "statement": "After any sequence of entity_from_dataframe, add_relationship, normalize_entity and delete_variables calls (failing calls included), the entity set holds no duplicate relationship, every relationship names entities that exist, its parent variable is the parent's index and its child variable is not the child's index; a rejected add_relationship leaves the list of relationships unchanged.", "quantifier": "every history of operations with every argument", "why_tests_cant": "Invariant over unbounded histories.", "anchors": ["featuretools/entityset/entityset.py:EntitySet.add_relationship", "featuretools/entityset/relationship.py:Relationship.__init__", "featuretools/entityset/entityset.py:EntitySet.normalize_entity"]}
{"id": "C05", "title": "The metadata view always describes the current schema", "statement": "After any sequence of API calls es.metadata describes the same entities, variables, types and relationships as es itself.", "quantifier": "every interleaving of schema-changing calls and metadata reads", "why_tests_cant": "The view is cached; staleness only shows after particular read/write interleavings.", "anchors": ["featuretools/entityset/entityset.py:EntitySet.metadata", "featuretools/entityset/entityset.py:EntitySet.reset_data_description", "featuretools/entityset/entity.py:Entity.delete_variables", "featuretools/entityset/entity.py:Entity.convert_variable_type"]}
{"id": "C06", "title": "normalize_entity preserves information and referential integrity", "statement": "After normalize_entity the new entity has one row for each distinct value of the index column of the base entity, its carried columns hold the value from the first base row with that key, every base row links to exactly one new row, the base entity keeps its rows and its other columns, and when the moved columns are functions of the key, joining back reproduces the original table exactly.", "quantifier": "every base table and every choice of index, additional and copied columns", "why_tests_cant": "Losslessness is a claim about all tables.", "anchors": ["featuretools/entityset/entityset.py:EntitySet.normalize_entity"]}
{"id": "C07", "title": "Every entity index is unique; make_index numbers rows 0..n-1", "statement": "Creating an entity succeeds only if its index values are pairwise distinct, and with make_index=True the index is a new column 0..n-1 in row order; an existing column of that name is an error; an entity id/index/time-index validation failure leaves the entity set unchanged.", "quantifier": "every dataframe, index name and make_index flag", "why_tests_cant": "Uniqueness over arbitrary data; decision table with all flag combinations.", "anchors": ["featuretools/entityset/entity.py:_create_index", "featuretools/entityset/entity.py:Entity.set_index", "featuretools/entityset/entity.py:Entity.__init__"]}
{"id": "C08", "title": "Value queries return exactly the matching rows in original order", "statement": "query_by_values returns all rows when no values are given, none for an empty value list, and otherwise exactly the rows whose queried column holds one of the given non-null values, in table order, without duplication, restricted to the requested columns; repeating or reordering the requested values changes nothing.", "quantifier": "every table, column and list of values", "why_tests_cant": "Order and multiplicity must hold for all inputs.", "anchors": ["featuretools/entityset/entityset.py:EntitySet.query_by_values", "featuretools/entityset/entityset.py:_vals_to_series"]}
{"id": "C09", "title": "A cutoff time hides exactly the later rows", "statement": "With a cutoff t, a query on an entity with a time index returns exactly the rows with time <= t (include_cutoff_time=True) or < t (False); rows without a time are hidden; entities without a time index are unaffected; moving the cutoff later never hides a visible row.", "quantifier": "every table, cutoff and flag", "why_tests_cant": "Boundary conditions for all times.", "anchors": ["featuretools/entityset/entityset.py:EntitySet._handle_time"]}
{"id": "C10", "title": "A training window keeps exactly the rows inside it", "statement": "With training window w, a visible row is kept iff its own time is in (t-w, t] (or [t-w, t) when the cutoff is excluded), or its last_time_index is inside the window's lower bound when last time indexes are set; a larger window keeps a superset; consecutive windows of equal width partition the rows.", "quantifier": "every table, cutoff, window and flag", "why_tests_cant": "Boundary conditions for all times.", "anchors": ["featuretools/entityset/entityset.py:EntitySet._handle_time"]}
{"id": "C11", "title": "Secondary time indexes hide not-yet-known columns", "statement": "For each secondary time index, the associated columns of a row are null in a query at cutoff t iff the secondary time is at or after t, and all other cells are unchanged. (The documentation's include_cutoff_time=True promises data at the cutoff is usable.)", "quantifier": "every table, cutoff, flag and secondary index map", "why_tests_cant": "Cell-level non-interference for all data.", "anchors": ["featuretools/entityset/entityset.py:EntitySet._handle_time", "featuretools/entityset/entity.py:Entity.set_secondary_time_index"]}
{"id": "C12", "title": "last_time_index is the latest time over an instance and all its descendants", "statement": "After add_last_time_indexes, the last time index of each instance is the maximum over its own time and the times of all rows reachable through backward relationships, null if there are none; the order in which entities are listed does not matter.", "quantifier": "every acyclic entity set and every dataset", "why_tests_cant": "Fixpoint over arbitrary graphs.", "anchors": ["featuretools/entityset/entityset.py:EntitySet.add_last_time_indexes"]}
{"id": "C13", "title": "concat merges two entity sets by index, first one wins", "statement": "concat keeps for each entity one row per index value, taking the row of self when both have it, loses no index value of either, is idempotent, and orders rows by (time, index) when there is a time index.", "quantifier": "every pair of compatible entity sets", "why_tests_cant": "Law over all data.", "anchors": ["featuretools/entityset/entityset.py:EntitySet.concat"]}
{"id": "C14", "title": "EntitySet equality is an equivalence and deep equality compares data", "statement": "es1 == es2 is reflexive, symmetric and transitive; it is False when entities, variables or relationships differ; with deep=True it is False when data differ.", "quantifier": "every pair/triple of entity sets", "why_tests_cant": "Algebraic laws.", "anchors": ["featuretools/entityset/entityset.py:EntitySet.__eq__", "featuretools/entityset/entity.py:Entity.__eq__", "featuretools/utils/wrangle.py:_dataframes_equal"]}
{"id": "C15", "title": "Entity set descriptions round-trip", "statement": "Reading back the description written by to_dictionary/to_csv/to_parquet gives an entity set equal to the original one: same entities, variables with types and properties, index, time index, secondary time index, relationships.", "quantifier": "every entity set", "why_tests_cant": "Round-trip law.", "anchors": ["featuretools/entityset/serialize.py:entityset_to_description", "featuretools/entityset/deserialize.py:description_to_entityset", "featuretools/variable_types/variable.py:Variable.to_data_description"]}
{"id": "C16", "title": "A crash while saving never yields a readable but wrong entity set", "statement": "If the process stops at any point while writing an entity set to disk, reading the location back either fails or returns the entity set being saved (or, when overwriting, the complete previous one).", "quantifier": "every crash point, every previous content of the directory", "why_tests_cant": "Crash points cannot be enumerated by unit tests.", "anchors": ["featuretools/entityset/serialize.py:dump_data_description", "featuretools/entityset/deserialize.py:read_data_description"]}
{"id": "C17", "title": "Schema version checking orders versions numerically", "statement": "Loading a description saved with a newer schema version warns, an older major version warns that loading may fail, and the current one is silent; versions compare component-wise as numbers and no version string crashes the loader.", "quantifier": "every pair of version strings", "why_tests_cant": "All numerals, including multi-digit components.", "anchors": ["featuretools/utils/gen_utils.py:check_schema_version"]}
{"id": "C18", "title": "Timedelta serialization, negation and naming", "statement": "Timedelta.from_dictionary(td.get_arguments()) == td; -(-td) == td; every documented unit spelling maps to its canonical unit; distinct timedeltas have distinct display names (feature names rely on them).", "quantifier": "every timedelta, single or multi unit", "why_tests_cant": "Round-trip and injectivity laws.", "anchors": ["featuretools/entityset/timedelta.py:Timedelta"]}
{"id": "C19", "title": "Timedelta strings parse to the written value and unit", "statement": "A string '<n><unit>' or '<n> <unit>' is read as Timedelta(n, unit); malformed strings are rejected with an error instead of being silently misread.", "quantifier": "every string", "why_tests_cant": "Parser over all strings.", "anchors": ["featuretools/utils/wrangle.py:_check_timedelta"]}
{"id": "C20", "title": "Trie behaves as a map from paths", "statement": "Reading a trie at a path returns the last value stored at this path or the default; storing at one path does not change another; iteration yields each stored node exactly once, parents before children.", "quantifier": "every history of reads/writes on every path", "why_tests_cant": "Refinement over histories.", "anchors": ["featuretools/utils/trie.py:Trie"]}
{"id": "C21", "title": "Feature dependencies and depth are the transitive closure", "statement": "get_dependencies(deep=True) lists exactly the features reachable through base features and where clauses; get_depth is 0 for identity features and 1 + the maximal depth of the direct dependencies otherwise; ignored features and what only they need are left out.", "quantifier": "every feature graph", "why_tests_cant": "Unbounded feature depth.", "anchors": ["featuretools/feature_base/feature_base.py:FeatureBase.get_dependencies", "featuretools/feature_base/feature_base.py:FeatureBase.get_depth"]}
{"id": "C22", "title": "The computation plan contains every dependency at the right path", "statement": "For a list of features the plan assigns a feature name to the node of a relationship path iff that feature is a (transitive) dependency of a requested feature reached along this path and not hidden behind an approximated feature; at each node the full-entity and the other features are disjoint, and a feature needed by a full-entity feature is in the full-entity part with every node on the way marked full.", "quantifier": "every list of features and approximated features, in every insertion order", "why_tests_cant": "Quantifies over all feature DAGs and insertion orders.", "anchors": ["featuretools/computational_backends/feature_set.py:FeatureSet._build_feature_trie", "featuretools/computational_backends/feature_set.py:FeatureSet._add_feature_to_trie"]}
{"id": "C23", "title": "Features are grouped in dependency order and only with alike features", "statement": "group_features returns a partition of the given features; a same-entity dependency appears in an earlier group than its dependent; all features in a group share feature type, relationship path, where clause, use_previous, full-entity use and groupby.", "quantifier": "every set of features closed under same-entity dependencies", "why_tests_cant": "All DAG shapes.", "anchors": ["featuretools/computational_backends/feature_set.py:FeatureSet.group_features", "featuretools/computational_backends/feature_set.py:FeatureSet._get_feature_depths", "featuretools/computational_backends/feature_set.py:_get_use_previous"]}
{"id": "C24", "title": "Calculated values equal the definition of the feature", "statement": "For each requested instance that is visible, each value in the computed matrix is the value given by the compositional definition of the feature over the rows visible at the cutoff: identity = cell, direct = value of the linked parent (default when missing), aggregation = primitive over the linked, where-filtered, use_previous-filtered descendants (default when none), transform = primitive on the row (or on the full visible entity), groupby transform = primitive on rows with the same group value.", "quantifier": "every entity set, every feature graph, every instance list, cutoff and window, every primitive", "why_tests_cant": "The denotational claim covers unbounded nesting and all data.", "anchors": ["featuretools/computational_backends/feature_set_calculator.py:FeatureSetCalculator.run", "featuretools/computational_backends/feature_set_calculator.py:FeatureSetCalculator._calculate_features_for_entity"]}
{"id": "C25", "title": "No information from after the cutoff leaks into a feature", "statement": "Two entity sets that agree on the rows visible at the cutoff (and on cells not hidden by secondary time indexes) give the same feature values at that cutoff, for every feature.", "quantifier": "every pair of entity sets, every feature graph, cutoff and primitive", "why_tests_cant": "Non-interference is a two-run property over all data.", "anchors": ["featuretools/computational_backends/feature_set_calculator.py:FeatureSetCalculator", "featuretools/entityset/entityset.py:EntitySet._handle_time"]}
{"id": "C26", "title": "An instance's values do not depend on the other instances requested", "statement": "Computing a list of instances together or in any split into batches, in any order, gives the same values for each instance at the same cutoff.", "quantifier": "every instance list, every split, every feature graph", "why_tests_cant": "All batchings.", "anchors": ["featuretools/computational_backends/feature_set_calculator.py:FeatureSetCalculator.run", "featuretools/computational_backends/calculate_feature_matrix.py:calculate_chunk"]}
{"id": "C27", "title": "The matrix has one row for each requested instance, in order, and one column for each feature output", "statement": "run returns the distinct requested ids in request order with the columns of the requested features in order; ids that are not visible get the features' default values.", "quantifier": "every instance list, including unknown and repeated ids", "why_tests_cant": "All inputs.", "anchors": ["featuretools/computational_backends/feature_set_calculator.py:FeatureSetCalculator.run", "featuretools/computational_backends/feature_set_calculator.py:FeatureSetCalculator.generate_default_df"]}
{"id": "C28", "title": "Aggregation features see exactly their group", "statement": "An aggregation receives exactly the rows that link (through the path) to the instance, satisfy the where clause and lie in the use_previous window (time >= cutoff - td, or the last n rows), in table order; no rows gives the primitive's default; null results are replaced by the default.", "quantifier": "every table, path, where, use_previous, primitive", "why_tests_cant": "Grouping semantics over all data.", "anchors": ["featuretools/computational_backends/feature_set_calculator.py:FeatureSetCalculator._calculate_agg_features", "featuretools/computational_backends/feature_set_calculator.py:agg_wrapper"]}
{"id": "C29", "title": "Direct features look up the linked parent", "statement": "A direct feature's value is the base value of the parent row whose index equals the child's foreign key; null or dangling keys give the default; the number and order of child rows is unchanged.", "quantifier": "every pair of tables", "why_tests_cant": "Join semantics over all data.", "anchors": ["featuretools/computational_backends/feature_set_calculator.py:FeatureSetCalculator._calculate_direct_features"]}
{"id": "C30", "title": "Groupby transforms act within their group only", "statement": "A groupby transform feature of a row depends only on the rows with the same group value; rows with a null group value get the default; row order is preserved.", "quantifier": "every table and primitive", "why_tests_cant": "All partitions of all tables.", "anchors": ["featuretools/computational_backends/feature_set_calculator.py:FeatureSetCalculator._calculate_groupby_features"]}
{"id": "C31", "title": "Chunking partitions the cutoff rows and respects the size", "statement": "Splitting cutoff times into chunks yields non-empty chunks of at most chunk_size rows with a single cutoff time, whose concatenation per cutoff time is the original rows in order; fractional chunk sizes are turned into at least one row; a non-positive size is rejected.", "quantifier": "every cutoff table and chunk size", "why_tests_cant": "All sizes.", "anchors": ["featuretools/computational_backends/calculate_feature_matrix.py:_chunk_dataframe_groups", "featuretools/computational_backends/calculate_feature_matrix.py:_handle_chunk_size"]}
{"id": "C32", "title": "The feature matrix does not depend on chunk size, number of jobs or completion order", "statement": "calculate_feature_matrix returns the same matrix for every chunk size, for serial and parallel runs and every completion order of the workers.", "quantifier": "every chunk size, worker count and schedule", "why_tests_cant": "Schedules cannot be enumerated.", "anchors": ["featuretools/computational_backends/calculate_feature_matrix.py:calculate_feature_matrix", "featuretools/computational_backends/calculate_feature_matrix.py:parallel_calculate_chunks", "featuretools/computational_backends/calculate_feature_matrix.py:calculate_chunk"]}
{"id": "C33", "title": "Rows come back in the order of the cutoff table, each computed at its own cutoff", "statement": "Row i of the result is for the i-th (instance, time) pair of the cutoff table and holds the values computed at exactly this time, with the pass-through columns of that row.", "quantifier": "every duplicate-free cutoff table", "why_tests_cant": "All orders and interleavings of times.", "anchors": ["featuretools/computational_backends/calculate_feature_matrix.py:calculate_feature_matrix", "featuretools/computational_backends/calculate_feature_matrix.py:calculate_chunk"]}
{"id": "C34", "title": "Approximation never looks past the row's cutoff time and bins correctly", "statement": "bin_cutoff_times maps every time to the largest multiple of the window that does not exceed it: idempotent, monotone and within one window; approximated values use only data at or before the true cutoff. In the feature matrix every row has, for each approximated aggregation, its value by definition at the bin of the row's cutoff, and for everything else the value by definition at the cutoff itself, whatever the other rows, chunks and workers are.", "quantifier": "every time and window (datetime or integer)", "why_tests_cant": "All times.", "anchors": ["featuretools/computational_backends/utils.py:bin_cutoff_times", "featuretools/computational_backends/utils.py:datetime_round", "featuretools/computational_backends/calculate_feature_matrix.py:approximate_features"]}
{"id": "C35", "title": "Exactly the aggregations behind direct features are approximated", "statement": "gather_approximate_features marks the aggregation features found by following chains of direct features from the requested features, at the path followed, and nothing else; features which (or whose dependents) need the full entity are never approximated.", "quantifier": "every feature list", "why_tests_cant": "All feature graphs.", "anchors": ["featuretools/computational_backends/utils.py:gather_approximate_features"]}
{"id": "C36", "title": "Saved progress files are complete and cover all computed chunks", "statement": "At every crash point each file in the save_progress directory (outside temp) holds a complete chunk result, and different chunks do not overwrite each other.", "quantifier": "every crash point and list of chunks", "why_tests_cant": "Crash points and file-name collisions over all times.", "anchors": ["featuretools/computational_backends/utils.py:save_csv_decorator"]}
{"id": "C37", "title": "Worker count is between 1 and the number of CPUs", "statement": "n_jobs_to_workers returns a number between 1 and the CPU count for every negative n_jobs and min(n_jobs, cpus) for positive; n_jobs = 0 is rejected.", "quantifier": "every integer n_jobs and positive CPU count", "why_tests_cant": "All integers.", "anchors": ["featuretools/computational_backends/utils.py:n_jobs_to_workers"]}
{"id": "C38", "title": "Cutoff tables are validated", "statement": "A cutoff table is accepted iff it has exactly one usable instance id column and one usable time column and no duplicate (id, time) rows; accepted tables are normalised to instance_id/time columns with data unchanged.", "quantifier": "every table header and content", "why_tests_cant": "All column combinations.", "anchors": ["featuretools/computational_backends/utils.py:_validate_cutoff_time", "featuretools/computational_backends/utils.py:_check_cutoff_time_type"]}
{"id": "C39", "title": "Synthesised features have unique names, are sorted by depth, filtered and capped", "statement": "dfs(features_only=True) returns features of the target entity with pairwise distinct names, shallow first, none matching drop_exact/drop_contains, none with an unrequested return type, not the target's own index, and at most max_features of them, and the cap removes only the deepest ones.", "quantifier": "every schema, primitive set and option", "why_tests_cant": "Unbounded search space.", "anchors": ["featuretools/synthesis/deep_feature_synthesis.py:DeepFeatureSynthesis.build_features", "featuretools/synthesis/deep_feature_synthesis.py:DeepFeatureSynthesis._filter_features", "featuretools/synthesis/deep_feature_synthesis.py:DeepFeatureSynthesis._handle_new_feature"]}
{"id": "C40", "title": "max_depth bounds the depth of every returned feature", "statement": "No feature returned by dfs has depth greater than max_depth.", "quantifier": "every schema, primitive set, depth", "why_tests_cant": "Unbounded search space.", "anchors": ["featuretools/synthesis/deep_feature_synthesis.py:DeepFeatureSynthesis._run_dfs", "featuretools/synthesis/deep_feature_synthesis.py:DeepFeatureSynthesis._features_by_type"]}
{"id": "C41", "title": "Ignored entities and variables never appear in a feature", "statement": "No feature returned by dfs uses, at any depth, data from an entity in ignore_entities or a variable in ignore_variables (unless through a seed feature).", "quantifier": "every schema, primitive set, ignore list", "why_tests_cant": "Unbounded search space.", "anchors": ["featuretools/synthesis/deep_feature_synthesis.py:DeepFeatureSynthesis._run_dfs", "featuretools/synthesis/deep_feature_synthesis.py:DeepFeatureSynthesis._add_identity_features"]}
{"id": "C42", "title": "dfs terminates on acyclic schemas and visits each entity once", "statement": "On every acyclic schema build_features terminates; the features of each entity are built by one visit.", "quantifier": "every acyclic schema", "why_tests_cant": "Termination.", "anchors": ["featuretools/synthesis/deep_feature_synthesis.py:DeepFeatureSynthesis._run_dfs"]}
{"id": "C43", "title": "Input matching is sound, complete and free of repetitions", "statement": "match(input_types, features) returns exactly the tuples of pairwise different features whose types match position by position; with commutative=True one ordering of every matching set; with require_direct_input exactly those that contain a direct feature.", "quantifier": "every list of types and features", "why_tests_cant": "Combinatorial over all lists.", "anchors": ["featuretools/synthesis/deep_feature_synthesis.py:match", "featuretools/synthesis/deep_feature_synthesis.py:match_by_type"]}
{"id": "C44", "title": "Stacking rules hold for every synthesised feature", "statement": "No transform feature built by dfs takes a transform feature (or a direct feature of one) as input; each aggregation obeys stack_on, stack_on_exclude, stack_on_self, base_of, base_of_exclude and never stacks on a multi-output feature.", "quantifier": "every schema and primitive set", "why_tests_cant": "Unbounded search space.", "anchors": ["featuretools/synthesis/deep_feature_synthesis.py:check_stacking", "featuretools/synthesis/deep_feature_synthesis.py:check_transform_stacking", "featuretools/synthesis/deep_feature_synthesis.py:DeepFeatureSynthesis._build_agg_features"]}
{"id": "C45", "title": "Where clauses stack at most where_stacking_limit times", "statement": "No feature returned by dfs has more than where_stacking_limit where-aggregations on a dependency chain, and a where clause never conditions on one of the aggregation's own inputs.", "quantifier": "every schema and limit", "why_tests_cant": "Unbounded search space.", "anchors": ["featuretools/synthesis/deep_feature_synthesis.py:DeepFeatureSynthesis._build_agg_features"]}
{"id": "C46", "title": "Primitive options are respected", "statement": "With primitive_options every input of a feature built by that primitive respects include/ignore entities and variables, at every depth; the filters are exactly the documented predicates and commutative primitives may use any ordering that satisfies per-input options.", "quantifier": "every option set and candidate list", "why_tests_cant": "All option combinations.", "anchors": ["featuretools/primitives/options_utils.py:variable_filter", "featuretools/primitives/options_utils.py:filter_matches_by_options", "featuretools/primitives/options_utils.py:ignore_entity_for_primitive", "featuretools/primitives/options_utils.py:generate_all_primitive_options"]}
{"id": "C47", "title": "The unused-primitive report is exact", "statement": "get_unused_primitives lists, sorted, exactly the specified primitives that no returned feature uses at any depth.", "quantifier": "every specification and feature list", "why_tests_cant": "All feature graphs.", "anchors": ["featuretools/synthesis/dfs.py:get_unused_primitives", "featuretools/synthesis/dfs.py:_categorize_features"]}
{"id": "C48", "title": "Feature definitions round-trip through save_features/load_features", "statement": "load_features(save_features(fs)) gives features with the same definitions (types, inputs, primitives, where, use_previous, groupby, names) in the same order; shared dependencies are stored once.", "quantifier": "every feature list", "why_tests_cant": "Unbounded feature graphs.", "anchors": ["featuretools/feature_base/features_serializer.py:FeaturesSerializer", "featuretools/feature_base/features_deserializer.py:FeaturesDeserializer", "featuretools/feature_base/feature_base.py:GroupByTransformFeature.get_arguments"]}
{"id": "C49", "title": "Primitive lookup on load is order independent", "statement": "The primitives deserializer returns the class registered under the requested (name, module) whatever was requested before, and reports an unknown primitive as an error.", "quantifier": "every class table and request history", "why_tests_cant": "History dependence of a resumable generator plus cache.", "anchors": ["featuretools/primitives/utils.py:PrimitivesDeserializer"]}
{"id": "C50", "title": "encode_features is a faithful one-hot encoding", "statement": "Every encoded categorical column is replaced by indicator columns for its most frequent values plus 'unknown'; exactly one indicator is set per row (when unknown is included and drop_first is off); other columns are unchanged; the number of indicators is bounded by top_n; rows keep their order; names correspond to returned features.", "quantifier": "every matrix and option", "why_tests_cant": "All data.", "anchors": ["featuretools/synthesis/encode_features.py:encode_features"]}
{"id": "C51", "title": "Feature selection removes exactly the documented columns", "statement": "remove_low_information_features removes exactly all-null and single-value columns; remove_highly_null_features exactly those whose null share exceeds the threshold; remove_single_value_features exactly those with one (non-null) value; matrix columns and feature list stay in agreement.", "quantifier": "every matrix and threshold", "why_tests_cant": "All data, boundary values.", "anchors": ["featuretools/selection/selection.py"]}
{"id": "C52", "title": "Correlation selection leaves no highly correlated pair and never drops protected features", "statement": "After remove_highly_correlated_features no two checked columns have |corr| >= threshold unless protected, features_to_keep are kept, and a column is dropped only because of a simpler column it is correlated with.", "quantifier": "every matrix, threshold, correlation structure", "why_tests_cant": "All correlation structures.", "anchors": ["featuretools/selection/selection.py:remove_highly_correlated_features"]}
{"id": "C53", "title": "Cumulative primitives satisfy their recurrences", "statement": "CumSum, CumCount, CumMean, CumMin, CumMax of a series satisfy the prefix definitions, and Diff and CumSum are inverse on complete data.", "quantifier": "every series", "why_tests_cant": "All lengths.", "anchors": ["featuretools/primitives/standard/cum_transform_feature.py", "featuretools/primitives/standard/transform_primitive.py:Diff"]}
{"id": "C54", "title": "Distributed aggregation equals the single-frame one for every partitioning", "statement": "The Dask chunk/agg/finalize versions of NumUnique, NumTrue, PercentTrue, Any, All give the same result as the pandas version for every way of partitioning the rows.", "quantifier": "every series and partitioning", "why_tests_cant": "All partitionings.", "anchors": ["featuretools/primitives/standard/aggregation_primitives.py"]}
{"id": "C55", "title": "Aggregation primitives meet their definitions", "statement": "Mode returns a most frequent value, ties to the smallest; NMostCommon returns n values by frequency padded with null; AvgTimeBetween is (max-min)/(n-1); Trend/First/Last/NumUnique/PercentTrue match their textbook definitions on empty, singleton and null inputs.", "quantifier": "every series", "why_tests_cant": "All data.", "anchors": ["featuretools/primitives/standard/aggregation_primitives.py"]}
{"id": "C56", "title": "Interesting values are the most frequent ones, at most max_values", "statement": "add_interesting_values stores at most max_values distinct values that occur in the column, most frequent first, and for columns with 25+ distinct values only those with a share strictly between 5% and 95%.", "quantifier": "every column and max_values", "why_tests_cant": "All data.", "anchors": ["featuretools/entityset/entity.py:Entity.add_interesting_values"]}
{"id": "C57", "title": "make_temporal_cutoffs spaces cutoffs evenly before each instance's cutoff", "statement": "For each instance the produced times are evenly spaced, end at the given cutoff, and their number and spacing agree with the two given parameters; giving all three or too few is rejected.", "quantifier": "every cutoff list and parameter combination", "why_tests_cant": "All parameters.", "anchors": ["featuretools/utils/time_utils.py:make_temporal_cutoffs"]}
{"id": "C58", "title": "Variable type inference is a function of the column alone", "statement": "The type inferred for a column depends only on that column's data and its role, not on which other columns are present or their order.", "quantifier": "every table", "why_tests_cant": "Carry-over state between loop iterations shows only for particular column orders.", "anchors": ["featuretools/utils/entity_utils.py:infer_variable_types"]}
{"id": "C59", "title": "Natural-language helpers are correct for all inputs", "statement": "convert_to_nth gives the English ordinal of every positive integer; convert_time_units and the unit table convert consistently; unknown units are rejected.", "quantifier": "every integer / unit", "why_tests_cant": "All integers.", "anchors": ["featuretools/utils/description_utils.py:convert_to_nth", "featuretools/utils/time_utils.py:convert_time_units"]}
{"id": "C60", "title": "Rows of a feature matrix do not see data later than their own cutoff", "statement": "Changing the data in ways that are not visible at time t (rows after t, rows outside the training window, values whose secondary time is after t) changes no row of calculate_feature_matrix whose cutoff is t, whatever the other rows of the cutoff table, the chunk size, the number of workers and the order in which they finish.", "quantifier": "every cutoff table, feature list, chunking, schedule and pair of data sets that show the same at t", "why_tests_cant": "A leak between rows of one call needs data sets that differ in just the hidden part and cutoffs grouped in one chunk.", "anchors": ["featuretools/computational_backends/calculate_feature_matrix.py:calculate_feature_matrix", "featuretools/computational_backends/calculate_feature_matrix.py:calculate_chunk"]}
{"id": "C61", "title": "Deep Feature Synthesis finds the features it is asked for", "statement": "dfs without selection returns: every column of the target that is not ignored; a feature for the name of every seed feature of the target, never the column it replaces; for each aggregation primitive and each fitting list of inputs of a descendant (stacking, depth, ignored parts and link columns permitting) the aggregation of that list, and for where primitives one per interesting value of another column; each transform and group-by primitive applied to each fitting list; each feature of a parent within the limit. What is found does not depend on the order of the relationships.", "quantifier": "every schema, primitive list, depth limit, list of allowed paths and set of ignored columns and entities", "why_tests_cant": "A missed combination is silent: the list is just shorter, and which combinations there are depends on the schema.", "anchors": ["featuretools/synthesis/deep_feature_synthesis.py:DeepFeatureSynthesis.build_features", "featuretools/synthesis/deep_feature_synthesis.py:DeepFeatureSynthesis._run_dfs", "featuretools/synthesis/deep_feature_synthesis.py:match"]}
{"id": "C62", "title": "Expressions over features compute what they say", "statement": "A Python expression over features with comparisons, arithmetic, and, or, not, abs, negation, isin and is_null, with scalars on either side, is accepted exactly if all features are of one entity and the types fit; the column of the feature it builds has one cell per row, which is the value of the expression on the values of that row, with missing values, infinities, division by zero and remainders treated as floating point does.", "quantifier": "every expression, nesting, scalar, table, and class of operand (Python asks the right operand first for some)", "why_tests_cant": "Expressions nest without bound and there are over thirty operator and operand combinations, each with missing and infinite values on both sides.", "anchors": ["featuretools/feature_base/feature_base.py:FeatureBase._handle_binary_comparision", "featuretools/feature_base/feature_base.py:FeatureBase.__add__", "featuretools/primitives/standard/binary_transform.py:ModuloByFeature"]}
{"id": "C63", "title": "Commutative primitives do not depend on the order of their inputs", "statement": "Deep Feature Synthesis builds only one order of the inputs of a primitive that is marked as commutative, so the other order must give the same column or the same failure.", "quantifier": "every primitive of two inputs that is marked as commutative, and all pairs of columns", "why_tests_cant": "Asymmetries show only for particular values, such as missing booleans.", "anchors": ["featuretools/primitives/standard/binary_transform.py:SubtractNumeric", "featuretools/primitives/standard/binary_transform.py:And", "featuretools/synthesis/deep_feature_synthesis.py:match"]}
{"id": "C64", "title": "Names of features built by operators say which feature it is", "statement": "The name of a feature built by an expression is the text of the expression, and two features of an entity with the same name are the same feature: the feature matrix and saved files identify columns by name.", "quantifier": "every pair of expressions, feature names and scalars", "why_tests_cant": "Collisions need two particular expressions.", "anchors": ["featuretools/primitives/standard/binary_transform.py:AddNumeric.generate_name", "featuretools/primitives/standard/binary_transform.py:EqualScalar.generate_name", "featuretools/feature_base/feature_base.py:FeatureBase.get_name"]}
{"id": "C65", "title": "Descriptions of features say what the feature is", "statement": "describe_feature gives the sentence built from the feature: a custom description if there is one (for the feature, else for its full name), the description of a column, for a feature of a parent the description of what is taken followed by the instances passed, and for a primitive its template (custom for the primitive, else for its name, else its own) filled with the descriptions of the inputs, followed by the rows used, the condition and what it is for each of. Every feature has a description, and features with different conditions have different ones.", "quantifier": "every feature, nesting, template, dictionary of custom descriptions and templates", "why_tests_cant": "Features nest without bound and templates and scalars are arbitrary text.", "anchors": ["featuretools/feature_base/feature_descriptions.py:describe_feature", "featuretools/feature_base/feature_descriptions.py:generate_description", "featuretools/primitives/base/primitive_base.py:PrimitiveBase.get_description"]}
{"id": "C66", "title": "Transform primitives meet their definitions", "statement": "Year, month, day, hour, minute, second and weekday are those of the Gregorian calendar, the week is the documented one; TimeSince, TimeSincePrevious and Age give the elapsed time in the unit asked for and reject unknown units; NumCharacters and NumWords count characters and words; IsIn, IsNull, Absolute, Negate and Not act cell by cell; Percentile is the mean rank among the values present; Latitude and Longitude are the parts of the pair. Missing cells stay missing.", "quantifier": "every column, every cell, every unit and every row label", "why_tests_cant": "Calendars repeat only every 400 years, ranks depend on the whole column, and errors show for particular dates, ties and labels.", "anchors": ["featuretools/primitives/standard/transform_primitive.py:Year", "featuretools/primitives/standard/transform_primitive.py:Week", "featuretools/primitives/standard/transform_primitive.py:TimeSincePrevious", "featuretools/primitives/standard/transform_primitive.py:Percentile", "featuretools/primitives/standard/transform_primitive.py:Latitude", "featuretools/utils/entity_utils.py:replace_latlong_nan"]}
{"id": "C67", "title": "Haversine is the distance on the sphere", "statement": "Haversine gives the length of the shortest way over a sphere with the mean radius of the earth between the two positions of a row, in miles or kilometers; other units raise ValueError. It does not depend on the order of the columns, is zero exactly for equal positions, obeys the triangle inequality, and is missing where a coordinate is missing.", "quantifier": "every pair of columns of coordinates", "why_tests_cant": "A claim about real trigonometric functions for all coordinates.", "anchors": ["featuretools/primitives/standard/transform_primitive.py:Haversine", "featuretools/utils/entity_utils.py:replace_latlong_nan"]}
{"id": "C68", "title": "Numeric aggregation primitives are the statistics they are named after", "statement": "Count, Sum, Mean, Min, Max, Median, Std, Skew and Entropy give, for the cells of a group that are not missing, the number, sum, arithmetic mean, least, greatest, middle value, standard deviation, adjusted skewness and Shannon entropy. Options (skipna, dropna, base) do what they say, the value is the same whether the primitive is called directly or through a feature matrix, and on every backend, and there is no value exactly if there are too few cells.", "quantifier": "every group of cells, any size, any missing cells", "why_tests_cant": "Groups are arbitrary; one too many in a divisor or a wrong middle shows only for particular sizes.", "anchors": ["featuretools/primitives/standard/aggregation_primitives.py:Count", "featuretools/primitives/standard/aggregation_primitives.py:Mean", "featuretools/primitives/standard/aggregation_primitives.py:Median", "featuretools/primitives/standard/aggregation_primitives.py:Std", "featuretools/primitives/standard/aggregation_primitives.py:Skew", "featuretools/primitives/standard/aggregation_primitives.py:Entropy", "featuretools/computational_backends/feature_set_calculator.py:FeatureSetCalculator._calculate_agg_features"]}
{"id": "C69", "title": "Primitives made from functions do what the function does", "statement": "make_agg_primitive and make_trans_primitive give a primitive that, called with columns, calls the function with these columns, the calculation time if asked for, the keyword arguments the primitive was built with and the defaults of the function for the rest. A parameter called time is refused unless the time is asked for. All arguments and class attributes arrive at the class, the name and the saved form tell primitives with different arguments apart, and an instance without data has the given default value or the value of the function for no data.", "quantifier": "every function, signature, set of keyword arguments and class attributes, and all columns", "why_tests_cant": "Signatures are arbitrary; failures need a default on a column parameter or two primitives with different arguments.", "anchors": ["featuretools/primitives/base/aggregation_primitive_base.py:make_agg_primitive", "featuretools/primitives/base/transform_primitive_base.py:make_trans_primitive", "featuretools/primitives/base/utils.py:inspect_function_args", "featuretools/primitives/base/primitive_base.py:PrimitiveBase.get_arguments"]}
{"id": "C70", "title": "Features aggregated together do not get mixed up", "statement": "When several aggregation features are calculated in one pass over the groups, every one of them gets one column under its own name with the result of its own function called with its own inputs, also if functions, inputs and functions on inputs occur several times.", "quantifier": "every list of aggregation features with distinct names, all functions and inputs", "why_tests_cant": "Columns are found again by texts made of column names and identities of function objects; a collision needs a particular combination.", "anchors": ["featuretools/computational_backends/feature_set_calculator.py:FeatureSetCalculator._calculate_agg_features", "featuretools/computational_backends/feature_set_calculator.py:_can_agg"]}
{"id": "C71", "title": "Watching a call does not change it", "statement": "Tools registered as entry points of dfs are told of every call: the arguments by name before it, then exactly once either the value it returned or the exception it raised, in the order of registration. They do not change the call: it runs exactly once with the arguments given, and the caller gets the value or exception that the function gives without them.", "quantifier": "every function and signature, every call, every list of registered handlers and whatever they do", "why_tests_cant": "Handlers are other people's code; their number and behaviour is open.", "anchors": ["featuretools/utils/entry_point.py:entry_point", "featuretools/synthesis/dfs.py:dfs"]}
{"id": "C72", "title": "The lineage graph shows what a feature is calculated from", "statement": "graph_feature(f) draws a row, in the table of its entity and exactly once, for f, for every feature f is calculated from and for every column that links the entities on the way, and no others. Every feature with a primitive has a diamond with the name and kind of the primitive. Lines lead to a feature from its inputs, conditions, group-by features and link columns, and from nothing it is not calculated from. The steps written on the diamonds start at 1, and an input is calculated in an earlier step than what it is used for.", "quantifier": "every feature of any depth and sharing, every schema", "why_tests_cant": "Features are arbitrary graphs; wrong steps and shared nodes need features used twice or in two entities.", "anchors": ["featuretools/feature_base/feature_visualizer.py:graph_feature", "featuretools/feature_base/feature_visualizer.py:get_feature_data", "featuretools/feature_base/feature_visualizer.py:get_entity_table"]}
{"id": "C73", "title": "Progress reports are honest and harmless", "statement": "A progress_callback does not change what calculate_feature_matrix returns or raises. The percentages it is told are the sums of the updates, which are never negative; the feature calculation counts for at most 95 percent, in proportion to the rows that are done; a call that succeeds reports 100 percent exactly once, at the end, and a call that fails never does.", "quantifier": "every call: features, cutoff times, chunk size, number of workers and order in which they finish", "why_tests_cant": "Reports come from a dozen places, in any order for parallel runs, with amounts that depend on the data.", "anchors": ["featuretools/computational_backends/calculate_feature_matrix.py:calculate_feature_matrix", "featuretools/computational_backends/calculate_feature_matrix.py:update_progress_callback_parameters", "featuretools/computational_backends/feature_set_calculator.py:FeatureSetCalculator.run"]}
{"id": "C74", "title": "Features built by hand are the ones asked for, or refused", "statement": "Feature(...) and the feature classes accept a call exactly if it describes one feature: the base features are single columns of one entity and fit the signature of the primitive; without a given relationship or path exactly one leads from the entity to the base features, and it is the one used; a given path leads from the parent entity to the base entity along relationships; a condition is on the base entity; a window needs a time index that it can be subtracted from; feature[k] is one of the columns. Ambiguous requests raise an error. Building a feature does not change the arguments, and two features of one entity can always be used together.", "quantifier": "every schema, every list of features and variables, every primitive signature, all combinations of arguments", "why_tests_cant": "Schemas and base features are arbitrary; ambiguity depends on all chains of relationships at once.", "anchors": ["featuretools/feature_base/feature_base.py:Feature", "featuretools/feature_base/feature_base.py:DirectFeature", "featuretools/feature_base/feature_base.py:AggregationFeature", "featuretools/feature_base/feature_base.py:TransformFeature", "featuretools/feature_base/feature_base.py:GroupByTransformFeature", "featuretools/feature_base/feature_base.py:FeatureOutputSlice", "featuretools/utils/wrangle.py:_check_time_against_column"]}
{"id": "C75", "title": "Arguments of feature synthesis mean what they say, or are refused", "statement": "dfs accepts a call exactly if the target is an entity, what is to be ignored has the documented form and is not the target, each primitive is an instance, a class or the name (in any case) of a primitive of the right kind, and every entry of primitive_options is for known primitives, has known options with values of the documented type, one for each input if a list is given, and at most one entry for a primitive. Then the options that apply to a primitive are those written for the instance, else those written for its class or name. Everything else raises an error that names the fault.", "quantifier": "every library of primitives, every combination of arguments, all option dicts", "why_tests_cant": "The arguments are nested dicts of lists with keys of three kinds; spellings and combinations are open.", "anchors": ["featuretools/synthesis/deep_feature_synthesis.py:DeepFeatureSynthesis.__init__", "featuretools/synthesis/deep_feature_synthesis.py:handle_primitive", "featuretools/synthesis/deep_feature_synthesis.py:check_trans_primitive", "featuretools/primitives/options_utils.py:_init_primitive_options", "featuretools/primitives/options_utils.py:_init_option_dict", "featuretools/primitives/utils.py:get_aggregation_primitives"]}
{"id": "C76", "title": "Variable types are known by their names", "statement": "The type string of a variable class is its name in lower case with an underscore where a word starts. A type string, in variable_types or in a saved entity set, stands for the class that has it, and anything else for the unknown type; so saving and loading keeps the type of every variable, also for classes of the user. The list of types has one row for each of them.", "quantifier": "every set of variable classes, with any names and hierarchy; every text", "why_tests_cant": "Users define their own classes with any names; the type string comes from two regular expressions.", "anchors": ["featuretools/utils/gen_utils.py:camel_to_snake", "featuretools/variable_types/variable.py:ClassNameDescriptor", "featuretools/variable_types/utils.py:find_variable_types", "featuretools/variable_types/utils.py:list_variable_types", "featuretools/entityset/entity.py:Entity._create_variables", "featuretools/entityset/deserialize.py:description_to_variable"]}
{"id": "C77", "title": "Primitives are listed and loaded completely", "statement": "list_primitives() lists exactly the primitives that dfs takes by name, each once, with its kind, description, input and output types. list_primitive_files gives the files of a directory that may hold primitives, and load_primitive_from_file the primitive that a file defines; files with none or several are refused. Primitives that other libraries register are available, and a library that cannot be loaded does no harm.", "quantifier": "every library of primitives, every directory, every module, every list of entry points", "why_tests_cant": "Files, modules and other libraries are arbitrary.", "anchors": ["featuretools/primitives/utils.py:list_primitives", "featuretools/primitives/utils.py:list_primitive_files", "featuretools/primitives/utils.py:check_valid_primitive_path", "featuretools/primitives/utils.py:load_primitive_from_file", "featuretools/primitives/__init__.py"]}
{"id": "C78", "title": "Features on Dask entity sets are those on pandas", "statement": "For the same data in Dask frames, the calculation of features gives one row for each visible instance that is asked for, with the values that the features mean and that pandas gives, whatever the number of partitions, however rows are spread over them and in whatever order merges return rows. What Dask does not support is refused with an error, not answered wrongly.", "quantifier": "every entity set, every list of features and instances, every partitioning of the data, every order of rows after a merge", "why_tests_cant": "Partitions and the order of rows after a merge are chosen by the scheduler; a test sees few of them.", "anchors": ["featuretools/computational_backends/feature_set_calculator.py:FeatureSetCalculator.run", "featuretools/computational_backends/feature_set_calculator.py:FeatureSetCalculator._calculate_direct_features", "featuretools/computational_backends/feature_set_calculator.py:FeatureSetCalculator._calculate_agg_features", "featuretools/entityset/entityset.py:EntitySet.query_by_values"]}
{"id": "C79", "title": "dfs returns the matrix of the features it lists", "statement": "dfs(...) returns a list of features and a matrix. The list is the one that features_only gives for the same arguments. The matrix has the columns of these features in this order and a row for each instance asked for (all visible ones without a choice), and each cell is what the feature means for the instance with the data known at its cutoff time. Errors of either step reach the caller.", "quantifier": "every schema and data set, every library of primitives, all arguments of dfs together with those of the calculation", "why_tests_cant": "Which features arise depends on the schema; each of them must then fit the calculation.", "anchors": ["featuretools/synthesis/dfs.py:dfs", "featuretools/synthesis/deep_feature_synthesis.py:DeepFeatureSynthesis.build_features", "featuretools/computational_backends/calculate_feature_matrix.py:calculate_feature_matrix"]}
{"id": "C80", "title": "The feature matrix of a Dask entity set is that of the pandas one", "statement": "calculate_feature_matrix on Dask entities gives a frame with the columns of the features, the index of the entity and the passed columns of the cutoff table. It has one row for every row of the cutoff table whose instance is visible at its time (for a single time: for every visible instance asked for), with the values the features have at this time and the passed cells; these are the rows that pandas gives, in some order. Chunk sizes, partitions and the order of rows after merges do not matter. What is not supported on Dask is refused.", "quantifier": "every entity set, list of features, cutoff table and chunk size, every partitioning of the data, every order of rows after a merge", "why_tests_cant": "Partitions, orders of rows and combinations of cutoff times, chunks and passed columns are unbounded.", "anchors": ["featuretools/computational_backends/calculate_feature_matrix.py:calculate_feature_matrix", "featuretools/computational_backends/calculate_feature_matrix.py:calculate_chunk", "featuretools/computational_backends/calculate_feature_matrix.py:parallel_calculate_chunks"]}
{"id": "C81", "title": "Encoded features reproduce the encoding", "statement": "The features that encode_features returns can be calculated like any others. On the data that was encoded they give the returned matrix. On any other data they give the rows of the original features with the same labels encoded: an indicator is true exactly where the original feature has the label, the unknown column where it has none of the labels, and everything else is unchanged.", "quantifier": "every list of features, every encoding (options, labels, data it was made on), every later data set and cutoff table", "why_tests_cant": "The later data is arbitrary: values never seen before, missing values, other rows and other times.", "anchors": ["featuretools/synthesis/encode_features.py:encode_features", "featuretools/feature_base/feature_base.py:FeatureBase.__eq__", "featuretools/feature_base/feature_base.py:FeatureBase.isin", "featuretools/feature_base/feature_base.py:FeatureBase.NOT", "featuretools/feature_base/feature_base.py:FeatureBase.rename", "featuretools/primitives/standard/binary_transform.py:EqualScalar", "featuretools/primitives/standard/transform_primitive.py:IsIn", "featuretools/primitives/standard/transform_primitive.py:Not"]}
{"id": "C82", "title": "dfs does not look into the future", "statement": "Take two entity sets with the same schema that show the same data at time t. dfs builds the same features for both. Every row of the matrix with cutoff time t is the same, whatever happens later and whatever the other rows of the cutoff table are. If they show the same at all cutoff times, the two calls have the same result, errors included; so they do for a single time, also if all instances known at that time are asked for.", "quantifier": "every pair of entity sets, every library of primitives, all arguments of dfs, every cutoff table, training window and chunk size", "why_tests_cant": "What may differ is the whole future of an arbitrary data set.", "anchors": ["featuretools/synthesis/dfs.py:dfs", "featuretools/computational_backends/calculate_feature_matrix.py:calculate_feature_matrix", "featuretools/entityset/entityset.py:EntitySet.query_by_values", "featuretools/entityset/entityset.py:EntitySet.add_interesting_values"]}
{"id": "C83", "title": "A reloaded entity set gives the same result", "statement": "An entity set that is written to disk and read back gives in every call of dfs the same result as the original: the same features in the same order, the same matrix, or the same error.", "quantifier": "every entity set, every library of primitives, all arguments of dfs", "why_tests_cant": "The result depends on everything in the entity set; a test compares a few calls on a few sets.", "anchors": ["featuretools/entityset/serialize.py:entityset_to_description", "featuretools/entityset/deserialize.py:description_to_entityset", "featuretools/synthesis/dfs.py:dfs"]}
{"id": "C84", "title": "Saved features of dfs keep their meaning", "statement": "The features that dfs returns can be saved, and load_features gives the same features back: names, classes, paths, conditions, primitives and types, in the same order. Calculated on any data of the same schema, the loaded features give exactly what dfs itself would give on that data: the same matrix, or the same error.", "quantifier": "every entity set, every library of primitives, all arguments of dfs, every later data set, all arguments of calculate_feature_matrix", "why_tests_cant": "Features nest without bound, and which ones arise depends on the schema and the primitives.", "anchors": ["featuretools/synthesis/dfs.py:dfs", "featuretools/feature_base/features_serializer.py:save_features", "featuretools/feature_base/features_deserializer.py:load_features", "featuretools/feature_base/feature_base.py:GroupByTransformFeature.get_arguments", "featuretools/computational_backends/calculate_feature_matrix.py:calculate_feature_matrix"]}
{"id": "C85", "title": "A created entity is what was asked for", "statement": "entity_from_dataframe accepts exactly the arguments that make sense together: an index column with distinct values (the first column without one, a new numbered one with make_index), a time index among the columns with times of the kind the entity set has, types for existing columns, secondary time indexes of the same kind of time. The entity then has the rows and columns of the frame, index first, in the order of time or as given if already_sorted; each variable has the type of a time index or index, the type asked for, or else the inferred one. The kind of time of an entity set never changes afterwards.", "quantifier": "every entity set, every frame and all arguments; every later operation", "why_tests_cant": "Frames, types and combinations of arguments are arbitrary.", "anchors": ["featuretools/entityset/entityset.py:EntitySet.entity_from_dataframe", "featuretools/entityset/entity.py:Entity.__init__", "featuretools/entityset/entity.py:Entity.create_variables", "featuretools/entityset/entity.py:Entity.set_index", "featuretools/entityset/entity.py:Entity.set_time_index", "featuretools/entityset/entity.py:Entity.set_secondary_time_index", "featuretools/entityset/entity.py:_create_index", "featuretools/entityset/entity.py:_validate_entity_params"]}
{"id": "C86", "title": "Replacing data and changing variables does what it says", "statement": "update_data accepts exactly the frames with the variables of the entity as columns, distinct index values and times of the right kind, and then changes only the data: the entity has the new rows, in the order of time or as given, and its columns, index, time indexes and variables as before. delete_variables removes exactly the variables that are named. convert_variable_type changes the type of one variable. Nothing else in the entity set changes, and what is asked of a column that is not there is an error.", "quantifier": "every entity set with entities as they are created, every frame and all arguments", "why_tests_cant": "Frames and variables are arbitrary.", "anchors": ["featuretools/entityset/entity.py:Entity.update_data", "featuretools/entityset/entity.py:Entity.delete_variables", "featuretools/entityset/entity.py:Entity.convert_variable_type"]}
{"id": "C87", "title": "Names identify features and columns", "statement": "Every feature has a name for each of its outputs, all different. Two features of one entity with the same name are the same feature: the same primitive with the same arguments, the same path, inputs, condition and window. So no two columns of a matrix have the same name. A feature renamed has the name given.", "quantifier": "every entity set, every library of primitives, features nested to any depth", "why_tests_cant": "Names are texts put together from other names; whether two different features can read the same depends on arbitrary schemas and nesting.", "anchors": ["featuretools/feature_base/feature_base.py:FeatureBase.get_name", "featuretools/feature_base/feature_base.py:FeatureBase.get_feature_names", "featuretools/feature_base/feature_base.py:FeatureBase.rename", "featuretools/feature_base/feature_base.py:DirectFeature.generate_name", "featuretools/feature_base/feature_base.py:AggregationFeature.generate_name", "featuretools/feature_base/feature_base.py:AggregationFeature.relationship_path_name", "featuretools/feature_base/feature_base.py:GroupByTransformFeature.generate_names", "featuretools/feature_base/feature_base.py:FeatureOutputSlice.generate_name", "featuretools/entityset/relationship.py:Relationship.parent_name", "featuretools/entityset/relationship.py:Relationship.child_name", "featuretools/primitives/base/aggregation_primitive_base.py:AggregationPrimitive.generate_name", "featuretools/primitives/base/transform_primitive_base.py:TransformPrimitive.generate_name"]}
{"id": "C88", "title": "dfs answers every request that makes sense", "statement": "dfs returns features, without raising anything, for every request that makes sense: a target entity of the entity set that is not ignored, aggregations and transformations given as such, a maximum depth that is a number or -1, primitives with inputs of types they accept, relationships between entities of the set that do not lead round in a circle. A request that does not is refused: an unknown target, a target that is ignored, a primitive of the wrong kind, a depth below -1.", "quantifier": "every entity set, every library of primitives, all arguments of dfs", "why_tests_cant": "Which features are tried, and what is checked on the way, depends on arbitrary schemas, types and primitives.", "anchors": ["featuretools/synthesis/dfs.py:dfs", "featuretools/synthesis/deep_feature_synthesis.py:DeepFeatureSynthesis.__init__", "featuretools/synthesis/deep_feature_synthesis.py:DeepFeatureSynthesis.build_features", "featuretools/synthesis/deep_feature_synthesis.py:DeepFeatureSynthesis._run_dfs", "featuretools/synthesis/deep_feature_synthesis.py:match", "featuretools/feature_base/feature_base.py:FeatureBase._check_input_types"]}
{"id": "C89", "title": "Last time indexes stay right when data changes", "statement": "If every last time index of an entity set is right, they are all right after update_data (with recalculate_last_time_indexes) and after concat: each is the last time at which an instance or one of its descendants is observed in the new data. concat works them out for every entity that has one in either entity set, its parents and so on, and all entities below these, and otherwise leaves the result of putting the data together. Both calls return.", "quantifier": "every entity set with right last time indexes, every new data and every pair of entity sets, every order in which sets are gone through", "why_tests_cant": "Which entities are affected depends on arbitrary schemas; the times on arbitrary data.", "anchors": ["featuretools/entityset/entityset.py:EntitySet.concat", "featuretools/entityset/entity.py:Entity.update_data", "featuretools/entityset/entityset.py:EntitySet.add_last_time_indexes"]}
{"id": "C90", "title": "What is saved is found where it was saved", "statement": "An entity set written to a directory or to S3 is read from the same place, whatever was there before; an archive copied from S3 to the disk is read like the original; features saved as text or at a location are loaded from there. Writing is refused exactly for formats that are not offered, for URLs, and where there is a file in the way, and never changes what is at another place.", "quantifier": "every entity set and list of features, every path, every content of the disk and of remote stores before", "why_tests_cant": "Paths are arbitrary texts, and what is at them before is arbitrary.", "anchors": ["featuretools/entityset/serialize.py:write_data_description", "featuretools/entityset/serialize.py:create_archive", "featuretools/entityset/deserialize.py:read_entityset", "featuretools/utils/wrangle.py:_is_s3", "featuretools/utils/wrangle.py:_is_url", "featuretools/utils/wrangle.py:_is_local_tar", "featuretools/feature_base/features_serializer.py:FeaturesSerializer.save", "featuretools/feature_base/features_deserializer.py:FeaturesDeserializer.load"]}
{"id": "C91", "title": "Pictures and texts of an entity set show it", "statement": "plot draws a box for every entity with its number of rows and its variables with their types, and an arrow from the child to the parent for every relationship with the linking variables; entity sets with the same picture, or the same repr, have the same entities, row counts and relationships. A picture is written exactly to the file that is named, if its name ends in a known format, and otherwise plot raises a ValueError and writes nothing.", "quantifier": "every entity set, every file name, every list of formats", "why_tests_cant": "Names, numbers of entities and file names are arbitrary; telling entity sets apart is about all pairs.", "anchors": ["featuretools/entityset/entityset.py:EntitySet.plot", "featuretools/entityset/entityset.py:EntitySet.__repr__", "featuretools/utils/plot_utils.py:get_graphviz_format", "featuretools/utils/plot_utils.py:save_graph"]}
{"id": "C92", "title": "The objects of the package work in lists, sets and dictionaries", "statement": "Asking whether a relationship, path, variable, entity or feature is in a list, a set or the keys of a dictionary answers, without raising, whether the same thing is in it: relationships by their entities and variables, variables by class, id and entity, entities by their schema, features by entity and name. A set has each thing once.", "quantifier": "every list of objects, every hash function of texts and tuples", "why_tests_cant": "Hashes and addresses differ from run to run; equality must hold for all pairs.", "anchors": ["featuretools/entityset/relationship.py:Relationship.__eq__", "featuretools/entityset/relationship.py:Relationship.__hash__", "featuretools/entityset/relationship.py:RelationshipPath.__eq__", "featuretools/variable_types/variable.py:Variable.__eq__", "featuretools/variable_types/variable.py:Variable.__hash__", "featuretools/entityset/entity.py:Entity.__hash__", "featuretools/feature_base/feature_base.py:FeatureBase.hash", "featuretools/feature_base/feature_base.py:FeatureBase.__eq__"]}
