{
 "claims": [
  {
   "property": "C01",
   "status": "partial",
   "theorems": [
    "Denorm.C01_flush_partial",
    "Denorm.C01_history_partial",
    "Denorm.C01_violated_self_reference",
    "Denorm.C01_violated_through_aggregate"
   ],
   "note": "false for an instance related to itself, through an aggregate fed by the instance's own fields, and for C45 (witnesses on every backend); proved, for any number of passes and any marker order, when saving an instance does not change what its own callbacks see"
  },
  {
   "property": "C02",
   "status": "proved",
   "theorems": [
    "Denorm.C02_forward_marked",
    "Denorm.C02_forward_never_lost"
   ],
   "note": "one statement and whole histories; for declarations that meet WellDeclared (see DESIGN.md section 4 for what happens otherwise)"
  },
  {
   "property": "C03",
   "status": "proved",
   "theorems": [
    "Denorm.C03_backward_marked",
    "Denorm.C03_backward_never_lost"
   ],
   "note": "as C02"
  },
  {
   "property": "C04",
   "status": "proved",
   "theorems": [
    "Denorm.C04_m2m_link_marked",
    "Denorm.C04_m2m_other_marked",
    "Denorm.C04_m2m_never_lost"
   ],
   "note": "as C02; both directions"
  },
  {
   "property": "C05",
   "status": "proved",
   "theorems": [
    "Denorm.C05_generic_marked",
    "Denorm.C05_generic_never_lost"
   ],
   "note": "as C02; all three backends"
  },
  {
   "property": "C06",
   "status": "partial",
   "theorems": [
    "Denorm.C06_no_change_no_effect_partial",
    "Denorm.C06_unchanged_row_fires_nothing_partial",
    "Denorm.C06_violated_on_postgresql",
    "Denorm.C06_violated_on_mysql"
   ],
   "note": "false on PostgreSQL for generic relations and on MySQL for an empty column list (witnesses); proved for all other triggers"
  },
  {
   "property": "C07",
   "status": "partial",
   "theorems": [
    "Denorm.C07_skipped_columns_partial",
    "Denorm.C07_violated_always_skip",
    "Denorm.C07_violated_shared_trigger",
    "Denorm.C07_violated_generic"
   ],
   "note": "false when skip hides denorm_always_skip, when a trigger is shared with a declaration that does not skip, and for generic relations"
  },
  {
   "property": "C08",
   "status": "partial",
   "theorems": [
    "Denorm.C08_reaction_kept_partial",
    "Denorm.C08_adding_keeps_partial",
    "Denorm.C08_violated"
   ],
   "note": "false: the first declaration's column list wins (witness); proved when it watches at least as much"
  },
  {
   "property": "C09",
   "status": "partial",
   "theorems": [
    "Denorm.C09_repeated_declaration",
    "Denorm.C09_repetitions_removed",
    "Denorm.C09_at_most_once_partial",
    "Denorm.C09_aggregate_once",
    "Denorm.C09_violated_marker_twice"
   ],
   "note": "repetition of declarations has no effect at all; for declarations that agree on watched columns each reaction (told apart by its text) runs at most once, an aggregate's exactly once; false for one marker that two dependencies write with and without quotes: it is inserted twice (witness on every backend)"
  },
  {
   "property": "C10",
   "status": "proved",
   "theorems": [
    "Denorm.C10_count",
    "Denorm.C10_violated_child_first"
   ],
   "note": "histories as in the statement, every backend; the witness shows why the insertion order matters on sqlite"
  },
  {
   "property": "C11",
   "status": "proved",
   "theorems": [
    "Denorm.C11_filtered_count",
    "Denorm.C11_empty_lists",
    "Denorm.C11_sqlite_refused"
   ],
   "note": "any filter and exclude with exact/gt/gte/lt/lte/in/range/None lookups on columns of the related table; with empty lists wherever denorm_init can install the triggers (C48_violated_empty_list: not with an empty list in filter=). With sqlite as the default database filter= cannot be declared at all (C11_sqlite_refused), and exclude= only with None (C48_violated_value)"
  },
  {
   "property": "C12",
   "status": "partial",
   "theorems": [
    "Denorm.C12_sum_partial",
    "Denorm.C12_violated_null"
   ],
   "note": "false for NULL in the summed column (witness on every backend, for a column without NOT NULL; with it, the statement is refused: Demo.C67_violated_null); proved while it holds integers; decimals: C80"
  },
  {
   "property": "C14",
   "status": "proved",
   "theorems": [
    "Denorm.C14_nonnegative"
   ],
   "note": "every intermediate state of the engine"
  },
  {
   "property": "C15",
   "status": "partial",
   "theorems": [
    "Denorm.C15_renewed",
    "Denorm.C15_unrelated_kept_partial",
    "Denorm.C15_violated_generic"
   ],
   "note": "renewal: for every change a statement makes (also through triggers) every related instance ends with a value drawn after the change, pairwise different draws; 'unrelated instances keep theirs' fails for generic relations (content type not compared when the M2M is generic; witness on every backend) and is proved up to that"
  },
  {
   "property": "C18",
   "status": "partial",
   "theorems": [
    "Denorm.C18_terminates",
    "Denorm.C18_terminates_acyclic",
    "Denorm.C18_returns",
    "Denorm.C18_returns_finishing",
    "Denorm.C18_returns_sqlite",
    "Denorm.C18_returns_tables",
    "Denorm.C18_fields_layered",
    "Denorm.C18_fields_return",
    "Denorm.C18_saves_bounded",
    "Denorm.C18_violated_cycle"
   ],
   "note": "proved for acyclic dependencies between instances: number of passes, number of saves per instance, and that flush() really returns (all kinds of fields, whenever statements come to an end: always on sqlite); also proved field by field, where instances may depend on each other in circles as long as no @denormalized field is computed from itself; 'for every declared graph' is false: two instances that refer to each other loop forever (witness on every backend)"
  },
  {
   "property": "C19",
   "status": "partial",
   "theorems": [
    "Denorm.C19_same_values_partial",
    "Denorm.C19_same_rows_partial",
    "Denorm.C19_returns_partial",
    "Denorm.C19_fields_same_values",
    "Denorm.C19_fields_return",
    "Denorm.C19_violated_multiplicity",
    "Denorm.C19_violated_distinct"
   ],
   "note": "proved for acyclic dependencies between instances and the fields for which C01 holds: same values for any two backends, marker orders and multiplicities, and (projects of @denormalized fields) both flushes return with equal tables; the same field by field, with circles between instances allowed; false for a field computed from one declared after it: there a second marker, or the lack of DISTINCT ON, changes the result (witnesses)"
  },
  {
   "property": "C20",
   "status": "partial",
   "theorems": [
    "Denorm.C20_crash_safe_partial",
    "Denorm.C20_history_partial",
    "Denorm.C20_violated"
   ],
   "note": "every state between two statements of flush(); for the fields for which C01 holds; for projects as in C85, with CountFields and SumFields, after any history of programs, deletions through the ORM or by foreign keys of the database, upserts, crashes and failures the next flush() returns and makes everything right (C20_history_partial). Violated where C45 is: a field computed from one declared after it is out of date and no longer marked."
  },
  {
   "property": "C21",
   "status": "partial",
   "theorems": [
    "Denorm.C21_considerate_partial",
    "Denorm.C21_next_flush_partial",
    "Denorm.alone_is_flush",
    "Denorm.C21_violated_lost_mark",
    "Denorm.C21_violated_lost_update",
    "Denorm.C21_violated_deletion"
   ],
   "note": "false: a change between the callback's evaluation and the deletion of the marker is lost, a concurrent UPDATE or DELETE of the instance is undone by flush() (witnesses on every backend); proved for every schedule in which the other sessions leave alone the one instance that flush() has loaded and not finished; the step-by-step model is proved equivalent to flush() when it runs alone"
  },
  {
   "property": "C22",
   "status": "proved",
   "theorems": [
    "Denorm.C22_discarded",
    "Denorm.C22_only_targetless"
   ],
   "note": "for markers of existing models; one marker among others, and a whole flush()"
  },
  {
   "property": "C23",
   "status": "proved",
   "theorems": [
    "Denorm.C23_once",
    "Denorm.C23_exactly_once",
    "Denorm.C23_once_per_marker"
   ],
   "note": "every marker multiset and order"
  },
  {
   "property": "C24",
   "status": "partial",
   "theorems": [
    "Denorm.C24_marks",
    "Denorm.C24_rebuild_partial",
    "Denorm.C24_rebuild_returns_partial",
    "Denorm.C24_project_partial",
    "Denorm.C24_fields_return",
    "Denorm.C24_violated_aggregate"
   ],
   "note": "false for CountField and SumField, which are never recomputed (witness on every backend); what is marked is proved exactly, and the result for the callback fields for which C01 holds, including that rebuildall() returns when no instance depends on itself, or only no field is computed from itself. C24_project_partial: in projects as in C85, rebuildall() returns and makes everything right, if CountFields and SumFields were right."
  },
  {
   "property": "C25",
   "status": "proved",
   "theorems": [
    "Denorm.C25_once",
    "Denorm.C25_evaluations"
   ],
   "note": "every registry, every name argument, every marker order; counted are saves of instances and calls of callbacks"
  },
  {
   "property": "C29",
   "status": "proved",
   "theorems": [
    "Denorm.C29_resolves_iff_unique",
    "Denorm.C29_fails_iff_none",
    "Denorm.C29_ambiguous_iff_two",
    "Denorm.C29_self_not_backward",
    "Denorm.C29_type_respected"
   ],
   "note": "for models whose class paths differ not only in case (the code compares lower-cased class representations)"
  },
  {
   "property": "C31",
   "status": "proved",
   "theorems": [
    "Denorm.C31_exact",
    "Denorm.C31_proxy"
   ],
   "note": "for any registry, membership in both directions"
  },
  {
   "property": "C34",
   "status": "partial",
   "theorems": [
    "Denorm.C34_names_partial",
    "Denorm.C34_violated_for_every_clash",
    "Denorm.C34_right_table_partial",
    "Denorm.C34_violated"
   ],
   "note": "false: table t_5 against the generic trigger of content type 5 on table t (witness and exact characterisation); identifiers within the length limit"
  },
  {
   "property": "C37",
   "status": "proved",
   "theorems": [
    "Denorm.C37_direct_write_marked",
    "Denorm.C37_unmarked_value_unchanged"
   ],
   "note": ""
  },
  {
   "property": "C38",
   "status": "partial",
   "theorems": [
    "Denorm.C38_only_self_marks_missing",
    "Denorm.C38_statements_partial",
    "Denorm.C38_calls_partial",
    "Denorm.C38_flush_partial",
    "Denorm.Demo.C38_violated_aggregate"
   ],
   "note": "per row change, both inclusions; over programs and flush() when no trigger writes what the callback reads of its own row; false when the callback reads a CountField of its own model (witness on every backend)"
  },
  {
   "property": "C39",
   "status": "partial",
   "theorems": [
    "Denorm.C39_no_foreign_marks_partial",
    "Denorm.C39_violated_on_mysql"
   ],
   "note": "false on MySQL (witness); proved on sqlite and PostgreSQL"
  },
  {
   "property": "C40",
   "status": "partial",
   "theorems": [
    "Denorm.C40_trigger_changes_tracked_partial",
    "Denorm.C40_violated_on_sqlite"
   ],
   "note": "false on sqlite when a trigger leads back to itself (witness); proved on the other backends and on sqlite without re-entry"
  },
  {
   "property": "C44",
   "status": "partial",
   "theorems": [
    "Denorm.C44_text_meaning_partial",
    "Denorm.C44_intended_partial",
    "Denorm.C44_violated_on_postgresql",
    "Denorm.C44_violated_on_mysql",
    "Denorm.C44_violated_no_columns"
   ],
   "note": "token level, with a precedence parser; false on PostgreSQL (AND/OR precedence), on MySQL (content type ignored) and for an empty column list"
  },
  {
   "property": "C45",
   "status": "partial",
   "theorems": [
    "Denorm.C45_same_instance_partial",
    "Denorm.C45_violated_by_order"
   ],
   "note": "false when the field that is read is declared after the one that reads it (witness on every backend); proved otherwise"
  },
  {
   "property": "C13",
   "status": "partial",
   "theorems": [
    "Denorm.C13_between_partial",
    "Denorm.C13_save",
    "Denorm.C13_count_right",
    "Denorm.C13_sum_right",
    "Denorm.C13_create_zero",
    "Denorm.C13_violated_race"
   ],
   "note": "a save() during which nobody else writes is the same statement without the aggregate columns and keeps the counts right; false when another session changes the count between the read of the stored value and the UPDATE (witness on every backend)"
  },
  {
   "property": "C16",
   "status": "partial",
   "theorems": [
    "Denorm.C16_save_partial",
    "Denorm.C16_create_partial",
    "Denorm.C16_violated_own_trigger"
   ],
   "note": "what save() stores is the freshly drawn key, in the row and in the attribute, unless a trigger that the save itself sets off rewrites it (witness on sqlite and PostgreSQL)"
  },
  {
   "property": "C28",
   "status": "partial",
   "theorems": [
    "Denorm.C28_stored",
    "Denorm.C28_object_partial",
    "Denorm.C28_unrelated",
    "Denorm.C28_violated_cached_object"
   ],
   "note": "the key of the returned object is what is stored; on Django before 3.0 the instance keeps the previously loaded object after save() (witness)"
  },
  {
   "property": "C43",
   "status": "partial",
   "theorems": [
    "Denorm.C43_update_partial",
    "Denorm.C43_m2m",
    "Denorm.C43_violated_instance"
   ],
   "note": "false for a callback of a denormalized ForeignKey that returns an instance: it never equals the stored key, so a change is reported every time (witness)"
  },
  {
   "property": "C46",
   "status": "partial",
   "theorems": [
    "Denorm.C46_no_index_error_partial",
    "Denorm.C46_inserted_partial",
    "Denorm.C46_violated_explicit_key"
   ],
   "note": "false for models with a CountField or SumField: save() raises IndexError (witness on every backend); proved for models without and for existing rows"
  },
  {
   "property": "C26",
   "status": "partial",
   "theorems": [
    "Denorm.C26_set",
    "Denorm.C26_exact_partial",
    "Denorm.C26_created_once_more",
    "Denorm.C26_chosen_key_once_more",
    "Denorm.C26_created_filled_partial",
    "Denorm.C26_never_loops",
    "Denorm.C26_inherited_partial",
    "Denorm.C26_not_local",
    "Denorm.C26_violated_zero_key",
    "Denorm.C26_violated_proxy"
   ],
   "note": "false for an instance whose key is falsy (0 or ''): the relation is never set (witness); false for instances of proxy models and for fields inherited from a concrete model, because the handlers are connected with the declaring class only (C26_not_local for every such field; witness); proved for every other key, any number of fields, any old relation, fields of the class itself and of abstract bases"
  },
  {
   "property": "C27",
   "status": "partial",
   "theorems": [
    "Denorm.C27_not_registered",
    "Denorm.C27_violated",
    "Denorm.C27_stale_marked_partial"
   ],
   "note": "false: the declarations of ManyToManyFields are never found, so there are no triggers for them (witness on every backend); proved when a concrete field of the model has the same dependencies"
  },
  {
   "property": "C30",
   "status": "partial",
   "theorems": [
    "Denorm.C30_callback",
    "Denorm.C30_cachekey_partial",
    "Denorm.C30_violated_cachekey",
    "Denorm.C30_violated_aggregate"
   ],
   "note": "proved for @denormalized fields and for CacheKeyFields used in one class; false for a CacheKeyField of an abstract base with two subclasses: the dependency objects are shared and belong to the last subclass (witness on every backend); false for CountField and SumField, whose object is shared too"
  },
  {
   "property": "C42",
   "status": "proved",
   "theorems": [
    "Denorm.C42_decorators",
    "Denorm.C42_each_class",
    "Denorm.C42_cached",
    "Denorm.C42_cached_class_partial"
   ],
   "note": "any sequence of class statements, names resolved late or at once; @denormalized and @cached fields (for the latter not those of abstract bases with subclasses, see C30)"
  },
  {
   "property": "C32",
   "status": "partial",
   "theorems": [
    "Denorm.C32_none_left",
    "Denorm.C32_others_kept_partial",
    "Denorm.C32_failed_kept",
    "Denorm.C32_violated"
   ],
   "note": "all of django-denorm's triggers are removed after any history of installs and drops; false for other programs' triggers whose names begin with denorm (witness on every backend)"
  },
  {
   "property": "C33",
   "status": "partial",
   "theorems": [
    "Denorm.C33_all_or_nothing_partial",
    "Denorm.C33_installed",
    "Denorm.C33_second_fails_partial",
    "Denorm.C33_drop_install",
    "Denorm.C33_succeeds",
    "Denorm.C33_behaviour",
    "Denorm.C33_empty_watch_list",
    "Denorm.C33_violated_other_database",
    "Denorm.C33_violated_mysql",
    "Denorm.C33_violated_mysql_twice"
   ],
   "note": "proved for the default database in sqlite and PostgreSQL; false in other databases (atomic() without using), in MySQL (DDL commits) and for long names in MySQL (random suffix: a second install duplicates the triggers); witnesses"
  },
  {
   "property": "C35",
   "status": "partial",
   "theorems": [
    "Denorm.C35_rounds_partial",
    "Denorm.C35_interrupt",
    "Denorm.C35_error_ends",
    "Denorm.C35_single",
    "Denorm.C35_violated_once",
    "Denorm.C35_violated_pidfile",
    "Denorm.C35_violated_no_errno"
   ],
   "note": "For every outcome of every call: without -o the daemon flushes, sleeps and commits each round as long as nothing raises; an interrupt at any call of a round leads to a commit and an exit; a live process in the pid file keeps a second daemon from flushing. Violated: -o never flushes; any other exception ends the daemon; in Python 3 the background daemon never writes its pid file; from Python 3.7 on it does not start without a pid file."
  },
  {
   "property": "C36",
   "status": "proved",
   "theorems": [
    "Denorm.C36_process_response"
   ],
   "note": "For every response and every outcome of flush(): exactly one call of flush(), the very response is returned, database errors are logged, all others raised. Logging is taken to return."
  },
  {
   "property": "C41",
   "status": "partial",
   "theorems": [
    "Denorm.C41_denormalized",
    "Denorm.C41_aggregate_partial",
    "Denorm.C41_declaration_partial",
    "Denorm.C41_violated",
    "Denorm.C41_cachekey",
    "Denorm.C41_cached"
   ],
   "note": "For all constructor arguments: the column can be rebuilt, for every field class given to @denormalized (that can deconstruct its own fields), for aggregates, cache keys and @cached; the rebuilt aggregate deconstructs to the same arguments. Violated: filter, exclude, skip and the summed field of aggregates are lost."
  },
  {
   "property": "C17",
   "status": "partial",
   "theorems": [
    "Denorm.C17_load_partial",
    "Denorm.C17_save_partial",
    "Denorm.C17_create_partial",
    "Denorm.C17_violated_default",
    "Denorm.C17_violated_create",
    "Denorm.C17_violated_order",
    "Denorm.C17_violated_undecorated"
   ],
   "note": "After any history of statements with their triggers, saves, creations, loads, constructions, evictions, savepoints and rollbacks, a loaded or saved instance holds what the function returns for the stored row. Refuted for the default key 0 (constructed instances, rows that existed before the field), for functions that read the primary key of an instance being created, and for functions that read a field computed after the attribute; a function without @depend_on_related cannot be declared at all."
  },
  {
   "property": "C47",
   "status": "partial",
   "theorems": [
    "Denorm.C47_text_partial",
    "Denorm.C47_executed_partial",
    "Denorm.Texts.C47_violated_case"
   ],
   "note": "A lexer and parser for the emitted SQL, proved to read every sent text as the generated trigger, for all declarations whose tables, key columns and denormalized fields have names that need no quotes (the code does not quote them) and whose other columns have no quotes or percent signs, on PostgreSQL no `$$`; filter values are escaped as the drivers do, on PostgreSQL they contain no `$$`, NUL or line break. The texts are derived from what Trigger.sql returns, with placeholders, by a model of `cursor.execute(sql, args)`; UPDATE triggers have to watch a column on sqlite and PostgreSQL. Violated: an upper-case table name on PostgreSQL."
  },
  {
   "property": "C48",
   "status": "partial",
   "theorems": [
    "Denorm.C48_accepted_partial",
    "Denorm.C48_executed_partial",
    "Denorm.C48_empty_exclude_partial",
    "Denorm.C48_violated_empty_list",
    "Denorm.Texts.C48_violated_reserved",
    "Denorm.Texts.C48_violated_value",
    "Denorm.Texts.C48_violated_no_columns",
    "Denorm.C48_violated_proxy",
    "Denorm.Texts.C48_violated_percent",
    "Denorm.Texts.C48_violated_dollar",
    "Denorm.C48_reflected_model",
    "Denorm.C48_reflected_generic_partial",
    "Denorm.C48_violated_generic"
   ],
   "note": "Accepted under the conditions of C47. Violated: a reserved word as table name, a value in a filter on sqlite (placeholder inside a trigger), no column left to watch, a percent sign in a column name on PostgreSQL and MySQL (execute raises), `$$` in a filter value on PostgreSQL, an empty list in a filter (EmptyResultSet is raised and no trigger of the project is installed), a dependency on a proxy model on sqlite and PostgreSQL (its UPDATE trigger watches no column), a GenericRelation to a model that a OneToOneField points to, such as a multi-table parent (AttributeError, exactly then)."
  },
  {
   "property": "C49",
   "status": "partial",
   "theorems": [
    "Denorm.C49_printed_partial",
    "Denorm.C49_executed_partial",
    "Denorm.Texts.C49_violated_text",
    "Denorm.Texts.C49_violated_sqlite",
    "Denorm.Texts.C49_violated_name",
    "Denorm.Texts.C49_violated_percent"
   ],
   "note": "Equal if filters compare with numbers only (on sqlite: with nothing but NULL) and, on MySQL, names have at most fifty characters. Violated: texts are printed without quotes; on sqlite values are printed where placeholders are sent; MySQL draws new random names; with a percent sign in a column name denorm_sql raises where sqlite installs the trigger."
  },
  {
   "property": "C50",
   "status": "proved",
   "theorems": [
    "Denorm.C50_data",
    "Denorm.C50_history",
    "Denorm.C50_rows",
    "Denorm.C50_needs_blind"
   ],
   "note": "Row by row and column by column, for every statement and history of the kind the property speaks of; that the restriction is needed is shown by a statement on sqlite that copies a CountField."
  },
  {
   "property": "C51",
   "status": "partial",
   "theorems": [
    "Denorm.C51_sqlite",
    "Denorm.C51_tables_partial",
    "Denorm.C51_postgresql_partial",
    "Denorm.C51_mysql_partial",
    "Denorm.C51_violated_postgresql",
    "Denorm.C51_violated_mysql",
    "Denorm.C51_violated_mysql_tree"
   ],
   "note": "Proved on sqlite for all declarations; on MySQL and PostgreSQL when no table feeds its own maintained fields, or (with skip) no column leads back to itself. Violated: a CountField and a CacheKeyField that depend on each other's tables recurse without end on PostgreSQL and are refused by MySQL, as is a CountField over a relation to the same model."
  },
  {
   "property": "C52",
   "status": "partial",
   "theorems": [
    "Denorm.C52_columns_partial",
    "Denorm.C52_violated_db_column",
    "Denorm.Renamed.C52_violated_count_key",
    "Denorm.Renamed.C52_violated_count_column",
    "Denorm.Renamed.C52_violated_inherited_forward",
    "Denorm.Renamed.C52_violated_inherited_backward",
    "Denorm.Renamed.C52_violated_clash"
   ],
   "note": "For all declarations of projects without db_column whose relations are not inherited from a multi-table parent. Violated: every watched field with a db_column (attname is used as column), a CountField over such a key or with a db_column, dependencies through an inherited ForeignKey, the name clash of C34."
  },
  {
   "property": "C53",
   "status": "partial",
   "theorems": [
    "Denorm.C53_by_name",
    "Denorm.C53_same_kind_partial",
    "Denorm.C53_setting",
    "Denorm.C53_violated_spatialite",
    "Denorm.C53_violated_toplevel",
    "Denorm.C53_violated_other_kind"
   ],
   "note": "The module is chosen from the default database's settings only. Right if all databases are of one kind. Violated: another kind of database with --database (its parser cannot read the text, for all six combinations), SpatiaLite, engines outside a package."
  },
  {
   "property": "C54",
   "status": "partial",
   "theorems": [
    "Denorm.C54_default_partial",
    "Denorm.C54_rebuild_partial",
    "Denorm.C54_violated_flush",
    "Denorm.C54_violated_rebuildall"
   ],
   "note": "Without database routers flush() and rebuildall() only ever look at the default database."
  },
  {
   "property": "C55",
   "status": "partial",
   "theorems": [
    "Denorm.C55_flush_partial",
    "Denorm.C55_violated"
   ],
   "note": "From Django 2.1 on, flush() raises NotSupportedError on sqlite and MySQL, whatever the content: only NotImplementedError is caught."
  },
  {
   "property": "C56",
   "status": "partial",
   "theorems": [
    "Denorm.C56_marked_partial",
    "Denorm.C56_returned_partial",
    "Denorm.C56_violated"
   ],
   "note": "Any number of calls, all schedules, also with other sessions (as in C21), for fields computed from plain data. Violated for fields computed from computed fields: the call that was overtaken saves its old value and deletes the marker."
  },
  {
   "property": "C57",
   "status": "partial",
   "theorems": [
    "Denorm.C57_save_partial",
    "Denorm.C57_flush_partial",
    "Denorm.C57_rebuild_partial",
    "Denorm.C57_marks",
    "Denorm.C57_violated_save",
    "Denorm.C57_violated_flush",
    "Denorm.C57_violated_rebuild"
   ],
   "note": "As if there were no such managers, if models with a CountField or SumField have none (and rebuildall() is not asked for such models). Violated, in every project: saving a hidden instance with a CountField raises IndexError, which blocks flush() for good; rebuildall() skips hidden rows."
  },
  {
   "property": "C58",
   "status": "partial",
   "theorems": [
    "Denorm.C58_partial",
    "Denorm.C58_clean_partial",
    "Denorm.C58_alone_partial",
    "Denorm.C58_sqlite_partial",
    "Denorm.C58_by_value_partial",
    "Denorm.C58_mysql_partial",
    "Denorm.Chain.C58_violated",
    "Denorm.Album.C58_violated_handed_over"
   ],
   "note": "READ COMMITTED. For all schedules if flush() never handles an instance that sees other rows once a transaction that is still open commits, without being marked by it; this holds on sqlite, for fields whose related rows refer to the instance (ForeignKey backwards, GenericRelation), on MySQL for all kinds of relations with foreign key constraints in the database as long as no statement hands over a many-to-many link to another instance, and wherever flush() is called while no transaction is open. Violated on PostgreSQL, on MySQL without foreign key constraints, and on MySQL with constraints if links are handed over: a trigger marks the rows that refer to the changed row as far as the session can see them, so an instance inserted (or linked) meanwhile is not marked."
  },
  {
   "property": "C59",
   "status": "partial",
   "theorems": [
    "Denorm.C59_texts_partial",
    "Denorm.C59_marked_partial",
    "Denorm.C59_count_partial",
    "Denorm.Texts.C59_violated"
   ],
   "note": "The composition of C47, C33, C02-C05/C37 and C11: for declarations whose names need no quotes and whose values can be written as literals. Violated on PostgreSQL by a table name with an upper-case letter: everything is accepted, and nothing is ever marked."
  },
  {
   "property": "C60",
   "status": "partial",
   "theorems": [
    "Denorm.C60_foreign_key_partial",
    "Denorm.C60_violated",
    "Denorm.C60_violated_forward",
    "Denorm.Labels.C60_violated_18",
    "Denorm.Labels.C60_violated_18_sum"
   ],
   "note": "For ForeignKeys the triggers are the same in every version. Violated for many-to-many relations: since Django 1.9 every project with such an aggregate gets an AttributeError from denorm_init and no trigger at all; in 1.8 too for a ManyToManyField of the model itself, and for the other direction links are looked up in the wrong table."
  },
  {
   "property": "C61",
   "status": "partial",
   "theorems": [
    "Denorm.C61_quiet_partial",
    "Denorm.C61_flush_partial",
    "Denorm.C61_violated_endless",
    "Denorm.Chain.C61_violated",
    "Denorm.Chain.C61_violated_deleted"
   ],
   "note": "Without other sessions flush() does the same as without a transaction. Violated: a marker that a second flush() has handled stays in the snapshot, so the first one never returns, in every project; a value computed from the snapshot is saved and the marker of the newer change deleted; an instance that another session deletes after the first query of flush() is inserted again."
  },
  {
   "property": "C62",
   "status": "partial",
   "theorems": [
    "Denorm.C62_marked_partial",
    "Denorm.C62_flush_partial",
    "Denorm.C62_count_partial",
    "Denorm.C62_sum_partial",
    "Denorm.C62_fields",
    "Denorm.C62_violated_key",
    "Denorm.Chain.C62_violated_bulk_unsafe"
   ],
   "note": "All sequences of calls. Loading fixtures with a CountField or SumField is left out of the claims about them (C63). SumFields: where programs and callbacks put numbers, not NULL, into the summed columns (C12). Violated for cache keys in every project: save(update_fields=..) without the key's name leaves the key as it is."
  },
  {
   "property": "C63",
   "status": "partial",
   "theorems": [
    "Denorm.C63_marked_partial",
    "Denorm.Demo.C63_violated_count"
   ],
   "note": "For computed values, whatever the fixture contains. Violated for CountField: the number comes with the fixture, and the triggers add the related objects once more."
  },
  {
   "property": "C64",
   "status": "partial",
   "theorems": [
    "Denorm.C64_count_partial",
    "Denorm.C64_sum_partial",
    "Denorm.Demo.C64_violated_unconstrained",
    "Denorm.Demo.C64_violated_save"
   ],
   "note": "READ COMMITTED with row locks, for all schedules, where the relation has a foreign key constraint in the database and every save() writes back the aggregate that is in the row at this moment. Violated without the constraint (an instance and a related object are created by two sessions at the same time), and by a save() that has read the aggregate before another session's commit."
  },
  {
   "property": "C65",
   "status": "partial",
   "theorems": [
    "Denorm.C65_truthy_partial",
    "Denorm.C65_plain",
    "Denorm.Chain.C65_violated"
   ],
   "note": "for fields of models whose instances are truthy, whatever those of other models are; violated for a falsy instance: `if dirty_instance.content_object:` takes it for a missing one and deletes its marker without saving it"
  },
  {
   "property": "C66",
   "status": "partial",
   "theorems": [
    "Denorm.C66_nothing_lost_partial",
    "Denorm.C66_project_partial",
    "Denorm.C66_violated_stuck",
    "Denorm.C66_violated_removed_model",
    "Denorm.Chain.C66_violated"
   ],
   "note": "however flush() ends, every out-of-date instance is still marked, and the next call that meets no failure makes everything right (C66_project_partial: in projects as in C85, with CountFields and SumFields). Violated: a failing instance that comes first keeps all others from being flushed, however often flush() is called; a marker of a removed model makes every flush() fail."
  },
  {
   "property": "C67",
   "status": "partial",
   "theorems": [
    "Denorm.C67_count",
    "Denorm.C67_sum_partial",
    "Denorm.C67_refused_iff",
    "Denorm.C67_count_stored",
    "Denorm.Demo.C67_violated_negative",
    "Denorm.Demo.C67_violated_large",
    "Denorm.Demo.C67_violated_null"
   ],
   "note": "proved for CountField, and for SumField while the summed column holds no negative number (and is not itself maintained by triggers). Violated by negative numbers: the column is a PositiveIntegerField and the new number is added before the old one is subtracted, so the sum can be negative on the way, or too large for the column on PostgreSQL and MySQL; a row with NULL in the summed column is refused, too. C67_refused_iff says exactly when an engine with this column type refuses."
  },
  {
   "property": "C68",
   "status": "partial",
   "theorems": [
    "Denorm.C68_declared_partial",
    "Denorm.C68_unseen",
    "Denorm.C68_child_only",
    "Denorm.C68_lost",
    "Denorm.Renamed.C68_violated",
    "Denorm.Renamed.C68_violated_dependency"
   ],
   "note": "proved for fields that declare the parent as a dependency through the parent link. Violated otherwise (base.py:107-108 has a FIXME): triggers are attached to the child's own table only, so a change of an inherited field, for example by QuerySet.update() of the child, marks nothing."
  },
  {
   "property": "C69",
   "status": "partial",
   "theorems": [
    "Denorm.C69_keys_statement",
    "Denorm.C69_keys_count_partial",
    "Denorm.C69_violated_other_table",
    "Denorm.JoinDemo.C69_violated_own_table",
    "Denorm.JoinDemo.C69_violated_wrong_row"
   ],
   "note": "proved for lookups that ask for keys only (author=5, author__id=5). Violated by all others: the joins of the lookup are left out of the trigger, so every INSERT and DELETE of a related row fails with an unknown column; if the lookup leads to the aggregate's own table, the row being updated is taken instead, and later changes of that row are not counted."
  },
  {
   "property": "C70",
   "status": "proved",
   "theorems": [
    "Denorm.C70_text",
    "Denorm.C70_fits",
    "Denorm.C70_distinct",
    "Denorm.C70_python"
   ],
   "note": "in double arithmetic: PostgreSQL's numbers are multiples of 2^-53 from 0 to 1, MySQL's an integer divided by 2^30 - 1 and rounded; the multiplication by 2^63 - 2 is one by 2^63 in doubles, which just fits because 1 is never drawn."
  },
  {
   "property": "C71",
   "status": "partial",
   "theorems": [
    "Denorm.C71_triggers",
    "Denorm.C71_values_partial",
    "Denorm.C71_init_without_drop",
    "Denorm.C71_violated_migration",
    "Denorm.C71_violated_aggregate"
   ],
   "note": "the triggers: proved for all versions, histories and migrations. The values: for @denormalized fields that one save makes right; a new CountField or SumField stays at its default in the rows that exist (C71_violated_aggregate). On sqlite a migration alone removes the triggers of the tables it changes, and later statements on them are lost (C71_violated_migration, proved for every project); denorm_init alone does not repair this, it raises and changes nothing (C71_init_without_drop)."
  },
  {
   "property": "C72",
   "status": "partial",
   "theorems": [
    "Denorm.C72_after_request_partial",
    "Denorm.C72_nothing_lost_partial",
    "Denorm.C72_called",
    "Denorm.C72_switched_off",
    "Denorm.C72_rolled_back",
    "Denorm.Chain.C72_violated_streaming",
    "Denorm.C72_served",
    "Denorm.C72_answered",
    "Denorm.C72_view_undone"
   ],
   "note": "for @denormalized fields that one save makes right, and requests one after the other. With the middleware it is false for what is written after process_response: while the content of a streaming response is produced, or by a middleware listed before it (C72_violated_streaming); the deprecated setting DENORM_FLUSH_AFTER_REQUEST has no such gap. For projects as in C85, with views that are programs with nested blocks, exceptions and flush() (C72_served, C72_answered): whatever the requests before did and however flush() ended in them, after a flush() that returns all fields and aggregates are right, and it does return if the project's own code raises nothing."
  },
  {
   "property": "C73",
   "status": "partial",
   "theorems": [
    "Denorm.C73_flush_partial",
    "Denorm.C73_rebuildall_partial",
    "Denorm.C73_idle_partial",
    "Denorm.C73_idle_rebuild_partial",
    "Denorm.Chain.C73_violated_auto_now"
   ],
   "note": "for every outcome of the call and every hook. False for projects with other fields that compute their value when saved, such as DateTimeField(auto_now=True): flush() counts as a modification. The part about databases in which everything is right excludes CacheKeyFields, which every save renews, and the trigger conditions of C06 that are TRUE although nothing changed. Changes of other sessions in the middle of a save: C21."
  },
  {
   "property": "C74",
   "status": "proved",
   "theorems": [
    "Denorm.C74_program",
    "Denorm.C74_history"
   ],
   "note": "all hypotheses are about models and declarations (`LayeredProject`); what a program may do is `LegalProgram`: keys are unique and not NULL, new instances have no links or counted objects yet (`LegalCalls`, `CountCalls`), and there are numbers, not NULL, in the columns that SumFields sum (`SumCalls`; these columns may themselves be denormalized). \"Without an error\" holds for every sufficiently high limit on trigger recursion. One session at a time; several sessions: C21, C64."
  },
  {
   "property": "C75",
   "status": "partial",
   "theorems": [
    "Denorm.C75_no_deadlock_partial",
    "Denorm.C75_sqlite_partial",
    "Denorm.Till.C75_violated_move",
    "Denorm.Till.C75_violated_mysql",
    "Denorm.Till.C75_violated_txn",
    "Denorm.Till.C75_violated_bulk",
    "Denorm.Press.C75_violated_two_links"
   ],
   "note": "proved for any number of sessions whose statements write one row each and leave it with its parent, where rows are counted along one foreign key and counters lead upwards (chains of any length, any number of aggregates per table), with PostgreSQL's constraints or without; and for sqlite without any condition. The full property is false, on PostgreSQL and MySQL: two UPDATEs that swap the parents of two rows, two transactions or two bulk INSERTs that add to the same two parents in opposite order, two rows counted along two foreign keys; and, on MySQL with foreign key constraints, already two single-row INSERTs under the same parent (shared lock for the constraint, then the counter wants to write the row). None of these would deadlock without the triggers. Missing in the positive part: CacheKeyFields and ManyToMany aggregates."
  },
  {
   "property": "C76",
   "status": "partial",
   "theorems": [
    "Denorm.C76_same_sight_partial",
    "Denorm.C76_serial_partial",
    "Denorm.C76_sqlite_partial",
    "Denorm.Notice.C76_violated_unconstrained",
    "Denorm.Keys.C76_violated_forward",
    "Denorm.Keys.C76_violated_m2m"
   ],
   "note": "proved for relations in which the related rows refer to the instance (a ForeignKey followed backwards, a GenericRelation), for all schedules on each database, if rows that refer to an instance refer to one that the session sees (foreign key constraint) and keys drawn by Python are new; and for all kinds of relations, without constraints, wherever transactions do not overlap, in particular on sqlite. The full property is false: without the constraint (a GenericRelation never has one); and, on PostgreSQL and on MySQL without constraints, for ForeignKeys of the instance itself and for many-to-many relations: the trigger renews the keys of the instances it sees, and does not see one that another session has just related to the changed row. Not covered: what a session reads in its own transaction before it is rolled back; relations followed forward on MySQL with constraints."
  },
  {
   "property": "C77",
   "status": "partial",
   "theorems": [
    "Denorm.C77_save",
    "Denorm.C77_create",
    "Denorm.C77_flush_order",
    "Denorm.C77_flush",
    "Denorm.C77_violated_given_key"
   ],
   "note": "proved for instances that have a row, for instances whose key the database chooses and for everything flush() saves. False for save() of an instance that was given a key and has no row: Django calls every pre_save for the UPDATE that matches nothing and again for the INSERT."
  },
  {
   "property": "C78",
   "status": "partial",
   "theorems": [
    "Denorm.C78_key_partial",
    "Denorm.C78_count_key_partial",
    "Denorm.C78_violated_lost",
    "Denorm.C78_violated_count",
    "Denorm.C78_violated_cachekey",
    "Denorm.Atlas.C78_violated_forward",
    "Denorm.Atlas.C78_violated_backward",
    "Denorm.Atlas.C78_violated_wrong_row",
    "Denorm.Atlas.C78_violated_flush_raises"
   ],
   "note": "proved where the target column holds the values of the primary key. Otherwise false, and for every project: the triggers compare the ForeignKey with the primary key of the other model whatever to_field is, so that where no code is a key no instance is marked, no count changes and no cache key changes; where a code is the key of another row, that row is changed instead; where codes are texts and keys are numbers, flush() raises from then on."
  },
  {
   "property": "C79",
   "status": "partial",
   "theorems": [
    "Denorm.C79_trigger_text",
    "Denorm.C79_python_text",
    "Denorm.C79_uuid_text",
    "Denorm.C79_distinct",
    "Denorm.C79_same_text",
    "Denorm.C79_history",
    "Denorm.C79_flush",
    "Denorm.C79_order",
    "Denorm.C79_nothing_stale",
    "Denorm.C79_rebuild_partial",
    "Denorm.C79_violated_uuid",
    "Denorm.Notes.C79_violated_rebuild"
   ],
   "note": "proved for integer and text keys on every backend and for UUIDs on PostgreSQL; for UUIDs on sqlite and MySQL everything but one text per instance, which is false: rebuildall() writes dashes and triggers do not, so that rebuildall() saves instances twice. Not modelled: dates, decimals, floats as keys, MySQL's collations."
  },
  {
   "property": "C80",
   "status": "partial",
   "theorems": [
    "Denorm.C80_whole_partial",
    "Denorm.Demo.C80_violated_drift",
    "Denorm.Demo.C80_violated_save"
   ],
   "note": "proved exactly while the decimals are whole numbers and not negative. Violated otherwise: the column is a PositiveIntegerField and every trigger rounds (PostgreSQL, MySQL), so that the error grows without bound (for every N up to the column's limit there is a history after which the sum is N and no related row exists); on sqlite the sum is kept exactly until save() or flush() cuts off its decimals, and then deletions of related rows are refused."
  },
  {
   "property": "C81",
   "status": "partial",
   "theorems": [
    "Denorm.C81_right_partial",
    "Denorm.C81_never_lost_partial",
    "Denorm.C81_ends",
    "Denorm.C81_one_pass",
    "Denorm.C81_sqlite_partial",
    "Denorm.C81_same_values_partial",
    "Denorm.C81_violated_portions"
   ],
   "note": "right and crash safe for the fields of C01, whatever markers are read in whatever order and number; portions end whenever dependencies between instances are acyclic; sqlite's cursor (rows in order of their ids, changes visible) modelled exactly and reduced to one pass that ends when the table is empty. Violated for a field computed from one declared after it (C45): its value depends on the size of the portions."
  },
  {
   "property": "C82",
   "status": "partial",
   "theorems": [
    "Denorm.C82_partial",
    "Denorm.C82_imports_partial",
    "Denorm.C82_order_partial",
    "Denorm.C82_classes",
    "Denorm.C82_aggregate_partial",
    "Denorm.C82_last",
    "Denorm.C82_violated_backward",
    "Denorm.C82_violated_class",
    "Denorm.C82_violated_self",
    "Denorm.C82_violated_last"
   ],
   "note": "right for all programs in which the relation that a dependency needs is resolved when the dependency is looked at, in particular, in every order, when no relation is written with a name. Violated for depend_on_related('Post') with ForeignKey('Forum') in Post when Forum comes first, for depend_on_related(Cls) or 'self' with ForeignKey('Cls') in every order, and for a CountField or SumField whose manager comes from the last model of the project (universal: C82_last)."
  },
  {
   "property": "C83",
   "status": "partial",
   "theorems": [
    "Denorm.C83_installed_again_partial",
    "Denorm.C83_violated_raises",
    "Denorm.C83_violated_refused",
    "Denorm.C83_violated_other"
   ],
   "note": "right again after denorm_drop, denorm_init and denorm_rebuild, whatever the numbers were and are (fields of C71). Violated without these commands: the number is a literal in the triggers. Where the numbers are new, every statement that marks something is refused by the foreign key of the markers or, without it, makes every flush() raise (both for every project); where two models have exchanged their numbers, instances of the wrong model are saved and the field stays out of date (witness on every backend)."
  },
  {
   "property": "C84",
   "status": "partial",
   "theorems": [
    "Denorm.C84_marked_partial",
    "Denorm.C84_count_partial",
    "Denorm.C84_sum_partial",
    "Denorm.C84_flush_partial",
    "Denorm.C84_flush_count",
    "Denorm.C84_flush_sum",
    "Denorm.C84_create",
    "Denorm.C84_deep_marked_partial",
    "Denorm.C84_deep_count_partial",
    "Denorm.C84_deep_sum_partial",
    "Denorm.C84_deep_flush_partial",
    "Denorm.C84_deep_flush_count",
    "Denorm.C84_deep_flush_sum",
    "Denorm.C84_deep_create",
    "Denorm.C84_violated_create",
    "Denorm.C84_violated_deep_create"
   ],
   "note": "values right or marked, and CountFields and SumFields (of numbers, as in C12) right, after any save of a child (new, existing, made from an instance of the parent), flush() as in C01 whichever models are children, and it keeps CountFields and SumFields right, create() never raises from pre_save. Violated in every project, with save() of Django 1.8 to 2.0: a new instance of a child with a CountField or SumField of its own raises IndexError; with three or more levels so does create() if a model in the middle has such a field. The theorems with `deep` are about any number of levels. One parent each; fields as in C62 and C01."
  },
  {
   "property": "C85",
   "status": "proved",
   "theorems": [
    "Denorm.C85_program",
    "Denorm.C85_history"
   ],
   "note": "all hypotheses are about models and declarations (`RankedProject`); what a program may do is `LegalProgram`, as in C74. What cache keys mean to their readers is C15, C16 and C76. \"Without an error\" holds for every sufficiently high limit on trigger recursion. One session at a time; several sessions: C21, C64, C76."
  },
  {
   "property": "C86",
   "status": "partial",
   "theorems": [
    "Denorm.C86_marked_partial",
    "Denorm.C86_flush_partial",
    "Denorm.C86_count",
    "Denorm.C86_sum_partial",
    "Denorm.C86_layered",
    "Denorm.C86_current",
    "Denorm.C86_violated_unsafe"
   ],
   "note": "proved without the setting, for the fields of C62 and C01; CountFields and SumFields are right all the time; in the projects of C74 flush() returns and everything is right. Violated with DENORM_BULK_UNSAFE_TRIGGERS in every project whose table has no other triggers: what the callback returns for the old objects is stored, nothing is marked, and flush() does nothing."
  },
  {
   "property": "C87",
   "status": "partial",
   "theorems": [
    "Denorm.C87_returns_partial",
    "Denorm.C87_no_error_partial",
    "Denorm.C87_right_partial",
    "Denorm.C87_violated_taken",
    "Denorm.C87_violated_forever",
    "Denorm.C87_violated_exchange"
   ],
   "note": "proved for fields computed from plain data if the old and the new values of different instances are all different. Violated, in every project and for every order of the markers, when the right value of every marked instance is still held by another one (two instances exchange their values): flush() raises, changes nothing, and so do all later calls."
  },
  {
   "property": "C88",
   "status": "partial",
   "theorems": [
    "Denorm.C88_program_partial",
    "Denorm.C88_calls_partial",
    "Denorm.C88_violated_own",
    "Denorm.C88_violated_unsafe"
   ],
   "note": "proved for layered projects (as C74) with any idempotent column types, where numbers stay numbers in the columns that are summed: after any SQL, and after any program that saves, creates or loads instances whose attributes are not rounded. Violated with DENORM_BULK_UNSAFE_TRIGGERS (save() stores the value for the attributes in memory beside the attributes as they are stored, and marks nothing), and for a field computed from a computed field of the same instance: save() computes it from the value in memory and not from the one that is stored, and the difference stays."
  },
  {
   "property": "C89",
   "status": "partial",
   "theorems": [
    "Denorm.C89_refresh_partial",
    "Denorm.C89_violated_order",
    "Denorm.C89_violated_number",
    "Denorm.C89_violated_deferred",
    "Denorm.C89_violated_clean",
    "Denorm.C89_violated_dump",
    "Denorm.C89_violated_fixture",
    "Denorm.C89_loaded"
   ],
   "note": "refresh_from_db(): proved for functions that return texts other than numbers and read columns declared before the attribute, after any history. Violated, in every project: for columns declared after it (refresh_from_db() evaluates the function with the old ones and caches the result under the right value); for numbers (0 is the name under which constructed instances are cached); an attribute that was deferred shows the descriptor object; full_clean() and loaddata refuse functions' texts where the column holds a number."
  },
  {
   "property": "C90",
   "status": "partial",
   "theorems": [
    "Denorm.C90_marked_partial",
    "Denorm.C90_flush_partial",
    "Denorm.C90_count_partial",
    "Denorm.C90_sum_partial",
    "Denorm.C90_project_partial",
    "Denorm.C90_violated_replace",
    "Denorm.C90_violated_truncate"
   ],
   "note": "Proved on all three backends for upserts that update or skip rows that clash, and for REPLACE on MySQL (not into the other table of a many-to-many relation), mixed with any legal statements; for aggregates not into tables that are related to themselves. C90_project_partial: for whole projects as in C85, with fields of all kinds at once. Violated by REPLACE (INSERT OR REPLACE) on sqlite: the row that is replaced is deleted without triggers, so the instance it belonged to keeps its count and its value, unmarked; and by TRUNCATE, in every project with a CountField that is not zero."
  },
  {
   "property": "C91",
   "status": "partial",
   "theorems": [
    "Denorm.C91_marked_partial",
    "Denorm.C91_flush_partial",
    "Denorm.C91_count_partial",
    "Denorm.C91_sum_partial",
    "Denorm.C91_unreferenced_partial",
    "Denorm.C91_references_partial",
    "Denorm.C91_references_flush_partial",
    "Denorm.C91_project_partial",
    "Denorm.Crates.C91_violated"
   ],
   "note": "Proved on sqlite and PostgreSQL for all sets of foreign keys; for deletions from the other table of a many-to-many relation (where the links go after the row) if references are in order at the end. C91_project_partial: for whole projects as in C85, with fields of all kinds at once; the next flush() returns and makes everything right. Violated on MySQL, where such deletions run no triggers: counts and values stay as they were, unmarked, and flush() does not help; there it holds for statements on tables that no such foreign key refers to. Django's own on_delete issues plain statements (C62)."
  },
  {
   "property": "C92",
   "status": "partial",
   "theorems": [
    "Denorm.C92_marked_partial",
    "Denorm.C92_flush_partial",
    "Denorm.C92_violated_count",
    "Denorm.C92_violated_dangling",
    "Denorm.C92_violated_reinserted"
   ],
   "note": "Proved for @denormalized fields whose triggers can watch the keys (no skip list names them). Violated for CountField and SumField, which count related rows twice or not at all when keys change; for instances whose reference points nowhere in the end (db_constraint=False), which stay unmarked; and where a row on the other side of a many-to-many relation is deleted and inserted again under the same key while it is linked to."
  },
  {
   "property": "C93",
   "status": "partial",
   "theorems": [
    "Denorm.C93_marked_partial",
    "Denorm.C93_flush_partial",
    "Denorm.C93_nothing_partial",
    "Denorm.C93_nothing_flush_partial",
    "Denorm.C93_count",
    "Denorm.C93_sum_partial",
    "Denorm.C93_exactly",
    "Denorm.C93_unreferenced",
    "Denorm.C93_finishes",
    "Denorm.C93_project_partial",
    "Denorm.C93_project_ends_partial",
    "Denorm.C93_violated"
   ],
   "note": "Proved on every backend (MySQL included: it is Django that cascades, see C91), for any declared references and for circular ones. ForeignKeys with DO_NOTHING are allowed in C93_nothing_partial. C93_project_partial: for whole projects as in C85, with fields of all kinds at once; the next flush() returns and makes everything right; C93_project_ends_partial: and delete() always ends, by success or by ProtectedError. Violated for many-to-many relations through a model whose foreign keys are declared with DO_NOTHING: deletions from the other table have no trigger. SumField as in C12. C93_finishes assumes that single statements finish, see C51."
  },
  {
   "property": "C94",
   "status": "partial",
   "theorems": [
    "Denorm.C94_load_partial",
    "Denorm.C94_renewed_partial",
    "Denorm.C94_violated"
   ],
   "note": "Proved for histories as in C17 with deletions at any point, also over many-to-many relations. Violated where SET_NULL clears a ForeignKey that the function follows: the UPDATE has no trigger, and when the related object goes nothing refers to it any more. Also missing: DO_NOTHING (as in C93) and what is missing from C17."
  },
  {
   "property": "C95",
   "status": "partial",
   "theorems": [
    "Denorm.C95_truncated",
    "Denorm.C95_emptied_partial",
    "Denorm.C95_last_partial",
    "Denorm.C95_sqlite_partial",
    "Denorm.C95_flush_partial",
    "Denorm.C95_violated_refused",
    "Denorm.C95_violated_raises"
   ],
   "note": "Proved where tables are truncated (PostgreSQL, MySQL with sequences reset). Where rows are deleted with triggers firing (sqlite): proved if the tables that come after the markers have no rows or no triggers for deletions; whatever the order, a command that succeeds leaves all tables empty, and a flush() removes the markers that are left if the content types have their numbers again. Violated, in every project, if the markers are emptied before a table whose deletion marks something: refused where references are checked; where they are not, flush() raises on the empty database once the content types have other numbers. On sqlite a high enough recursion limit always exists; elsewhere it is assumed that the statements end."
  },
  {
   "property": "C96",
   "status": "partial",
   "theorems": [
    "Denorm.C96_undone",
    "Denorm.C96_undone_among_others",
    "Denorm.C96_kept",
    "Denorm.C96_as_if_never",
    "Denorm.C96_alone_partial",
    "Denorm.C96_sqlite_partial",
    "Denorm.C96_by_value_partial",
    "Denorm.C96_mysql_partial",
    "Denorm.C96_count_partial",
    "Denorm.C96_sum_partial",
    "Denorm.Chain.C96_violated",
    "Denorm.C96_script",
    "Denorm.C96_script_inOrder",
    "Denorm.C96_script_undone"
   ],
   "note": "Proved for one session, with blocks, exceptions and flush(), which may raise, nested as the program likes (C96_script): the next flush() makes everything right. Proved for all schedules of several sessions: a block that fails leaves no trace, and the outcome is that of a schedule without nested blocks. Values right or marked: proved where flush() is called while no transaction with changes is open, and with flush() at any time on sqlite, for relations in which the related rows refer to the instance, and on MySQL with foreign key constraints. Counts and sums: proved under the conditions of C64. Violated, as C58 is, with flush() at any time on PostgreSQL and on MySQL without constraints. Random keys drawn in a block that failed may be drawn again in the model; CacheKeyFields (C76) are not covered."
  }
 ]
}
