#!/usr/bin/env python3
"""Writes MANIFEST.json and lean/Verif/Audit.lean from the table below."""
import json, pathlib
root = pathlib.Path(__file__).resolve().parent.parent
C = []


def c(prop, status, theorems, note):
    C.append({"property": prop, "status": status, "theorems": ["Denorm." + t for t in theorems.split()], "note": note})


c("C01", "partial", "C01_flush_partial C01_history_partial C01_violated_self_reference C01_violated_through_aggregate",
  "false for an instance related to itself, through an aggregate fed by the instance's own fields, and for C45 (witnesses on every backend); proved, for any number of passes and any marker order, when saving an instance does not change what its own callbacks see")
c("C02", "proved", "C02_forward_marked C02_forward_never_lost",
  "one statement and whole histories; for declarations that meet WellDeclared (see DESIGN.md section 4 for what happens otherwise)")
c("C03", "proved", "C03_backward_marked C03_backward_never_lost", "as C02")
c("C04", "proved", "C04_m2m_link_marked C04_m2m_other_marked C04_m2m_never_lost", "as C02; both directions")
c("C05", "proved", "C05_generic_marked C05_generic_never_lost", "as C02; all three backends")
c("C06", "partial", "C06_no_change_no_effect_partial C06_unchanged_row_fires_nothing_partial C06_violated_on_postgresql C06_violated_on_mysql",
  "false on PostgreSQL for generic relations and on MySQL for an empty column list (witnesses); proved for all other triggers")
c("C07", "partial", "C07_skipped_columns_partial C07_violated_always_skip C07_violated_shared_trigger C07_violated_generic",
  "false when skip hides denorm_always_skip, when a trigger is shared with a declaration that does not skip, and for generic relations")
c("C08", "partial", "C08_reaction_kept_partial C08_adding_keeps_partial C08_violated",
  "false: the first declaration's column list wins (witness); proved when it watches at least as much")
c("C09", "partial", "C09_repeated_declaration C09_repetitions_removed C09_at_most_once_partial C09_aggregate_once C09_violated_marker_twice",
  "repetition of declarations has no effect at all; for declarations that agree on watched columns each reaction (told apart by its text) runs at most once, an aggregate's exactly once; false for one marker that two dependencies write with and without quotes: it is inserted twice (witness on every backend)")
c("C10", "proved", "C10_count C10_violated_child_first",
  "histories as in the statement, every backend; the witness shows why the insertion order matters on sqlite")
c("C11", "proved", "C11_filtered_count C11_empty_lists C11_sqlite_refused", "any filter and exclude with exact/gt/gte/lt/lte/in/range/None lookups on columns of the related table; with empty lists wherever denorm_init can install the triggers (C48_violated_empty_list: not with an empty list in filter=). With sqlite as the default database filter= cannot be declared at all (C11_sqlite_refused), and exclude= only with None (C48_violated_value)")
c("C12", "partial", "C12_sum_partial C12_violated_null", "false for NULL in the summed column (witness on every backend, for a column without NOT NULL; with it, the statement is refused: Demo.C67_violated_null); proved while it holds integers; decimals: C80")
c("C14", "proved", "C14_nonnegative", "every intermediate state of the engine")
c("C15", "partial", "C15_renewed C15_unrelated_kept_partial C15_violated_generic",
  "renewal: for every change a statement makes (also through triggers) every related instance ends with a value drawn after the change, pairwise different draws; 'unrelated instances keep theirs' fails for generic relations (content type not compared when the M2M is generic; witness on every backend) and is proved up to that")
c("C18", "partial", "C18_terminates C18_terminates_acyclic C18_returns C18_returns_finishing C18_returns_sqlite C18_returns_tables C18_fields_layered C18_fields_return C18_saves_bounded C18_violated_cycle",
  "proved for acyclic dependencies between instances: number of passes, number of saves per instance, and that flush() really returns (all kinds of fields, whenever statements come to an end: always on sqlite); also proved field by field, where instances may depend on each other in circles as long as no @denormalized field is computed from itself; 'for every declared graph' is false: two instances that refer to each other loop forever (witness on every backend)")
c("C19", "partial", "C19_same_values_partial C19_same_rows_partial C19_returns_partial C19_fields_same_values C19_fields_return C19_violated_multiplicity C19_violated_distinct",
  "proved for acyclic dependencies between instances and the fields for which C01 holds: same values for any two backends, marker orders and multiplicities, and (projects of @denormalized fields) both flushes return with equal tables; the same field by field, with circles between instances allowed; false for a field computed from one declared after it: there a second marker, or the lack of DISTINCT ON, changes the result (witnesses)")
c("C20", "partial", "C20_crash_safe_partial C20_history_partial C20_violated", "every state between two statements of flush(); for the fields for which C01 holds; for projects as in C85, with CountFields and SumFields, after any history of programs, deletions through the ORM or by foreign keys of the database, upserts, crashes and failures the next flush() returns and makes everything right (C20_history_partial). Violated where C45 is: a field computed from one declared after it is out of date and no longer marked.")
c("C21", "partial", "C21_considerate_partial C21_next_flush_partial alone_is_flush C21_violated_lost_mark C21_violated_lost_update C21_violated_deletion",
  "false: a change between the callback's evaluation and the deletion of the marker is lost, a concurrent UPDATE or DELETE of the instance is undone by flush() (witnesses on every backend); proved for every schedule in which the other sessions leave alone the one instance that flush() has loaded and not finished; the step-by-step model is proved equivalent to flush() when it runs alone")
c("C22", "proved", "C22_discarded C22_only_targetless", "for markers of existing models; one marker among others, and a whole flush()")
c("C23", "proved", "C23_once C23_exactly_once C23_once_per_marker", "every marker multiset and order")
c("C24", "partial", "C24_marks C24_rebuild_partial C24_rebuild_returns_partial C24_project_partial C24_fields_return C24_violated_aggregate",
  "false for CountField and SumField, which are never recomputed (witness on every backend); what is marked is proved exactly, and the result for the callback fields for which C01 holds, including that rebuildall() returns when no instance depends on itself, or only no field is computed from itself. C24_project_partial: in projects as in C85, rebuildall() returns and makes everything right, if CountFields and SumFields were right.")
c("C25", "proved", "C25_once C25_evaluations", "every registry, every name argument, every marker order; counted are saves of instances and calls of callbacks")
c("C29", "proved", "C29_resolves_iff_unique C29_fails_iff_none C29_ambiguous_iff_two C29_self_not_backward C29_type_respected",
  "for models whose class paths differ not only in case (the code compares lower-cased class representations)")
c("C31", "proved", "C31_exact C31_proxy", "for any registry, membership in both directions")
c("C34", "partial", "C34_names_partial C34_violated_for_every_clash C34_right_table_partial C34_violated",
  "false: table t_5 against the generic trigger of content type 5 on table t (witness and exact characterisation); identifiers within the length limit")
c("C37", "proved", "C37_direct_write_marked C37_unmarked_value_unchanged", "")
c("C38", "partial", "C38_only_self_marks_missing C38_statements_partial C38_calls_partial C38_flush_partial Demo.C38_violated_aggregate",
  "per row change, both inclusions; over programs and flush() when no trigger writes what the callback reads of its own row; false when the callback reads a CountField of its own model (witness on every backend)")
c("C39", "partial", "C39_no_foreign_marks_partial C39_violated_on_mysql", "false on MySQL (witness); proved on sqlite and PostgreSQL")
c("C40", "partial", "C40_trigger_changes_tracked_partial C40_violated_on_sqlite",
  "false on sqlite when a trigger leads back to itself (witness); proved on the other backends and on sqlite without re-entry")
c("C44", "partial", "C44_text_meaning_partial C44_intended_partial C44_violated_on_postgresql C44_violated_on_mysql C44_violated_no_columns",
  "token level, with a precedence parser; false on PostgreSQL (AND/OR precedence), on MySQL (content type ignored) and for an empty column list")
c("C45", "partial", "C45_same_instance_partial C45_violated_by_order",
  "false when the field that is read is declared after the one that reads it (witness on every backend); proved otherwise")
c("C13", "partial", "C13_between_partial C13_save C13_count_right C13_sum_right C13_create_zero C13_violated_race",
  "a save() during which nobody else writes is the same statement without the aggregate columns and keeps the counts right; false when another session changes the count between the read of the stored value and the UPDATE (witness on every backend)")
c("C16", "partial", "C16_save_partial C16_create_partial C16_violated_own_trigger",
  "what save() stores is the freshly drawn key, in the row and in the attribute, unless a trigger that the save itself sets off rewrites it (witness on sqlite and PostgreSQL)")
c("C28", "partial", "C28_stored C28_object_partial C28_unrelated C28_violated_cached_object",
  "the key of the returned object is what is stored; on Django before 3.0 the instance keeps the previously loaded object after save() (witness)")
c("C43", "partial", "C43_update_partial C43_m2m C43_violated_instance",
  "false for a callback of a denormalized ForeignKey that returns an instance: it never equals the stored key, so a change is reported every time (witness)")
c("C46", "partial", "C46_no_index_error_partial C46_inserted_partial C46_violated_explicit_key",
  "false for models with a CountField or SumField: save() raises IndexError (witness on every backend); proved for models without and for existing rows")
c("C26", "partial", "C26_set C26_exact_partial C26_created_once_more C26_chosen_key_once_more C26_created_filled_partial C26_never_loops C26_inherited_partial C26_not_local C26_violated_zero_key C26_violated_proxy",
  "false for an instance whose key is falsy (0 or ''): the relation is never set (witness); false for instances of proxy models and for fields inherited from a concrete model, because the handlers are connected with the declaring class only (C26_not_local for every such field; witness); proved for every other key, any number of fields, any old relation, fields of the class itself and of abstract bases")
c("C27", "partial", "C27_not_registered C27_violated C27_stale_marked_partial",
  "false: the declarations of ManyToManyFields are never found, so there are no triggers for them (witness on every backend); proved when a concrete field of the model has the same dependencies")
c("C30", "partial", "C30_callback C30_cachekey_partial C30_violated_cachekey C30_violated_aggregate",
  "proved for @denormalized fields and for CacheKeyFields used in one class; false for a CacheKeyField of an abstract base with two subclasses: the dependency objects are shared and belong to the last subclass (witness on every backend); false for CountField and SumField, whose object is shared too")
c("C42", "proved", "C42_decorators C42_each_class C42_cached C42_cached_class_partial",
  "any sequence of class statements, names resolved late or at once; @denormalized and @cached fields (for the latter not those of abstract bases with subclasses, see C30)")
c("C32", "partial", "C32_none_left C32_others_kept_partial C32_failed_kept C32_violated",
  "all of django-denorm's triggers are removed after any history of installs and drops; false for other programs' triggers whose names begin with denorm (witness on every backend)")
c("C33", "partial", "C33_all_or_nothing_partial C33_installed C33_second_fails_partial C33_drop_install C33_succeeds C33_behaviour C33_empty_watch_list C33_violated_other_database C33_violated_mysql C33_violated_mysql_twice",
  "proved for the default database in sqlite and PostgreSQL; false in other databases (atomic() without using), in MySQL (DDL commits) and for long names in MySQL (random suffix: a second install duplicates the triggers); witnesses")

c("C35","partial","C35_rounds_partial C35_interrupt C35_error_ends C35_single C35_violated_once C35_violated_pidfile C35_violated_no_errno",
  "For every outcome of every call: without -o the daemon flushes, sleeps and commits each round as long as nothing raises; an interrupt at any call of a round leads to a commit and an exit; a live process in the pid file keeps a second daemon from flushing. Violated: -o never flushes; any other exception ends the daemon; in Python 3 the background daemon never writes its pid file; from Python 3.7 on it does not start without a pid file.")
c("C36","proved","C36_process_response",
  "For every response and every outcome of flush(): exactly one call of flush(), the very response is returned, database errors are logged, all others raised. Logging is taken to return.")
c("C41","partial","C41_denormalized C41_aggregate_partial C41_declaration_partial C41_violated C41_cachekey C41_cached",
  "For all constructor arguments: the column can be rebuilt, for every field class given to @denormalized (that can deconstruct its own fields), for aggregates, cache keys and @cached; the rebuilt aggregate deconstructs to the same arguments. Violated: filter, exclude, skip and the summed field of aggregates are lost.")
c("C17","partial","C17_load_partial C17_save_partial C17_create_partial C17_violated_default C17_violated_create C17_violated_order C17_violated_undecorated",
  "After any history of statements with their triggers, saves, creations, loads, constructions, evictions, savepoints and rollbacks, a loaded or saved instance holds what the function returns for the stored row. Refuted for the default key 0 (constructed instances, rows that existed before the field), for functions that read the primary key of an instance being created, and for functions that read a field computed after the attribute; a function without @depend_on_related cannot be declared at all.")
c("C47","partial","C47_text_partial C47_executed_partial Texts.C47_violated_case",
  "A lexer and parser for the emitted SQL, proved to read every sent text as the generated trigger, for all declarations whose tables, key columns and denormalized fields have names that need no quotes (the code does not quote them) and whose other columns have no quotes or percent signs, on PostgreSQL no `$$`; filter values are escaped as the drivers do, on PostgreSQL they contain no `$$`, NUL or line break. The texts are derived from what Trigger.sql returns, with placeholders, by a model of `cursor.execute(sql, args)`; UPDATE triggers have to watch a column on sqlite and PostgreSQL. Violated: an upper-case table name on PostgreSQL.")
c("C48","partial","C48_accepted_partial C48_executed_partial C48_empty_exclude_partial C48_violated_empty_list Texts.C48_violated_reserved Texts.C48_violated_value Texts.C48_violated_no_columns C48_violated_proxy Texts.C48_violated_percent Texts.C48_violated_dollar C48_reflected_model C48_reflected_generic_partial C48_violated_generic",
  "Accepted under the conditions of C47. Violated: a reserved word as table name, a value in a filter on sqlite (placeholder inside a trigger), no column left to watch, a percent sign in a column name on PostgreSQL and MySQL (execute raises), `$$` in a filter value on PostgreSQL, an empty list in a filter (EmptyResultSet is raised and no trigger of the project is installed), a dependency on a proxy model on sqlite and PostgreSQL (its UPDATE trigger watches no column), a GenericRelation to a model that a OneToOneField points to, such as a multi-table parent (AttributeError, exactly then).")
c("C49","partial","C49_printed_partial C49_executed_partial Texts.C49_violated_text Texts.C49_violated_sqlite Texts.C49_violated_name Texts.C49_violated_percent",
  "Equal if filters compare with numbers only (on sqlite: with nothing but NULL) and, on MySQL, names have at most fifty characters. Violated: texts are printed without quotes; on sqlite values are printed where placeholders are sent; MySQL draws new random names; with a percent sign in a column name denorm_sql raises where sqlite installs the trigger.")

c("C50","proved","C50_data C50_history C50_rows C50_needs_blind",
  "Row by row and column by column, for every statement and history of the kind the property speaks of; that the restriction is needed is shown by a statement on sqlite that copies a CountField.")
c("C51","partial","C51_sqlite C51_tables_partial C51_postgresql_partial C51_mysql_partial C51_violated_postgresql C51_violated_mysql C51_violated_mysql_tree",
  "Proved on sqlite for all declarations; on MySQL and PostgreSQL when no table feeds its own maintained fields, or (with skip) no column leads back to itself. Violated: a CountField and a CacheKeyField that depend on each other's tables recurse without end on PostgreSQL and are refused by MySQL, as is a CountField over a relation to the same model.")

c("C52","partial","C52_columns_partial C52_violated_db_column Renamed.C52_violated_count_key Renamed.C52_violated_count_column Renamed.C52_violated_inherited_forward Renamed.C52_violated_inherited_backward Renamed.C52_violated_clash",
  "For all declarations of projects without db_column whose relations are not inherited from a multi-table parent. Violated: every watched field with a db_column (attname is used as column), a CountField over such a key or with a db_column, dependencies through an inherited ForeignKey, the name clash of C34.")
c("C53","partial","C53_by_name C53_same_kind_partial C53_setting C53_violated_spatialite C53_violated_toplevel C53_violated_other_kind",
  "The module is chosen from the default database's settings only. Right if all databases are of one kind. Violated: another kind of database with --database (its parser cannot read the text, for all six combinations), SpatiaLite, engines outside a package.")
c("C54","partial","C54_default_partial C54_rebuild_partial C54_violated_flush C54_violated_rebuildall",
  "Without database routers flush() and rebuildall() only ever look at the default database.")
c("C55","partial","C55_flush_partial C55_violated",
  "From Django 2.1 on, flush() raises NotSupportedError on sqlite and MySQL, whatever the content: only NotImplementedError is caught.")
c("C56","partial","C56_marked_partial C56_returned_partial C56_violated",
  "Any number of calls, all schedules, also with other sessions (as in C21), for fields computed from plain data. Violated for fields computed from computed fields: the call that was overtaken saves its old value and deletes the marker.")
c("C57","partial","C57_save_partial C57_flush_partial C57_rebuild_partial C57_marks C57_violated_save C57_violated_flush C57_violated_rebuild",
  "As if there were no such managers, if models with a CountField or SumField have none (and rebuildall() is not asked for such models). Violated, in every project: saving a hidden instance with a CountField raises IndexError, which blocks flush() for good; rebuildall() skips hidden rows.")

c("C58","partial","C58_partial C58_clean_partial C58_alone_partial C58_sqlite_partial C58_by_value_partial C58_mysql_partial Chain.C58_violated Album.C58_violated_handed_over",
  "READ COMMITTED. For all schedules if flush() never handles an instance that sees other rows once a transaction that is still open commits, without being marked by it; this holds on sqlite, for fields whose related rows refer to the instance (ForeignKey backwards, GenericRelation), on MySQL for all kinds of relations with foreign key constraints in the database as long as no statement hands over a many-to-many link to another instance, and wherever flush() is called while no transaction is open. Violated on PostgreSQL, on MySQL without foreign key constraints, and on MySQL with constraints if links are handed over: a trigger marks the rows that refer to the changed row as far as the session can see them, so an instance inserted (or linked) meanwhile is not marked.")

c("C59","partial","C59_texts_partial C59_marked_partial C59_count_partial Texts.C59_violated",
  "The composition of C47, C33, C02-C05/C37 and C11: for declarations whose names need no quotes and whose values can be written as literals. Violated on PostgreSQL by a table name with an upper-case letter: everything is accepted, and nothing is ever marked.")

c("C60","partial","C60_foreign_key_partial C60_violated C60_violated_forward Labels.C60_violated_18 Labels.C60_violated_18_sum",
  "For ForeignKeys the triggers are the same in every version. Violated for many-to-many relations: since Django 1.9 every project with such an aggregate gets an AttributeError from denorm_init and no trigger at all; in 1.8 too for a ManyToManyField of the model itself, and for the other direction links are looked up in the wrong table.")

c("C61","partial","C61_quiet_partial C61_flush_partial C61_violated_endless Chain.C61_violated Chain.C61_violated_deleted",
  "Without other sessions flush() does the same as without a transaction. Violated: a marker that a second flush() has handled stays in the snapshot, so the first one never returns, in every project; a value computed from the snapshot is saved and the marker of the newer change deleted; an instance that another session deletes after the first query of flush() is inserted again.")

c("C62","partial","C62_marked_partial C62_flush_partial C62_count_partial C62_sum_partial C62_fields C62_violated_key Chain.C62_violated_bulk_unsafe",
  "All sequences of calls. Loading fixtures with a CountField or SumField is left out of the claims about them (C63). SumFields: where programs and callbacks put numbers, not NULL, into the summed columns (C12). Violated for cache keys in every project: save(update_fields=..) without the key's name leaves the key as it is.")

c("C63","partial","C63_marked_partial Demo.C63_violated_count",
  "For computed values, whatever the fixture contains. Violated for CountField: the number comes with the fixture, and the triggers add the related objects once more.")

c("C64","partial","C64_count_partial C64_sum_partial Demo.C64_violated_unconstrained Demo.C64_violated_save",
  "READ COMMITTED with row locks, for all schedules, where the relation has a foreign key constraint in the database and every save() writes back the aggregate that is in the row at this moment. Violated without the constraint (an instance and a related object are created by two sessions at the same time), and by a save() that has read the aggregate before another session's commit.")

c("C65","partial","C65_truthy_partial C65_plain Chain.C65_violated",
  "for fields of models whose instances are truthy, whatever those of other models are; violated for a falsy instance: `if dirty_instance.content_object:` takes it for a missing one and deletes its marker without saving it")
c("C66","partial","C66_nothing_lost_partial C66_project_partial C66_violated_stuck C66_violated_removed_model Chain.C66_violated",
  "however flush() ends, every out-of-date instance is still marked, and the next call that meets no failure makes everything right (C66_project_partial: in projects as in C85, with CountFields and SumFields). Violated: a failing instance that comes first keeps all others from being flushed, however often flush() is called; a marker of a removed model makes every flush() fail.")

c("C67","partial","C67_count C67_sum_partial C67_refused_iff C67_count_stored Demo.C67_violated_negative Demo.C67_violated_large Demo.C67_violated_null",
  "proved for CountField, and for SumField while the summed column holds no negative number (and is not itself maintained by triggers). Violated by negative numbers: the column is a PositiveIntegerField and the new number is added before the old one is subtracted, so the sum can be negative on the way, or too large for the column on PostgreSQL and MySQL; a row with NULL in the summed column is refused, too. C67_refused_iff says exactly when an engine with this column type refuses.")

c("C68","partial","C68_declared_partial C68_unseen C68_child_only C68_lost Renamed.C68_violated Renamed.C68_violated_dependency",
  "proved for fields that declare the parent as a dependency through the parent link. Violated otherwise (base.py:107-108 has a FIXME): triggers are attached to the child's own table only, so a change of an inherited field, for example by QuerySet.update() of the child, marks nothing.")

c("C69","partial","C69_keys_statement C69_keys_count_partial C69_violated_other_table JoinDemo.C69_violated_own_table JoinDemo.C69_violated_wrong_row",
  "proved for lookups that ask for keys only (author=5, author__id=5). Violated by all others: the joins of the lookup are left out of the trigger, so every INSERT and DELETE of a related row fails with an unknown column; if the lookup leads to the aggregate's own table, the row being updated is taken instead, and later changes of that row are not counted.")

c("C70","proved","C70_text C70_fits C70_distinct C70_python",
  "in double arithmetic: PostgreSQL's numbers are multiples of 2^-53 from 0 to 1, MySQL's an integer divided by 2^30 - 1 and rounded; the multiplication by 2^63 - 2 is one by 2^63 in doubles, which just fits because 1 is never drawn.")

c("C71","partial","C71_triggers C71_values_partial C71_init_without_drop C71_violated_migration C71_violated_aggregate",
  "the triggers: proved for all versions, histories and migrations. The values: for @denormalized fields that one save makes right; a new CountField or SumField stays at its default in the rows that exist (C71_violated_aggregate). On sqlite a migration alone removes the triggers of the tables it changes, and later statements on them are lost (C71_violated_migration, proved for every project); denorm_init alone does not repair this, it raises and changes nothing (C71_init_without_drop).")

c("C72","partial","C72_after_request_partial C72_nothing_lost_partial C72_called C72_switched_off C72_rolled_back Chain.C72_violated_streaming C72_served C72_answered C72_view_undone",
  "for @denormalized fields that one save makes right, and requests one after the other. With the middleware it is false for what is written after process_response: while the content of a streaming response is produced, or by a middleware listed before it (C72_violated_streaming); the deprecated setting DENORM_FLUSH_AFTER_REQUEST has no such gap. For projects as in C85, with views that are programs with nested blocks, exceptions and flush() (C72_served, C72_answered): whatever the requests before did and however flush() ended in them, after a flush() that returns all fields and aggregates are right, and it does return if the project's own code raises nothing.")

c("C73","partial","C73_flush_partial C73_rebuildall_partial C73_idle_partial C73_idle_rebuild_partial Chain.C73_violated_auto_now",
  "for every outcome of the call and every hook. False for projects with other fields that compute their value when saved, such as DateTimeField(auto_now=True): flush() counts as a modification. The part about databases in which everything is right excludes CacheKeyFields, which every save renews, and the trigger conditions of C06 that are TRUE although nothing changed. Changes of other sessions in the middle of a save: C21.")

c("C74","proved","C74_program C74_history",
  "all hypotheses are about models and declarations (`LayeredProject`); what a program may do is `LegalProgram`: keys are unique and not NULL, new instances have no links or counted objects yet (`LegalCalls`, `CountCalls`), and there are numbers, not NULL, in the columns that SumFields sum (`SumCalls`; these columns may themselves be denormalized). \"Without an error\" holds for every sufficiently high limit on trigger recursion. One session at a time; several sessions: C21, C64.")

c("C75","partial","C75_no_deadlock_partial C75_sqlite_partial Till.C75_violated_move Till.C75_violated_mysql Till.C75_violated_txn Till.C75_violated_bulk Press.C75_violated_two_links",
  "proved for any number of sessions whose statements write one row each and leave it with its parent, where rows are counted along one foreign key and counters lead upwards (chains of any length, any number of aggregates per table), with PostgreSQL's constraints or without; and for sqlite without any condition. The full property is false, on PostgreSQL and MySQL: two UPDATEs that swap the parents of two rows, two transactions or two bulk INSERTs that add to the same two parents in opposite order, two rows counted along two foreign keys; and, on MySQL with foreign key constraints, already two single-row INSERTs under the same parent (shared lock for the constraint, then the counter wants to write the row). None of these would deadlock without the triggers. Missing in the positive part: CacheKeyFields and ManyToMany aggregates.")

c("C76","partial","C76_same_sight_partial C76_serial_partial C76_sqlite_partial Notice.C76_violated_unconstrained Keys.C76_violated_forward Keys.C76_violated_m2m",
  "proved for relations in which the related rows refer to the instance (a ForeignKey followed backwards, a GenericRelation), for all schedules on each database, if rows that refer to an instance refer to one that the session sees (foreign key constraint) and keys drawn by Python are new; and for all kinds of relations, without constraints, wherever transactions do not overlap, in particular on sqlite. The full property is false: without the constraint (a GenericRelation never has one); and, on PostgreSQL and on MySQL without constraints, for ForeignKeys of the instance itself and for many-to-many relations: the trigger renews the keys of the instances it sees, and does not see one that another session has just related to the changed row. Not covered: what a session reads in its own transaction before it is rolled back; relations followed forward on MySQL with constraints.")

c("C77","partial","C77_save C77_create C77_flush_order C77_flush C77_violated_given_key",
  "proved for instances that have a row, for instances whose key the database chooses and for everything flush() saves. False for save() of an instance that was given a key and has no row: Django calls every pre_save for the UPDATE that matches nothing and again for the INSERT.")

c("C78","partial","C78_key_partial C78_count_key_partial C78_violated_lost C78_violated_count C78_violated_cachekey Atlas.C78_violated_forward Atlas.C78_violated_backward Atlas.C78_violated_wrong_row Atlas.C78_violated_flush_raises",
  "proved where the target column holds the values of the primary key. Otherwise false, and for every project: the triggers compare the ForeignKey with the primary key of the other model whatever to_field is, so that where no code is a key no instance is marked, no count changes and no cache key changes; where a code is the key of another row, that row is changed instead; where codes are texts and keys are numbers, flush() raises from then on.")

c("C79","partial","C79_trigger_text C79_python_text C79_uuid_text C79_distinct C79_same_text C79_history C79_flush C79_order C79_nothing_stale C79_rebuild_partial C79_violated_uuid Notes.C79_violated_rebuild",
  "proved for integer and text keys on every backend and for UUIDs on PostgreSQL; for UUIDs on sqlite and MySQL everything but one text per instance, which is false: rebuildall() writes dashes and triggers do not, so that rebuildall() saves instances twice. Not modelled: dates, decimals, floats as keys, MySQL's collations.")

c("C80","partial","C80_whole_partial Demo.C80_violated_drift Demo.C80_violated_save",
  "proved exactly while the decimals are whole numbers and not negative. Violated otherwise: the column is a PositiveIntegerField and every trigger rounds (PostgreSQL, MySQL), so that the error grows without bound (for every N up to the column's limit there is a history after which the sum is N and no related row exists); on sqlite the sum is kept exactly until save() or flush() cuts off its decimals, and then deletions of related rows are refused.")

c("C81","partial","C81_right_partial C81_never_lost_partial C81_ends C81_one_pass C81_sqlite_partial C81_same_values_partial C81_violated_portions",
  "right and crash safe for the fields of C01, whatever markers are read in whatever order and number; portions end whenever dependencies between instances are acyclic; sqlite's cursor (rows in order of their ids, changes visible) modelled exactly and reduced to one pass that ends when the table is empty. Violated for a field computed from one declared after it (C45): its value depends on the size of the portions.")

c("C82","partial","C82_partial C82_imports_partial C82_order_partial C82_classes C82_aggregate_partial C82_last C82_violated_backward C82_violated_class C82_violated_self C82_violated_last",
  "right for all programs in which the relation that a dependency needs is resolved when the dependency is looked at, in particular, in every order, when no relation is written with a name. Violated for depend_on_related('Post') with ForeignKey('Forum') in Post when Forum comes first, for depend_on_related(Cls) or 'self' with ForeignKey('Cls') in every order, and for a CountField or SumField whose manager comes from the last model of the project (universal: C82_last).")

c("C83","partial","C83_installed_again_partial C83_violated_raises C83_violated_refused C83_violated_other",
  "right again after denorm_drop, denorm_init and denorm_rebuild, whatever the numbers were and are (fields of C71). Violated without these commands: the number is a literal in the triggers. Where the numbers are new, every statement that marks something is refused by the foreign key of the markers or, without it, makes every flush() raise (both for every project); where two models have exchanged their numbers, instances of the wrong model are saved and the field stays out of date (witness on every backend).")

c("C84","partial","C84_marked_partial C84_count_partial C84_sum_partial C84_flush_partial C84_flush_count C84_flush_sum C84_create C84_deep_marked_partial C84_deep_count_partial C84_deep_sum_partial C84_deep_flush_partial C84_deep_flush_count C84_deep_flush_sum C84_deep_create C84_violated_create C84_violated_deep_create",
  "values right or marked, and CountFields and SumFields (of numbers, as in C12) right, after any save of a child (new, existing, made from an instance of the parent), flush() as in C01 whichever models are children, and it keeps CountFields and SumFields right, create() never raises from pre_save. Violated in every project, with save() of Django 1.8 to 2.0: a new instance of a child with a CountField or SumField of its own raises IndexError; with three or more levels so does create() if a model in the middle has such a field. The theorems with `deep` are about any number of levels. One parent each; fields as in C62 and C01.")

c("C85","proved","C85_program C85_history",
  "all hypotheses are about models and declarations (`RankedProject`); what a program may do is `LegalProgram`, as in C74. What cache keys mean to their readers is C15, C16 and C76. \"Without an error\" holds for every sufficiently high limit on trigger recursion. One session at a time; several sessions: C21, C64, C76.")

c("C86","partial","C86_marked_partial C86_flush_partial C86_count C86_sum_partial C86_layered C86_current C86_violated_unsafe",
  "proved without the setting, for the fields of C62 and C01; CountFields and SumFields are right all the time; in the projects of C74 flush() returns and everything is right. Violated with DENORM_BULK_UNSAFE_TRIGGERS in every project whose table has no other triggers: what the callback returns for the old objects is stored, nothing is marked, and flush() does nothing.")

c("C87","partial","C87_returns_partial C87_no_error_partial C87_right_partial C87_violated_taken C87_violated_forever C87_violated_exchange",
  "proved for fields computed from plain data if the old and the new values of different instances are all different. Violated, in every project and for every order of the markers, when the right value of every marked instance is still held by another one (two instances exchange their values): flush() raises, changes nothing, and so do all later calls.")

c("C88","partial","C88_program_partial C88_calls_partial C88_violated_own C88_violated_unsafe",
  "proved for layered projects (as C74) with any idempotent column types, where numbers stay numbers in the columns that are summed: after any SQL, and after any program that saves, creates or loads instances whose attributes are not rounded. Violated with DENORM_BULK_UNSAFE_TRIGGERS (save() stores the value for the attributes in memory beside the attributes as they are stored, and marks nothing), and for a field computed from a computed field of the same instance: save() computes it from the value in memory and not from the one that is stored, and the difference stays.")

c("C89","partial","C89_refresh_partial C89_violated_order C89_violated_number C89_violated_deferred C89_violated_clean C89_violated_dump C89_violated_fixture C89_loaded",
  "refresh_from_db(): proved for functions that return texts other than numbers and read columns declared before the attribute, after any history. Violated, in every project: for columns declared after it (refresh_from_db() evaluates the function with the old ones and caches the result under the right value); for numbers (0 is the name under which constructed instances are cached); an attribute that was deferred shows the descriptor object; full_clean() and loaddata refuse functions' texts where the column holds a number.")

c("C90","partial","C90_marked_partial C90_flush_partial C90_count_partial C90_sum_partial C90_project_partial C90_violated_replace C90_violated_truncate",
  "Proved on all three backends for upserts that update or skip rows that clash, and for REPLACE on MySQL (not into the other table of a many-to-many relation), mixed with any legal statements; for aggregates not into tables that are related to themselves. C90_project_partial: for whole projects as in C85, with fields of all kinds at once. Violated by REPLACE (INSERT OR REPLACE) on sqlite: the row that is replaced is deleted without triggers, so the instance it belonged to keeps its count and its value, unmarked; and by TRUNCATE, in every project with a CountField that is not zero.")

c("C91","partial","C91_marked_partial C91_flush_partial C91_count_partial C91_sum_partial C91_unreferenced_partial C91_references_partial C91_references_flush_partial C91_project_partial Crates.C91_violated",
  "Proved on sqlite and PostgreSQL for all sets of foreign keys; for deletions from the other table of a many-to-many relation (where the links go after the row) if references are in order at the end. C91_project_partial: for whole projects as in C85, with fields of all kinds at once; the next flush() returns and makes everything right. Violated on MySQL, where such deletions run no triggers: counts and values stay as they were, unmarked, and flush() does not help; there it holds for statements on tables that no such foreign key refers to. Django's own on_delete issues plain statements (C62).")

c("C92","partial","C92_marked_partial C92_flush_partial C92_violated_count C92_violated_dangling C92_violated_reinserted",
  "Proved for @denormalized fields whose triggers can watch the keys (no skip list names them). Violated for CountField and SumField, which count related rows twice or not at all when keys change; for instances whose reference points nowhere in the end (db_constraint=False), which stay unmarked; and where a row on the other side of a many-to-many relation is deleted and inserted again under the same key while it is linked to.")

c("C93","partial","C93_marked_partial C93_flush_partial C93_nothing_partial C93_nothing_flush_partial C93_count C93_sum_partial C93_exactly C93_unreferenced C93_finishes C93_project_partial C93_project_ends_partial C93_violated",
  "Proved on every backend (MySQL included: it is Django that cascades, see C91), for any declared references and for circular ones. ForeignKeys with DO_NOTHING are allowed in C93_nothing_partial. C93_project_partial: for whole projects as in C85, with fields of all kinds at once; the next flush() returns and makes everything right; C93_project_ends_partial: and delete() always ends, by success or by ProtectedError. Violated for many-to-many relations through a model whose foreign keys are declared with DO_NOTHING: deletions from the other table have no trigger. SumField as in C12. C93_finishes assumes that single statements finish, see C51.")

c("C94","partial","C94_load_partial C94_renewed_partial C94_violated",
  "Proved for histories as in C17 with deletions at any point, also over many-to-many relations. Violated where SET_NULL clears a ForeignKey that the function follows: the UPDATE has no trigger, and when the related object goes nothing refers to it any more. Also missing: DO_NOTHING (as in C93) and what is missing from C17.")

c("C95","partial","C95_truncated C95_emptied_partial C95_last_partial C95_sqlite_partial C95_flush_partial C95_violated_refused C95_violated_raises",
  "Proved where tables are truncated (PostgreSQL, MySQL with sequences reset). Where rows are deleted with triggers firing (sqlite): proved if the tables that come after the markers have no rows or no triggers for deletions; whatever the order, a command that succeeds leaves all tables empty, and a flush() removes the markers that are left if the content types have their numbers again. Violated, in every project, if the markers are emptied before a table whose deletion marks something: refused where references are checked; where they are not, flush() raises on the empty database once the content types have other numbers. On sqlite a high enough recursion limit always exists; elsewhere it is assumed that the statements end.")

c("C96","partial","C96_undone C96_undone_among_others C96_kept C96_as_if_never C96_alone_partial C96_sqlite_partial C96_by_value_partial C96_mysql_partial C96_count_partial C96_sum_partial Chain.C96_violated C96_script C96_script_inOrder C96_script_undone",
  "Proved for one session, with blocks, exceptions and flush(), which may raise, nested as the program likes (C96_script): the next flush() makes everything right. Proved for all schedules of several sessions: a block that fails leaves no trace, and the outcome is that of a schedule without nested blocks. Values right or marked: proved where flush() is called while no transaction with changes is open, and with flush() at any time on sqlite, for relations in which the related rows refer to the instance, and on MySQL with foreign key constraints. Counts and sums: proved under the conditions of C64. Violated, as C58 is, with flush() at any time on PostgreSQL and on MySQL without constraints. Random keys drawn in a block that failed may be drawn again in the model; CacheKeyFields (C76) are not covered.")

out = json.dumps({"claims": C}, indent=1, ensure_ascii=False) + "\n"
(root / "MANIFEST.json").write_text(out)
mods = sorted(p.stem for p in (root / "lean/Verif/Props").glob("*.lean"))
names = []
for x in C:
    for t in x["theorems"]:
        if t not in names:
            names.append(t)
lines = [f"import Verif.Props.{m}" for m in mods]
lines += ["/-!", "# Axioms of every property theorem, printed during the build", "-/"]
lines += [f"#print axioms {n}" for n in names]
(root / "lean/Verif/Audit.lean").write_text("\n".join(lines) + "\n")
