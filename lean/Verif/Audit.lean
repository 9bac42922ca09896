import Verif.Props.AggManagers
import Verif.Props.Aggregates
import Verif.Props.BulkUnsafe
import Verif.Props.CacheKey
import Verif.Props.Cached
import Verif.Props.CachedAttr
import Verif.Props.CachedInit
import Verif.Props.Calls
import Verif.Props.Cascade
import Verif.Props.ChosenKey
import Verif.Props.Classes
import Verif.Props.Collector
import Verif.Props.Columns
import Verif.Props.CondText
import Verif.Props.Conditions
import Verif.Props.Confluent
import Verif.Props.ContentTypes
import Verif.Props.Crashes
import Verif.Props.Crew
import Verif.Props.Daemon
import Verif.Props.Databases
import Verif.Props.Deconstruct
import Verif.Props.DeepTables
import Verif.Props.DeleteCached
import Verif.Props.Deleted
import Verif.Props.Deploy
import Verif.Props.Emptied
import Verif.Props.EmptyList
import Verif.Props.EndToEnd
import Verif.Props.Evaluations
import Verif.Props.Execute
import Verif.Props.FieldValue
import Verif.Props.FilterSqlite
import Verif.Props.Finishes
import Verif.Props.Flush
import Verif.Props.FlushViolations
import Verif.Props.Held
import Verif.Props.HeldSum
import Verif.Props.Hooks
import Verif.Props.Inherited
import Verif.Props.Install
import Verif.Props.JoinFilter
import Verif.Props.KeyText
import Verif.Props.Loading
import Verif.Props.M2M
import Verif.Props.Managers
import Verif.Props.Mishaps
import Verif.Props.MultiTable
import Verif.Props.MultiTableAgg
import Verif.Props.ProxyDep
import Verif.Props.RandomKey
import Verif.Props.Range
import Verif.Props.Ranked
import Verif.Props.Reading
import Verif.Props.Rebuild
import Verif.Props.Rebuilt
import Verif.Props.Reflect
import Verif.Props.Rekey
import Verif.Props.Request
import Verif.Props.Resolve
import Verif.Props.Returns
import Verif.Props.Save
import Verif.Props.Savepoints
import Verif.Props.Scripts
import Verif.Props.Senders
import Verif.Props.Session
import Verif.Props.Settle
import Verif.Props.Snapshot
import Verif.Props.SqlText
import Verif.Props.Store
import Verif.Props.ToField
import Verif.Props.Tracking
import Verif.Props.Transactions
import Verif.Props.Transparent
import Verif.Props.TriggerSet
import Verif.Props.TxnAgg
import Verif.Props.TxnBound
import Verif.Props.TxnKey
import Verif.Props.TxnKeySerial
import Verif.Props.Typed
import Verif.Props.TypedCalls
import Verif.Props.Unique
import Verif.Props.Untouched
import Verif.Props.Upsert
import Verif.Props.Views
import Verif.Props.Waiting
import Verif.Props.Works
/-!
# Axioms of every property theorem, printed during the build
-/
#print axioms Denorm.C01_flush_partial
#print axioms Denorm.C01_history_partial
#print axioms Denorm.C01_violated_self_reference
#print axioms Denorm.C01_violated_through_aggregate
#print axioms Denorm.C02_forward_marked
#print axioms Denorm.C02_forward_never_lost
#print axioms Denorm.C03_backward_marked
#print axioms Denorm.C03_backward_never_lost
#print axioms Denorm.C04_m2m_link_marked
#print axioms Denorm.C04_m2m_other_marked
#print axioms Denorm.C04_m2m_never_lost
#print axioms Denorm.C05_generic_marked
#print axioms Denorm.C05_generic_never_lost
#print axioms Denorm.C06_no_change_no_effect_partial
#print axioms Denorm.C06_unchanged_row_fires_nothing_partial
#print axioms Denorm.C06_violated_on_postgresql
#print axioms Denorm.C06_violated_on_mysql
#print axioms Denorm.C07_skipped_columns_partial
#print axioms Denorm.C07_violated_always_skip
#print axioms Denorm.C07_violated_shared_trigger
#print axioms Denorm.C07_violated_generic
#print axioms Denorm.C08_reaction_kept_partial
#print axioms Denorm.C08_adding_keeps_partial
#print axioms Denorm.C08_violated
#print axioms Denorm.C09_repeated_declaration
#print axioms Denorm.C09_repetitions_removed
#print axioms Denorm.C09_at_most_once_partial
#print axioms Denorm.C09_aggregate_once
#print axioms Denorm.C09_violated_marker_twice
#print axioms Denorm.C10_count
#print axioms Denorm.C10_violated_child_first
#print axioms Denorm.C11_filtered_count
#print axioms Denorm.C11_empty_lists
#print axioms Denorm.C11_sqlite_refused
#print axioms Denorm.C12_sum_partial
#print axioms Denorm.C12_violated_null
#print axioms Denorm.C14_nonnegative
#print axioms Denorm.C15_renewed
#print axioms Denorm.C15_unrelated_kept_partial
#print axioms Denorm.C15_violated_generic
#print axioms Denorm.C18_terminates
#print axioms Denorm.C18_terminates_acyclic
#print axioms Denorm.C18_returns
#print axioms Denorm.C18_returns_finishing
#print axioms Denorm.C18_returns_sqlite
#print axioms Denorm.C18_returns_tables
#print axioms Denorm.C18_fields_layered
#print axioms Denorm.C18_fields_return
#print axioms Denorm.C18_saves_bounded
#print axioms Denorm.C18_violated_cycle
#print axioms Denorm.C19_same_values_partial
#print axioms Denorm.C19_same_rows_partial
#print axioms Denorm.C19_returns_partial
#print axioms Denorm.C19_fields_same_values
#print axioms Denorm.C19_fields_return
#print axioms Denorm.C19_violated_multiplicity
#print axioms Denorm.C19_violated_distinct
#print axioms Denorm.C20_crash_safe_partial
#print axioms Denorm.C20_history_partial
#print axioms Denorm.C20_violated
#print axioms Denorm.C21_considerate_partial
#print axioms Denorm.C21_next_flush_partial
#print axioms Denorm.alone_is_flush
#print axioms Denorm.C21_violated_lost_mark
#print axioms Denorm.C21_violated_lost_update
#print axioms Denorm.C21_violated_deletion
#print axioms Denorm.C22_discarded
#print axioms Denorm.C22_only_targetless
#print axioms Denorm.C23_once
#print axioms Denorm.C23_exactly_once
#print axioms Denorm.C23_once_per_marker
#print axioms Denorm.C24_marks
#print axioms Denorm.C24_rebuild_partial
#print axioms Denorm.C24_rebuild_returns_partial
#print axioms Denorm.C24_project_partial
#print axioms Denorm.C24_fields_return
#print axioms Denorm.C24_violated_aggregate
#print axioms Denorm.C25_once
#print axioms Denorm.C25_evaluations
#print axioms Denorm.C29_resolves_iff_unique
#print axioms Denorm.C29_fails_iff_none
#print axioms Denorm.C29_ambiguous_iff_two
#print axioms Denorm.C29_self_not_backward
#print axioms Denorm.C29_type_respected
#print axioms Denorm.C31_exact
#print axioms Denorm.C31_proxy
#print axioms Denorm.C34_names_partial
#print axioms Denorm.C34_violated_for_every_clash
#print axioms Denorm.C34_right_table_partial
#print axioms Denorm.C34_violated
#print axioms Denorm.C37_direct_write_marked
#print axioms Denorm.C37_unmarked_value_unchanged
#print axioms Denorm.C38_only_self_marks_missing
#print axioms Denorm.C38_statements_partial
#print axioms Denorm.C38_calls_partial
#print axioms Denorm.C38_flush_partial
#print axioms Denorm.Demo.C38_violated_aggregate
#print axioms Denorm.C39_no_foreign_marks_partial
#print axioms Denorm.C39_violated_on_mysql
#print axioms Denorm.C40_trigger_changes_tracked_partial
#print axioms Denorm.C40_violated_on_sqlite
#print axioms Denorm.C44_text_meaning_partial
#print axioms Denorm.C44_intended_partial
#print axioms Denorm.C44_violated_on_postgresql
#print axioms Denorm.C44_violated_on_mysql
#print axioms Denorm.C44_violated_no_columns
#print axioms Denorm.C45_same_instance_partial
#print axioms Denorm.C45_violated_by_order
#print axioms Denorm.C13_between_partial
#print axioms Denorm.C13_save
#print axioms Denorm.C13_count_right
#print axioms Denorm.C13_sum_right
#print axioms Denorm.C13_create_zero
#print axioms Denorm.C13_violated_race
#print axioms Denorm.C16_save_partial
#print axioms Denorm.C16_create_partial
#print axioms Denorm.C16_violated_own_trigger
#print axioms Denorm.C28_stored
#print axioms Denorm.C28_object_partial
#print axioms Denorm.C28_unrelated
#print axioms Denorm.C28_violated_cached_object
#print axioms Denorm.C43_update_partial
#print axioms Denorm.C43_m2m
#print axioms Denorm.C43_violated_instance
#print axioms Denorm.C46_no_index_error_partial
#print axioms Denorm.C46_inserted_partial
#print axioms Denorm.C46_violated_explicit_key
#print axioms Denorm.C26_set
#print axioms Denorm.C26_exact_partial
#print axioms Denorm.C26_created_once_more
#print axioms Denorm.C26_chosen_key_once_more
#print axioms Denorm.C26_created_filled_partial
#print axioms Denorm.C26_never_loops
#print axioms Denorm.C26_inherited_partial
#print axioms Denorm.C26_not_local
#print axioms Denorm.C26_violated_zero_key
#print axioms Denorm.C26_violated_proxy
#print axioms Denorm.C27_not_registered
#print axioms Denorm.C27_violated
#print axioms Denorm.C27_stale_marked_partial
#print axioms Denorm.C30_callback
#print axioms Denorm.C30_cachekey_partial
#print axioms Denorm.C30_violated_cachekey
#print axioms Denorm.C30_violated_aggregate
#print axioms Denorm.C42_decorators
#print axioms Denorm.C42_each_class
#print axioms Denorm.C42_cached
#print axioms Denorm.C42_cached_class_partial
#print axioms Denorm.C32_none_left
#print axioms Denorm.C32_others_kept_partial
#print axioms Denorm.C32_failed_kept
#print axioms Denorm.C32_violated
#print axioms Denorm.C33_all_or_nothing_partial
#print axioms Denorm.C33_installed
#print axioms Denorm.C33_second_fails_partial
#print axioms Denorm.C33_drop_install
#print axioms Denorm.C33_succeeds
#print axioms Denorm.C33_behaviour
#print axioms Denorm.C33_empty_watch_list
#print axioms Denorm.C33_violated_other_database
#print axioms Denorm.C33_violated_mysql
#print axioms Denorm.C33_violated_mysql_twice
#print axioms Denorm.C35_rounds_partial
#print axioms Denorm.C35_interrupt
#print axioms Denorm.C35_error_ends
#print axioms Denorm.C35_single
#print axioms Denorm.C35_violated_once
#print axioms Denorm.C35_violated_pidfile
#print axioms Denorm.C35_violated_no_errno
#print axioms Denorm.C36_process_response
#print axioms Denorm.C41_denormalized
#print axioms Denorm.C41_aggregate_partial
#print axioms Denorm.C41_declaration_partial
#print axioms Denorm.C41_violated
#print axioms Denorm.C41_cachekey
#print axioms Denorm.C41_cached
#print axioms Denorm.C17_load_partial
#print axioms Denorm.C17_save_partial
#print axioms Denorm.C17_create_partial
#print axioms Denorm.C17_violated_default
#print axioms Denorm.C17_violated_create
#print axioms Denorm.C17_violated_order
#print axioms Denorm.C17_violated_undecorated
#print axioms Denorm.C47_text_partial
#print axioms Denorm.C47_executed_partial
#print axioms Denorm.Texts.C47_violated_case
#print axioms Denorm.C48_accepted_partial
#print axioms Denorm.C48_executed_partial
#print axioms Denorm.C48_empty_exclude_partial
#print axioms Denorm.C48_violated_empty_list
#print axioms Denorm.Texts.C48_violated_reserved
#print axioms Denorm.Texts.C48_violated_value
#print axioms Denorm.Texts.C48_violated_no_columns
#print axioms Denorm.C48_violated_proxy
#print axioms Denorm.Texts.C48_violated_percent
#print axioms Denorm.Texts.C48_violated_dollar
#print axioms Denorm.C48_reflected_model
#print axioms Denorm.C48_reflected_generic_partial
#print axioms Denorm.C48_violated_generic
#print axioms Denorm.C49_printed_partial
#print axioms Denorm.C49_executed_partial
#print axioms Denorm.Texts.C49_violated_text
#print axioms Denorm.Texts.C49_violated_sqlite
#print axioms Denorm.Texts.C49_violated_name
#print axioms Denorm.Texts.C49_violated_percent
#print axioms Denorm.C50_data
#print axioms Denorm.C50_history
#print axioms Denorm.C50_rows
#print axioms Denorm.C50_needs_blind
#print axioms Denorm.C51_sqlite
#print axioms Denorm.C51_tables_partial
#print axioms Denorm.C51_postgresql_partial
#print axioms Denorm.C51_mysql_partial
#print axioms Denorm.C51_violated_postgresql
#print axioms Denorm.C51_violated_mysql
#print axioms Denorm.C51_violated_mysql_tree
#print axioms Denorm.C52_columns_partial
#print axioms Denorm.C52_violated_db_column
#print axioms Denorm.Renamed.C52_violated_count_key
#print axioms Denorm.Renamed.C52_violated_count_column
#print axioms Denorm.Renamed.C52_violated_inherited_forward
#print axioms Denorm.Renamed.C52_violated_inherited_backward
#print axioms Denorm.Renamed.C52_violated_clash
#print axioms Denorm.C53_by_name
#print axioms Denorm.C53_same_kind_partial
#print axioms Denorm.C53_setting
#print axioms Denorm.C53_violated_spatialite
#print axioms Denorm.C53_violated_toplevel
#print axioms Denorm.C53_violated_other_kind
#print axioms Denorm.C54_default_partial
#print axioms Denorm.C54_rebuild_partial
#print axioms Denorm.C54_violated_flush
#print axioms Denorm.C54_violated_rebuildall
#print axioms Denorm.C55_flush_partial
#print axioms Denorm.C55_violated
#print axioms Denorm.C56_marked_partial
#print axioms Denorm.C56_returned_partial
#print axioms Denorm.C56_violated
#print axioms Denorm.C57_save_partial
#print axioms Denorm.C57_flush_partial
#print axioms Denorm.C57_rebuild_partial
#print axioms Denorm.C57_marks
#print axioms Denorm.C57_violated_save
#print axioms Denorm.C57_violated_flush
#print axioms Denorm.C57_violated_rebuild
#print axioms Denorm.C58_partial
#print axioms Denorm.C58_clean_partial
#print axioms Denorm.C58_alone_partial
#print axioms Denorm.C58_sqlite_partial
#print axioms Denorm.C58_by_value_partial
#print axioms Denorm.C58_mysql_partial
#print axioms Denorm.Chain.C58_violated
#print axioms Denorm.Album.C58_violated_handed_over
#print axioms Denorm.C59_texts_partial
#print axioms Denorm.C59_marked_partial
#print axioms Denorm.C59_count_partial
#print axioms Denorm.Texts.C59_violated
#print axioms Denorm.C60_foreign_key_partial
#print axioms Denorm.C60_violated
#print axioms Denorm.C60_violated_forward
#print axioms Denorm.Labels.C60_violated_18
#print axioms Denorm.Labels.C60_violated_18_sum
#print axioms Denorm.C61_quiet_partial
#print axioms Denorm.C61_flush_partial
#print axioms Denorm.C61_violated_endless
#print axioms Denorm.Chain.C61_violated
#print axioms Denorm.Chain.C61_violated_deleted
#print axioms Denorm.C62_marked_partial
#print axioms Denorm.C62_flush_partial
#print axioms Denorm.C62_count_partial
#print axioms Denorm.C62_sum_partial
#print axioms Denorm.C62_fields
#print axioms Denorm.C62_violated_key
#print axioms Denorm.Chain.C62_violated_bulk_unsafe
#print axioms Denorm.C63_marked_partial
#print axioms Denorm.Demo.C63_violated_count
#print axioms Denorm.C64_count_partial
#print axioms Denorm.C64_sum_partial
#print axioms Denorm.Demo.C64_violated_unconstrained
#print axioms Denorm.Demo.C64_violated_save
#print axioms Denorm.C65_truthy_partial
#print axioms Denorm.C65_plain
#print axioms Denorm.Chain.C65_violated
#print axioms Denorm.C66_nothing_lost_partial
#print axioms Denorm.C66_project_partial
#print axioms Denorm.C66_violated_stuck
#print axioms Denorm.C66_violated_removed_model
#print axioms Denorm.Chain.C66_violated
#print axioms Denorm.C67_count
#print axioms Denorm.C67_sum_partial
#print axioms Denorm.C67_refused_iff
#print axioms Denorm.C67_count_stored
#print axioms Denorm.Demo.C67_violated_negative
#print axioms Denorm.Demo.C67_violated_large
#print axioms Denorm.Demo.C67_violated_null
#print axioms Denorm.C68_declared_partial
#print axioms Denorm.C68_unseen
#print axioms Denorm.C68_child_only
#print axioms Denorm.C68_lost
#print axioms Denorm.Renamed.C68_violated
#print axioms Denorm.Renamed.C68_violated_dependency
#print axioms Denorm.C69_keys_statement
#print axioms Denorm.C69_keys_count_partial
#print axioms Denorm.C69_violated_other_table
#print axioms Denorm.JoinDemo.C69_violated_own_table
#print axioms Denorm.JoinDemo.C69_violated_wrong_row
#print axioms Denorm.C70_text
#print axioms Denorm.C70_fits
#print axioms Denorm.C70_distinct
#print axioms Denorm.C70_python
#print axioms Denorm.C71_triggers
#print axioms Denorm.C71_values_partial
#print axioms Denorm.C71_init_without_drop
#print axioms Denorm.C71_violated_migration
#print axioms Denorm.C71_violated_aggregate
#print axioms Denorm.C72_after_request_partial
#print axioms Denorm.C72_nothing_lost_partial
#print axioms Denorm.C72_called
#print axioms Denorm.C72_switched_off
#print axioms Denorm.C72_rolled_back
#print axioms Denorm.Chain.C72_violated_streaming
#print axioms Denorm.C72_served
#print axioms Denorm.C72_answered
#print axioms Denorm.C72_view_undone
#print axioms Denorm.C73_flush_partial
#print axioms Denorm.C73_rebuildall_partial
#print axioms Denorm.C73_idle_partial
#print axioms Denorm.C73_idle_rebuild_partial
#print axioms Denorm.Chain.C73_violated_auto_now
#print axioms Denorm.C74_program
#print axioms Denorm.C74_history
#print axioms Denorm.C75_no_deadlock_partial
#print axioms Denorm.C75_sqlite_partial
#print axioms Denorm.Till.C75_violated_move
#print axioms Denorm.Till.C75_violated_mysql
#print axioms Denorm.Till.C75_violated_txn
#print axioms Denorm.Till.C75_violated_bulk
#print axioms Denorm.Press.C75_violated_two_links
#print axioms Denorm.C76_same_sight_partial
#print axioms Denorm.C76_serial_partial
#print axioms Denorm.C76_sqlite_partial
#print axioms Denorm.Notice.C76_violated_unconstrained
#print axioms Denorm.Keys.C76_violated_forward
#print axioms Denorm.Keys.C76_violated_m2m
#print axioms Denorm.C77_save
#print axioms Denorm.C77_create
#print axioms Denorm.C77_flush_order
#print axioms Denorm.C77_flush
#print axioms Denorm.C77_violated_given_key
#print axioms Denorm.C78_key_partial
#print axioms Denorm.C78_count_key_partial
#print axioms Denorm.C78_violated_lost
#print axioms Denorm.C78_violated_count
#print axioms Denorm.C78_violated_cachekey
#print axioms Denorm.Atlas.C78_violated_forward
#print axioms Denorm.Atlas.C78_violated_backward
#print axioms Denorm.Atlas.C78_violated_wrong_row
#print axioms Denorm.Atlas.C78_violated_flush_raises
#print axioms Denorm.C79_trigger_text
#print axioms Denorm.C79_python_text
#print axioms Denorm.C79_uuid_text
#print axioms Denorm.C79_distinct
#print axioms Denorm.C79_same_text
#print axioms Denorm.C79_history
#print axioms Denorm.C79_flush
#print axioms Denorm.C79_order
#print axioms Denorm.C79_nothing_stale
#print axioms Denorm.C79_rebuild_partial
#print axioms Denorm.C79_violated_uuid
#print axioms Denorm.Notes.C79_violated_rebuild
#print axioms Denorm.C80_whole_partial
#print axioms Denorm.Demo.C80_violated_drift
#print axioms Denorm.Demo.C80_violated_save
#print axioms Denorm.C81_right_partial
#print axioms Denorm.C81_never_lost_partial
#print axioms Denorm.C81_ends
#print axioms Denorm.C81_one_pass
#print axioms Denorm.C81_sqlite_partial
#print axioms Denorm.C81_same_values_partial
#print axioms Denorm.C81_violated_portions
#print axioms Denorm.C82_partial
#print axioms Denorm.C82_imports_partial
#print axioms Denorm.C82_order_partial
#print axioms Denorm.C82_classes
#print axioms Denorm.C82_aggregate_partial
#print axioms Denorm.C82_last
#print axioms Denorm.C82_violated_backward
#print axioms Denorm.C82_violated_class
#print axioms Denorm.C82_violated_self
#print axioms Denorm.C82_violated_last
#print axioms Denorm.C83_installed_again_partial
#print axioms Denorm.C83_violated_raises
#print axioms Denorm.C83_violated_refused
#print axioms Denorm.C83_violated_other
#print axioms Denorm.C84_marked_partial
#print axioms Denorm.C84_count_partial
#print axioms Denorm.C84_sum_partial
#print axioms Denorm.C84_flush_partial
#print axioms Denorm.C84_flush_count
#print axioms Denorm.C84_flush_sum
#print axioms Denorm.C84_create
#print axioms Denorm.C84_deep_marked_partial
#print axioms Denorm.C84_deep_count_partial
#print axioms Denorm.C84_deep_sum_partial
#print axioms Denorm.C84_deep_flush_partial
#print axioms Denorm.C84_deep_flush_count
#print axioms Denorm.C84_deep_flush_sum
#print axioms Denorm.C84_deep_create
#print axioms Denorm.C84_violated_create
#print axioms Denorm.C84_violated_deep_create
#print axioms Denorm.C85_program
#print axioms Denorm.C85_history
#print axioms Denorm.C86_marked_partial
#print axioms Denorm.C86_flush_partial
#print axioms Denorm.C86_count
#print axioms Denorm.C86_sum_partial
#print axioms Denorm.C86_layered
#print axioms Denorm.C86_current
#print axioms Denorm.C86_violated_unsafe
#print axioms Denorm.C87_returns_partial
#print axioms Denorm.C87_no_error_partial
#print axioms Denorm.C87_right_partial
#print axioms Denorm.C87_violated_taken
#print axioms Denorm.C87_violated_forever
#print axioms Denorm.C87_violated_exchange
#print axioms Denorm.C88_program_partial
#print axioms Denorm.C88_calls_partial
#print axioms Denorm.C88_violated_own
#print axioms Denorm.C88_violated_unsafe
#print axioms Denorm.C89_refresh_partial
#print axioms Denorm.C89_violated_order
#print axioms Denorm.C89_violated_number
#print axioms Denorm.C89_violated_deferred
#print axioms Denorm.C89_violated_clean
#print axioms Denorm.C89_violated_dump
#print axioms Denorm.C89_violated_fixture
#print axioms Denorm.C89_loaded
#print axioms Denorm.C90_marked_partial
#print axioms Denorm.C90_flush_partial
#print axioms Denorm.C90_count_partial
#print axioms Denorm.C90_sum_partial
#print axioms Denorm.C90_project_partial
#print axioms Denorm.C90_violated_replace
#print axioms Denorm.C90_violated_truncate
#print axioms Denorm.C91_marked_partial
#print axioms Denorm.C91_flush_partial
#print axioms Denorm.C91_count_partial
#print axioms Denorm.C91_sum_partial
#print axioms Denorm.C91_unreferenced_partial
#print axioms Denorm.C91_references_partial
#print axioms Denorm.C91_references_flush_partial
#print axioms Denorm.C91_project_partial
#print axioms Denorm.Crates.C91_violated
#print axioms Denorm.C92_marked_partial
#print axioms Denorm.C92_flush_partial
#print axioms Denorm.C92_violated_count
#print axioms Denorm.C92_violated_dangling
#print axioms Denorm.C92_violated_reinserted
#print axioms Denorm.C93_marked_partial
#print axioms Denorm.C93_flush_partial
#print axioms Denorm.C93_nothing_partial
#print axioms Denorm.C93_nothing_flush_partial
#print axioms Denorm.C93_count
#print axioms Denorm.C93_sum_partial
#print axioms Denorm.C93_exactly
#print axioms Denorm.C93_unreferenced
#print axioms Denorm.C93_finishes
#print axioms Denorm.C93_project_partial
#print axioms Denorm.C93_project_ends_partial
#print axioms Denorm.C93_violated
#print axioms Denorm.C94_load_partial
#print axioms Denorm.C94_renewed_partial
#print axioms Denorm.C94_violated
#print axioms Denorm.C95_truncated
#print axioms Denorm.C95_emptied_partial
#print axioms Denorm.C95_last_partial
#print axioms Denorm.C95_sqlite_partial
#print axioms Denorm.C95_flush_partial
#print axioms Denorm.C95_violated_refused
#print axioms Denorm.C95_violated_raises
#print axioms Denorm.C96_undone
#print axioms Denorm.C96_undone_among_others
#print axioms Denorm.C96_kept
#print axioms Denorm.C96_as_if_never
#print axioms Denorm.C96_alone_partial
#print axioms Denorm.C96_sqlite_partial
#print axioms Denorm.C96_by_value_partial
#print axioms Denorm.C96_mysql_partial
#print axioms Denorm.C96_count_partial
#print axioms Denorm.C96_sum_partial
#print axioms Denorm.Chain.C96_violated
#print axioms Denorm.C96_script
#print axioms Denorm.C96_script_inOrder
#print axioms Denorm.C96_script_undone
