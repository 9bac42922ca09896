{"id": "C01", "title": "flush() leaves nothing stale", "statement": "If, when denorm.flush() is called, every instance whose @denormalized value is out of date has a dirty marker, then whenever flush() returns the DirtyInstance table is empty and every @denormalized field of every existing row equals what its callback returns on the final database.", "quantifier": "all database contents, all sets and orders of dirty markers (duplicates included), all callbacks that read only their own row's stored fields and their declared relations, any number of passes", "why_tests_cant": "depends on arbitrary dependency graphs and marker sets; a test fixes one graph and one marker order", "anchors": ["denorm/denorms.py:flush", "denorm/fields.py:DenormDBField.pre_save", "denorm/models.py:DirtyInstance"]}
{"id": "C02", "title": "forward dependencies are tracked", "statement": "With triggers installed, after any INSERT, UPDATE or DELETE on the other model of a forward (ForeignKey) dependency, every row of the declaring model that refers to the affected row has a dirty marker, so a changed callback value is never left unmarked. What the callback reads is not in a skip list, no declaration sharing the trigger watches less (C08), and on sqlite no trigger leads back to itself (C40).", "quantifier": "every table content, every row written, every column changed, ORM or raw SQL, one-row or bulk statements", "why_tests_cant": "the set of related rows and the changed columns are unbounded", "anchors": ["denorm/dependencies.py:CallbackDependOnRelated.get_triggers", "denorm/db/base.py:Trigger", "denorm/db/sqlite3/triggers.py:Trigger.sql"]}
{"id": "C03", "title": "backward dependencies are tracked", "statement": "With triggers installed, after any INSERT, UPDATE or DELETE of a row whose ForeignKey points at a row of the declaring model, both the row pointed to before and the row pointed to after the change have a dirty marker. What the callback reads is not in a skip list, no declaration sharing the trigger watches less (C08), and on sqlite no trigger leads back to itself (C40).", "quantifier": "every table content, every old and new foreign key value including NULL, one-row or bulk statements", "why_tests_cant": "all combinations of old/new key values and co-changed columns", "anchors": ["denorm/dependencies.py:CallbackDependOnRelated.get_triggers"]}
{"id": "C04", "title": "many-to-many dependencies are tracked", "statement": "With triggers installed, adding, removing or re-pointing a row of the intermediate table, or updating a row of the other model, marks every row of the declaring model that is linked before or after the change. What the callback reads is not in a skip list, no declaration sharing the trigger watches less (C08), and on sqlite no trigger leads back to itself (C40).", "quantifier": "every content of the three tables, both directions of the relation, every statement", "why_tests_cant": "link tables of any shape", "anchors": ["denorm/dependencies.py:CallbackDependOnRelated.get_triggers"]}
{"id": "C05", "title": "generic relation dependencies are tracked", "statement": "With triggers installed, creating, deleting, editing or re-pointing (even to another content type) a row of the target model of a GenericRelation marks the owning row(s) before and after the change. What the callback reads is not in a skip list, no declaration sharing the trigger watches less (C08), and on sqlite no trigger leads back to itself (C40).", "quantifier": "every old/new (content type, object id) pair, all three backends", "why_tests_cant": "content-type/object-id combinations are unbounded; backends differ", "anchors": ["denorm/dependencies.py:CallbackDependOnRelated.get_triggers", "denorm/db/base.py:Trigger.__init__", "denorm/db/sqlite3/triggers.py:Trigger.sql", "denorm/db/postgresql/triggers.py:Trigger.sql", "denorm/db/mysql/triggers.py:Trigger.sql"]}
{"id": "C06", "title": "updates that change nothing have no effect", "statement": "An UPDATE that leaves every watched column of a row null-safely equal to its old value marks nothing dirty and changes no other row.", "quantifier": "every row, every watched column list, NULLs included, every backend", "why_tests_cant": "NULL handling and every column combination", "anchors": ["denorm/db/sqlite3/triggers.py:Trigger.sql", "denorm/db/postgresql/triggers.py:Trigger.sql", "denorm/db/mysql/triggers.py:Trigger.sql"]}
{"id": "C07", "title": "skipped columns never trigger work", "statement": "Changing only columns listed in skip= (or in the model's denorm_always_skip) neither marks anything dirty nor updates any denormalized value through the triggers of the declaration that listed them.", "quantifier": "every skip list, every denorm_always_skip tuple, every update", "why_tests_cant": "interaction of two skip lists and every column set", "anchors": ["denorm/db/base.py:Trigger.__init__", "denorm/fields.py:DenormDBField.__init__"]}
{"id": "C08", "title": "declarations do not interfere through trigger merging", "statement": "Adding another denormalization whose triggers fall on the same table and event never removes a reaction an already declared denormalization would have had: each declaration reacts to every change of each column it watches itself.", "quantifier": "every finite set of declarations and every order of them, every row change", "why_tests_cant": "needs all combinations and orders of declarations", "anchors": ["denorm/db/base.py:TriggerSet.append", "denorm/denorms.py:build_triggerset"]}
{"id": "C09", "title": "each reaction runs once per row event", "statement": "However many times the same declaration is reached (multi-table inheritance, several dependencies, repeated registration), each distinct reaction is executed exactly once for a row event; a CountField is never incremented twice for one insert.", "quantifier": "every list of declarations with any repetition", "why_tests_cant": "all multiplicities and orders", "anchors": ["denorm/db/sqlite3/triggers.py:Trigger.sql", "denorm/db/postgresql/triggers.py:Trigger.sql", "denorm/db/mysql/triggers.py:Trigger.sql", "denorm/denorms.py:get_alldenorms"]}
{"id": "C10", "title": "CountField equals the number of related rows", "statement": "With triggers installed, after every committed history of inserts, updates, re-parenting, bulk updates and deletes of related rows and saves/inserts/deletes of counted rows, each CountField equals the number of related rows, immediately and without flush(); provided a row is inserted after the row it refers to, and statements change neither the primary key nor the count of counted rows.", "quantifier": "all histories of statements of any length, any table contents", "why_tests_cant": "incremental counters need induction over histories", "anchors": ["denorm/denorms.py:AggregateDenorm.get_triggers", "denorm/denorms.py:CountDenorm", "denorm/fields.py:AggregateField.pre_save"]}
{"id": "C11", "title": "filtered CountField counts exactly the matching rows", "statement": "With filter= and exclude=, the stored count always equals manager.filter(**filter).exclude(**exclude).count(), including when an update moves a row into or out of the filter and when filtered columns are NULL; for the histories of C10.", "quantifier": "all filters and excludes over all column values with NULLs, all histories", "why_tests_cant": "three-valued logic over all values", "anchors": ["denorm/denorms.py:AggregateDenorm.get_triggers", "denorm/denorms.py:TriggerFilterQuery", "denorm/fields.py:AggregateField.__init__"]}
{"id": "C12", "title": "SumField equals the sum over related rows", "statement": "After every history the SumField equals the sum of the summed column over related (filtered) rows, rows with NULL counting as zero.", "quantifier": "all histories, all integer values and NULL", "why_tests_cant": "all values and histories", "anchors": ["denorm/denorms.py:SumDenorm", "denorm/denorms.py:AggregateDenorm.get_triggers"]}
{"id": "C13", "title": "saving an instance never overwrites its aggregate with a stale value", "statement": "save() of an instance loaded at any earlier time leaves CountField/SumField at the value currently stored in the database, whatever the in-memory attribute says, and sets the attribute to that value.", "quantifier": "every in-memory value, every interval of changes between load and save, every interleaving with other sessions", "why_tests_cant": "all interleavings and stale values", "anchors": ["denorm/fields.py:AggregateField.pre_save"]}
{"id": "C14", "title": "counts never go negative, not even inside a statement", "statement": "The PositiveIntegerField constraint (value >= 0) on a CountField holds after every single UPDATE the triggers issue, including in the middle of a re-parenting or in-place update; for the histories of C10 and filters over columns that triggers do not write.", "quantifier": "every history, every intermediate step of every trigger", "why_tests_cant": "intermediate states are not observable by tests", "anchors": ["denorm/denorms.py:AggregateDenorm.get_triggers"]}
{"id": "C15", "title": "CacheKeyField is renewed when a dependency changes", "statement": "With triggers installed, a change of a related row (forward, backward, m2m; insert, update, delete) immediately gives every related instance's CacheKeyField a freshly drawn value, one draw per row, and leaves unrelated instances' keys alone.", "quantifier": "every table content and every statement; every outcome of the random source", "why_tests_cant": "randomness and unbounded relation sets", "anchors": ["denorm/dependencies.py:CacheKeyDependOnRelated.get_triggers", "denorm/fields.py:CacheKeyField", "denorm/db/base.py:RandomBigInt"]}
{"id": "C16", "title": "CacheKeyField is renewed on every save", "statement": "Every ORM save() of an instance stores a freshly drawn key and sets the attribute to the same value as the database.", "quantifier": "every instance and history", "why_tests_cant": "randomness", "anchors": ["denorm/fields.py:CacheKeyField.pre_save", "denorm/denorms.py:BaseCacheKeyDenorm"]}
{"id": "C17", "title": "@cached attributes are never stale", "statement": "Reading the attribute of an instance obtained at any time (freshly constructed, loaded, or saved) gives the value the function returns for that instance's data as of its cache key; after a dependency changes, newly loaded instances see the recomputed value.", "quantifier": "every cache content reachable by the library, every sequence of loads, saves and dependency changes", "why_tests_cant": "all cache histories and key values, including the default key", "anchors": ["denorm/fields.py:CacheWrapper.__set__", "denorm/fields.py:CachedField"]}
{"id": "C18", "title": "flush() terminates on dependency chains", "statement": "If dependencies between instances are acyclic, flush() returns after at most (longest chain + 1) working passes, saving each affected instance a bounded number of times; it terminates for every declared dependency graph.", "quantifier": "every finite database and dependency graph", "why_tests_cant": "termination is a statement about all runs", "anchors": ["denorm/denorms.py:flush"]}
{"id": "C19", "title": "flush() result does not depend on order or multiplicity of markers", "statement": "For acyclic dependencies, the final values of all denormalized fields after flush() are the same for every order and multiplicity of dirty markers, with or without DISTINCT ON support in the backend.", "quantifier": "all permutations and multiplicities of markers", "why_tests_cant": "permutations", "anchors": ["denorm/denorms.py:flush"]}
{"id": "C20", "title": "flush() is crash safe", "statement": "If the process dies at any point during flush() (autocommit, between any two statements), every instance whose denormalized value is out of date still has a dirty marker, and running flush() again completes the work.", "quantifier": "every crash point of every run", "why_tests_cant": "crash points", "anchors": ["denorm/denorms.py:flush"]}
{"id": "C21", "title": "changes made by other sessions during flush() are not lost", "statement": "A change committed by another session at any point while flush() runs is reflected: when flush() has returned and no session is active, every instance affected by the change is either up to date or still marked dirty.", "quantifier": "every interleaving of flush() with any number of concurrent writers", "why_tests_cant": "interleavings", "anchors": ["denorm/denorms.py:flush"]}
{"id": "C22", "title": "markers without a target are discarded", "statement": "A dirty marker whose instance has been deleted, or whose object id is NULL, never raises, never saves anything, and is gone when flush() returns.", "quantifier": "every marker set", "why_tests_cant": "all marker sets and deletions", "anchors": ["denorm/denorms.py:flush", "denorm/models.py:DirtyInstance"]}
{"id": "C23", "title": "each dirty object is saved at most once per pass where DISTINCT ON exists", "statement": "On backends with DISTINCT ON, one pass of flush() saves each marked object at most once no matter how many markers it has; on the other backends it saves it once per marker present at the start of the pass.", "quantifier": "all marker multisets", "why_tests_cant": "all multisets", "anchors": ["denorm/denorms.py:flush"]}
{"id": "C24", "title": "rebuildall() recomputes everything it names", "statement": "rebuildall(model_name, field_name) marks exactly the rows of the models selected by app label, model name or app.Model and field name, and when it returns every denormalized field of every such row (CountField and SumField included) is recomputed from scratch and no marker is left.", "quantifier": "every set of models, every name argument, every database content (also one populated before the triggers were installed)", "why_tests_cant": "all databases and arguments", "anchors": ["denorm/denorms.py:rebuildall", "denorm/management/commands/denorm_rebuild.py"]}
{"id": "C25", "title": "rebuildall() evaluates each callback once per instance when nothing depends on anything", "statement": "For models without dependencies and an empty dirty table, rebuildall() evaluates each callback exactly once per row; proxy models and multi-table children add no further evaluations.", "quantifier": "every number of rows, models, proxies and children; keys that have one text (all but UUIDs on sqlite and MySQL, see C79)", "why_tests_cant": "all model sets", "anchors": ["denorm/denorms.py:rebuildall", "denorm/denorms.py:get_alldenorms", "denorm/denorms.py:flush"]}
{"id": "C26", "title": "denormalized ManyToManyFields hold exactly what the callback returns", "statement": "Saving an instance sets a denormalized ManyToManyField, its own or an inherited one, to exactly the set of objects the callback returns; creating an instance saves it exactly one extra time so the relation is filled, and never loops.", "quantifier": "every old relation set and callback result", "why_tests_cant": "all sets", "anchors": ["denorm/denorms.py:many_to_many_pre_save", "denorm/denorms.py:many_to_many_post_save"]}
{"id": "C27", "title": "dependencies of denormalized ManyToManyFields are tracked", "statement": "A @denormalized ManyToManyField with @depend_on_related is updated by flush() after its dependency changes, like any other denormalized field.", "quantifier": "every model declaring such a field, alone or together with others", "why_tests_cant": "all sets of declarations", "anchors": ["denorm/denorms.py:get_alldenorms", "denorm/denorms.py:build_triggerset"]}
{"id": "C28", "title": "denormalized ForeignKeys accept an object or its key", "statement": "A @denormalized ForeignKey callback may return an instance of the target model or a primary key or None; the stored column is the primary key (or NULL) in every case and the in-memory attribute agrees with it.", "quantifier": "every return value", "why_tests_cant": "all return values and field kinds", "anchors": ["denorm/fields.py:DenormDBField.pre_save", "denorm/denorms.py:Denorm.update"]}
{"id": "C29", "title": "relation auto-resolution picks the unique relation or fails", "statement": "depend_on_related resolves iff exactly one ForeignKey/ManyToManyField/GenericRelation between the models matches the given foreign_key and type; then that relation and direction are used; otherwise it raises, and a self relation without type is never taken backward.", "quantifier": "every pair of models with any number of relations, every foreign_key/type argument", "why_tests_cant": "all model graphs", "anchors": ["denorm/dependencies.py:DependOnRelated.resolved_model", "denorm/helpers.py:find_fks", "denorm/helpers.py:find_m2ms"]}
{"id": "C30", "title": "declarations on abstract bases are independent per concrete model", "statement": "A denormalized field of any kind (@denormalized, CacheKeyField, CountField, SumField) declared on an abstract base is tracked separately for every concrete subclass.", "quantifier": "every number and order of subclasses", "why_tests_cant": "all class hierarchies and preparation orders", "anchors": ["denorm/fields.py:DenormDBField.contribute_to_class", "denorm/fields.py:CacheKeyField.contribute_to_class", "denorm/denorms.py:BaseCacheKeyDenorm.setup", "denorm/dependencies.py:DependOnRelated.setup"]}
{"id": "C31", "title": "proxy and swapped models contribute nothing, every other declaration is found", "statement": "The set of denormalizations used by denorm_init, denorm_rebuild and denorm_sql is exactly those of concrete fields of non-proxy models whose declaring model is not swapped out.", "quantifier": "every set of models", "why_tests_cant": "all model registries", "anchors": ["denorm/denorms.py:get_alldenorms"]}
{"id": "C32", "title": "denorm_drop removes exactly django-denorm's triggers", "statement": "After drop_triggers() no trigger created by django-denorm is left and every other trigger in the database is still there.", "quantifier": "every set of triggers in the database with any names, all three backends", "why_tests_cant": "all names", "anchors": ["denorm/db/sqlite3/triggers.py:TriggerSet.drop_atomic", "denorm/db/postgresql/triggers.py:TriggerSet.drop_atomic", "denorm/db/mysql/triggers.py:TriggerSet.drop", "denorm/db/base.py:Trigger.name"]}
{"id": "C33", "title": "denorm_init is all-or-nothing and repeatable after denorm_drop", "statement": "install_triggers() either creates every trigger or leaves the database as it was; drop followed by install gives the same triggers no matter what was installed before; a second install without drop fails without changing anything.", "quantifier": "every set of declarations, every prior trigger set, every failing statement", "why_tests_cant": "failure points", "anchors": ["denorm/db/sqlite3/triggers.py:TriggerSet.install", "denorm/db/postgresql/triggers.py:TriggerSet.install", "denorm/db/mysql/triggers.py:TriggerSet.install", "denorm/denorms.py:install_triggers"]}
{"id": "C34", "title": "different table events get different triggers", "statement": "Triggers for different (table, event, generic content type) never share a name, so no reaction is attached to the wrong table.", "quantifier": "all table names and content type ids", "why_tests_cant": "all names", "anchors": ["denorm/db/base.py:Trigger.name", "denorm/db/sqlite3/triggers.py:Trigger.name", "denorm/db/postgresql/triggers.py:Trigger.name", "denorm/db/mysql/triggers.py:Trigger.sql", "denorm/db/base.py:TriggerSet.append"]}
{"id": "C35", "title": "the daemon flushes repeatedly, commits each round and runs once", "statement": "denorm_daemon flushes and commits once per interval until interrupted, commits on interrupt, with -o flushes exactly once, and does not start while the pid file names a live process.", "quantifier": "every sequence of intervals, interrupts and pid-file states", "why_tests_cant": "all signal timings and pid-file states", "anchors": ["denorm/management/commands/denorm_daemon.py:Command", "denorm/management/commands/denorm_daemon.py:commit_manually", "denorm/daemon.py:daemonize"]}
{"id": "C36", "title": "DenormMiddleware always returns the response", "statement": "process_response calls flush() exactly once and returns the very response it was given, also when flush() raises a DatabaseError (which is logged); no other exception is swallowed.", "quantifier": "every response and every outcome of flush()", "why_tests_cant": "all outcomes", "anchors": ["denorm/middleware.py:DenormMiddleware.process_response"]}
{"id": "C37", "title": "direct writes to denormalized columns are repaired", "statement": "If any session overwrites a @denormalized column with an arbitrary value by bulk update, raw SQL or a save() of a stale instance, the row is marked dirty, so the next flush() restores the callback's value. What the callback reads is not in a skip list, no declaration sharing the trigger watches less (C08), and on sqlite no trigger leads back to itself (C40).", "quantifier": "every written value, every path of writing", "why_tests_cant": "all values and write paths", "anchors": ["denorm/denorms.py:CallbackDenorm.get_triggers"]}
{"id": "C38", "title": "DENORM_BULK_UNSAFE_TRIGGERS only gives up tracking of the declaring table", "statement": "With the setting on, changes of related models are tracked exactly as without it; only the markers for inserts and updates of the declaring model itself are missing. A program that writes instances of the declaring model one at a time with save() and create(), and related models in any way, still has after every call each value right or its instance marked, and every value right after flush(). (Merged declarations watch the same columns, see C08.)", "quantifier": "every declaration, statement, program and flush", "why_tests_cant": "all declarations and histories", "anchors": ["denorm/denorms.py:BaseCallbackDenorm.get_triggers", "denorm/denorms.py:CallbackDenorm.get_triggers", "denorm/fields.py:DenormDBField.contribute_to_class"]}
{"id": "C39", "title": "generic relations do not mark rows of other models", "statement": "A change of a generic target row that belongs to one model before and after never marks an instance of another model that happens to have the same primary key.", "quantifier": "every content type / object id combination, every backend", "why_tests_cant": "all combinations", "anchors": ["denorm/db/sqlite3/triggers.py:Trigger.sql", "denorm/db/postgresql/triggers.py:Trigger.sql", "denorm/db/mysql/triggers.py:Trigger.sql"]}
{"id": "C40", "title": "changes caused by triggers are themselves tracked", "statement": "When a trigger changes a CountField, SumField or CacheKeyField, instances whose callbacks depend on that row are marked dirty exactly as if the column had been changed by a user.", "quantifier": "every chain of triggers on every backend", "why_tests_cant": "nested trigger behaviour differs per backend and nesting", "anchors": ["denorm/db/base.py:TriggerSet.append", "denorm/denorms.py:AggregateDenorm.get_triggers", "denorm/db/sqlite3/triggers.py:Trigger.sql"]}
{"id": "C41", "title": "migrations can reconstruct the fields", "statement": "deconstruct() of a denormalized field, CountField, SumField or CacheKeyField yields arguments from which the same database column can be rebuilt, and for aggregate fields the same declaration (manager, filter, exclude, skip, summed field).", "quantifier": "every constructor argument combination", "why_tests_cant": "all argument combinations", "anchors": ["denorm/fields.py:DenormDBField.deconstruct", "denorm/fields.py:AggregateField.deconstruct"]}
{"id": "C42", "title": "stacked @depend_on_related decorators all take effect", "statement": "Every depend_on_related decorator applied to the function of a @denormalized or @cached field yields one dependency, in application order, and each class using a @denormalized callback gets its own dependency objects.", "quantifier": "every number of decorators and classes", "why_tests_cant": "any number", "anchors": ["denorm/dependencies.py:make_depend_decorator", "denorm/fields.py:DenormDBField.contribute_to_class"]}
{"id": "C43", "title": "the incremental update of one denorm writes only when something changed", "statement": "Denorm.update(instance) changes the instance only if the callback's value differs from the stored one (many-to-many values compared as sets of keys), and reports exactly the changed field.", "quantifier": "every old and new value", "why_tests_cant": "all values", "anchors": ["denorm/denorms.py:Denorm.update"]}
{"id": "C44", "title": "the emitted trigger condition text means what was intended", "statement": "For every list of watched columns and every content type restriction, the WHEN/IF condition text each backend emits is accepted by the SQL expression grammar and evaluates to: some watched column changed, and the row belongs to the content type before or after.", "quantifier": "all column lists (also empty), all rows, all three backends", "why_tests_cant": "operator precedence over all expressions", "anchors": ["denorm/db/sqlite3/triggers.py:Trigger.sql", "denorm/db/postgresql/triggers.py:Trigger.sql", "denorm/db/mysql/triggers.py:Trigger.sql"]}
{"id": "C45", "title": "callbacks on the same instance may use each other", "statement": "If one @denormalized callback of a model reads another @denormalized field of the same instance, both are consistent after flush().", "quantifier": "every declaration order", "why_tests_cant": "all orders of fields", "anchors": ["denorm/fields.py:DenormDBField.pre_save", "denorm/denorms.py:flush"]}
{"id": "C46", "title": "a new instance with a chosen primary key can be saved", "statement": "Saving a new instance whose primary key was chosen by the application inserts it, whatever denormalized, CountField, SumField and CacheKeyField fields its model has.", "quantifier": "every model, every key that is not in use, every database state", "why_tests_cant": "depends on which fields the model has and on how the instance was constructed", "anchors": ["denorm/fields.py:AggregateField.pre_save"]}
{"id": "C47", "title": "the database gets the triggers that were meant", "statement": "The text of each CREATE TRIGGER statement that denorm_init sends, read by the rules of the database it is sent to, is a trigger with the intended name, on the intended table, for the intended event, with the intended statements, whose condition is TRUE exactly when a watched column (of a row of the right content type) has changed.", "quantifier": "all declarations: any names of tables, columns and fields, any relations, any filters, all three databases", "why_tests_cant": "quoting, case folding, reserved words, separators and precedence matter for every combination of names and values", "anchors": ["denorm/db/sqlite3/triggers.py:Trigger.sql", "denorm/db/postgresql/triggers.py:Trigger.sql", "denorm/db/mysql/triggers.py:Trigger.sql", "denorm/db/sqlite3/triggers.py:TriggerActionInsert.sql", "denorm/db/sqlite3/triggers.py:TriggerActionUpdate.sql", "denorm/db/sqlite3/triggers.py:TriggerNestedSelect.sql", "denorm/denorms.py:TriggerFilterQuery"]}
{"id": "C48", "title": "what can be declared can be installed", "statement": "Every project whose models can be imported and whose tables the database accepted can have its triggers installed: the database accepts every statement that denorm_init sends.", "quantifier": "all declarations, all three databases", "why_tests_cant": "a test installs the triggers of one project", "anchors": ["denorm/db/sqlite3/triggers.py:TriggerSet.install", "denorm/db/postgresql/triggers.py:TriggerSet.install", "denorm/db/mysql/triggers.py:TriggerSet.install", "denorm/db/sqlite3/triggers.py:Trigger.sql"]}
{"id": "C49", "title": "denorm_sql prints what denorm_init executes", "statement": "The statements printed by the management command denorm_sql are the statements that denorm_init executes for the same project and database.", "quantifier": "all declarations, all filter values, all three databases", "why_tests_cant": "depends on every parameter value and on random names", "anchors": ["denorm/management/commands/denorm_sql.py:Command.handle", "denorm/denorms.py:build_triggerset", "denorm/db/mysql/triggers.py:Trigger.sql"]}
{"id": "C50", "title": "triggers leave the rest of the data alone", "statement": "A statement that succeeds with the triggers installed leaves in every table the rows, in the order, that it would leave without them, apart from the values of CountFields, SumFields and CacheKeyFields; so does a history of statements. (The statements do not themselves copy such a field into another one or select rows by it.)", "quantifier": "every INSERT, UPDATE and DELETE, every history, every content, every set of declarations, all three databases", "why_tests_cant": "triggers call triggers in every combination of declarations and rows", "anchors": ["denorm/db/base.py:TriggerActionUpdate", "denorm/dependencies.py:CacheKeyDependOnRelated.get_triggers", "denorm/denorms.py:AggregateDenorm.get_triggers"]}
{"id": "C51", "title": "triggers do not make statements fail", "statement": "With the triggers of any declarations installed, every statement that succeeds without them succeeds with them: the triggers come to an end and do nothing that the database forbids inside a trigger.", "quantifier": "every statement, every content, every set of declarations, all three databases", "why_tests_cant": "termination for every content and every combination of declarations", "anchors": ["denorm/denorms.py:AggregateDenorm.get_triggers", "denorm/dependencies.py:CacheKeyDependOnRelated.get_triggers", "denorm/denorms.py:build_triggerset", "denorm/db/base.py:TriggerSet.append"]}
{"id": "C52", "title": "triggers only mention columns that exist", "statement": "Every column that a trigger of django-denorm mentions is a column of the table it is looked up in; otherwise the database refuses the trigger or every statement that runs it.", "quantifier": "all models (any column names, inheritance), all declarations, all three databases", "why_tests_cant": "depends on every way to name and inherit columns", "anchors": ["denorm/db/base.py:Trigger.__init__", "denorm/dependencies.py:CallbackDependOnRelated.get_triggers", "denorm/dependencies.py:CacheKeyDependOnRelated.get_triggers", "denorm/denorms.py:AggregateDenorm.get_triggers"]}
{"id": "C53", "title": "triggers are written for the database they are sent to", "statement": "For every entry of DATABASES with one of Django's engines for sqlite, MySQL or PostgreSQL, denorm_init --database=alias writes the triggers in the SQL of that database.", "quantifier": "all settings, all aliases", "why_tests_cant": "depends on the combination of engines in the settings", "anchors": ["denorm/db/__init__.py:backend_for_dbname", "denorm/db/__init__.py:backend", "denorm/management/commands/denorm_init.py:Command.handle"]}
{"id": "C54", "title": "flush() works on every database with triggers", "statement": "After flush() returns, no denormalized value is stale in any of the project's databases in which denorm_init has installed triggers.", "quantifier": "all databases of a project, all contents", "why_tests_cant": "depends on the databases and on what happened in each of them", "anchors": ["denorm/denorms.py:flush", "denorm/denorms.py:rebuildall", "denorm/management/commands/denorm_init.py:Command.handle"]}
{"id": "C55", "title": "flush() works with every Django version", "statement": "flush() does the same with every version of Django that the library can be imported with, on all three databases.", "quantifier": "all versions, all three databases, all contents", "why_tests_cant": "a test runs with one version", "anchors": ["denorm/denorms.py:flush"]}
{"id": "C56", "title": "several processes may call flush()", "statement": "flush() may be called by several processes at the same time (the daemon, the middleware, denorm_flush). When all calls have returned and nobody has changed anything meanwhile, nothing is stale; and at every moment, also when some of the processes are killed, every stale instance is marked.", "quantifier": "any number of calls, every interleaving of their database accesses, every content", "why_tests_cant": "races between processes", "anchors": ["denorm/denorms.py:flush"]}
{"id": "C57", "title": "rows that the model's manager leaves out are maintained too", "statement": "save(), flush() and rebuildall() treat every row of a model's table, also those that the model's manager `objects` leaves out (for instance rows marked as deleted).", "quantifier": "all managers, all models, every content", "why_tests_cant": "depends on what the manager leaves out and on which markers flush() meets", "anchors": ["denorm/fields.py:AggregateField.pre_save", "denorm/denorms.py:rebuildall", "denorm/denorms.py:flush"]}
{"id": "C58", "title": "changes made in transactions are not lost", "statement": "When sessions change data in transactions (save() and atomic() blocks) and flush() runs meanwhile, every committed value is right or its instance is marked in the committed state, whatever the order in which transactions start, execute statements, commit or are rolled back.", "quantifier": "any number of sessions, all schedules of statements, commits, rollbacks and flush(), all three databases", "why_tests_cant": "races between transactions; depends on what a session can see of the others", "anchors": ["denorm/denorms.py:flush", "denorm/db/postgresql/triggers.py:TriggerActionInsert", "denorm/db/mysql/triggers.py:TriggerActionInsert", "denorm/db/sqlite3/triggers.py:TriggerActionInsert", "denorm/db/postgresql/triggers.py:TriggerNestedSelect"]}
{"id": "C59", "title": "from declarations to rows, through the SQL that is sent", "statement": "The database reads every text that denorm_init sends as a trigger, and running what it has read it executes every statement with the effects the declarations ask for: after every history of statements each @denormalized value is right or its instance is marked, and each CountField holds the right number.", "quantifier": "all declarations, all databases and histories of statements", "why_tests_cant": "goes through generated SQL in three dialects; tests run few declarations on one database", "anchors": ["denorm/management/commands/denorm_init.py", "denorm/denorms.py:install_triggers", "denorm/db/base.py:TriggerSet.install", "denorm/db/sqlite3/triggers.py:Trigger.sql", "denorm/db/postgresql/triggers.py:Trigger.sql", "denorm/db/mysql/triggers.py:Trigger.sql"]}
{"id": "C60", "title": "aggregates over every kind of manager and in every Django version", "statement": "CountField and SumField work for every manager that leads to many objects (ForeignKeys backwards, ManyToManyFields in both directions) and in every version of Django that is supported: denorm_init installs triggers, and after every history the field holds the number (sum) over the related objects.", "quantifier": "all kinds of managers, all Django versions from 1.8 on, all projects", "why_tests_cant": "each version needs its own test run with models of every kind; the library's tests have no aggregate over a many-to-many relation", "anchors": ["denorm/denorms.py:AggregateDenorm.get_triggers", "denorm/denorms.py:AggregateDenorm.get_related_where", "denorm/denorms.py:AggregateDenorm.m2m_triggers", "denorm/denorms.py:SumDenorm.get_related_increment_value"]}
{"id": "C61", "title": "flush() may run inside a transaction", "statement": "flush() may be called in a transaction (the daemon does so, or a caller with atomic()), at the isolation level that MySQL and Django use by default (REPEATABLE READ): it returns, and afterwards no value is stale without a marker, also if other sessions change data or flush meanwhile.", "quantifier": "all projects and contents, every interleaving of flush() with statements of other sessions and with other calls of flush()", "why_tests_cant": "races; depends on the isolation level, which tests run with sqlite do not have", "anchors": ["denorm/denorms.py:flush", "denorm/management/commands/denorm_daemon.py:commit_manually"]}
{"id": "C62", "title": "every way of writing through the ORM counts", "statement": "Whatever a program uses to change data - save(), save(update_fields=..), saving an instance that was loaded in part (only(), defer()), create(), bulk_create(), update(), delete(), loaddata, SQL - afterwards each computed value is right or its instance is marked (and right after flush()), each CountField and SumField is right, and the cache key of an instance that was saved is new.", "quantifier": "all programs made of such calls, in any order and number, all projects and contents, all three databases", "why_tests_cant": "the combinations of calls and field kinds are unbounded; several of these calls bypass pre_save for some fields", "anchors": ["denorm/fields.py:denormalized", "denorm/fields.py:CountField", "denorm/fields.py:CacheKeyField.pre_save", "denorm/denorms.py:CallbackDenorm.get_triggers"]}
{"id": "C63", "title": "data can be dumped and loaded again", "statement": "Fixtures written by dumpdata can be loaded with loaddata into a database with triggers: afterwards each computed value is right or its instance is marked, and each CountField holds the right number.", "quantifier": "all fixtures, all projects and contents", "why_tests_cant": "depends on the content of the fixture and the order of its rows", "anchors": ["denorm/fields.py:CountField", "denorm/denorms.py:AggregateDenorm.get_triggers", "denorm/denorms.py:CallbackDenorm.get_triggers"]}
{"id": "C64", "title": "aggregates stay right in concurrent transactions", "statement": "When sessions change data in transactions that overlap in time, and flush() runs meanwhile, every CountField and SumField that is committed holds the number (the sum) of the committed rows it counts, and within its transaction each session sees the right number.", "quantifier": "any number of sessions, all schedules of statements, commits, rollbacks and flush(), all three databases", "why_tests_cant": "races between transactions; two sessions that count for the same instance", "anchors": ["denorm/denorms.py:AggregateDenorm.get_triggers", "denorm/fields.py:AggregateField.pre_save", "denorm/db/base.py:TriggerActionUpdate", "denorm/denorms.py:flush"]}
{"id": "C65", "title": "an instance is flushed whatever its truth value", "statement": "flush() recomputes every marked instance that exists, also one that is false in a condition because its model defines __bool__ or __len__.", "quantifier": "all projects, all models and truth values, all contents and markers", "why_tests_cant": "depends on methods that any model may define, and on the content at the moment of flush()", "anchors": ["denorm/denorms.py:flush"]}
{"id": "C66", "title": "an instance that cannot be saved does not hold up the others", "statement": "When saving one marked instance raises an exception, flush() still brings the others up to date (if not in this call, then in a later one), and no marker of an out-of-date instance is lost.", "quantifier": "all projects, all contents and markers, any failing instances, failure before or after the write, any number of calls", "why_tests_cant": "the failing instance can stand anywhere among the markers, and the failure can come at any point of the flush", "anchors": ["denorm/denorms.py:flush", "denorm/models.py:DirtyInstance"]}
{"id": "C67", "title": "an aggregate's column takes every number it is given", "statement": "A statement on related rows is not refused by the database because of a CountField or SumField, as long as the right numbers before and after it are not negative.", "quantifier": "all histories, all statements, all three databases", "why_tests_cant": "depends on the numbers in between, which the order of the triggers' updates decides", "anchors": ["denorm/fields.py:AggregateField", "denorm/denorms.py:AggregateDenorm.get_triggers", "denorm/denorms.py:SumDenorm"]}
{"id": "C68", "title": "inherited fields of multi-table children are tracked", "statement": "A @denormalized field may read inherited fields: of its own instance, if its model is a multi-table child, and of related instances of a multi-table child it depends on. After any change of such a field the instance is marked until flush() recomputes it.", "quantifier": "all models with multi-table inheritance, all histories of statements on the child's and the parent's table, all three databases", "why_tests_cant": "the parent's table can be written in any way, among others by QuerySet.update() of the child", "anchors": ["denorm/db/base.py:Trigger.__init__", "denorm/denorms.py:CallbackDenorm.get_triggers", "denorm/dependencies.py:CallbackDependOnRelated.get_triggers"]}
{"id": "C69", "title": "filter= and exclude= may follow relations", "statement": "A CountField with lookups such as filter={'author__active': True} holds the number of related rows that filter(**filter).exclude(**exclude) selects, after every change of the related rows or of the rows that the lookups lead to.", "quantifier": "all lookups through ForeignKeys, all histories of statements, all three databases", "why_tests_cant": "ranges over the joins that the lookups need and over the rows they lead to; the condition is built when the triggers are generated and evaluated when a row is written", "anchors": ["denorm/denorms.py:AggregateDenorm.get_triggers", "denorm/denorms.py:TriggerFilterQuery", "denorm/denorms.py:TriggerWhereNode"]}
{"id": "C70", "title": "a new cache key always fits its column, and different draws are different keys", "statement": "The UPDATE with which a trigger renews a cache key is never refused because the number is out of range, and two different random numbers never become the same key; the number that save() draws fits as well.", "quantifier": "everything the random number functions of the three databases can return, every rounding of doubles to nearest", "why_tests_cant": "the extreme draws have a probability of about 2^-53", "anchors": ["denorm/db/postgresql/triggers.py:RandomBigInt", "denorm/db/mysql/triggers.py:RandomBigInt", "denorm/db/sqlite3/triggers.py:RandomBigInt", "denorm/denorms.py:BaseCacheKeyDenorm"]}
{"id": "C71", "title": "deploying a new version of a project leaves no trace of the old one", "statement": "Whatever version was in production before and whatever data is in the database: after denorm_drop, migrate, denorm_init and denorm_rebuild of a new version have succeeded, every statement has the effects that the new declarations ask for and no other, every denormalized field holds what it should, and stays right or marked through every history of statements that follows.", "quantifier": "every pair of versions, history of installations, database content, migration and later history, every backend", "why_tests_cant": "tests install one version into an empty database", "anchors": ["denorm/management/commands/denorm_init.py", "denorm/management/commands/denorm_drop.py", "denorm/management/commands/denorm_rebuild.py", "denorm/denorms.py:install_triggers", "denorm/denorms.py:drop_triggers", "denorm/denorms.py:rebuildall", "denorm/db/sqlite3/triggers.py:TriggerSet.install"]}
{"id": "C72", "title": "after each request everything is up to date", "statement": "With DenormMiddleware or DENORM_FLUSH_AFTER_REQUEST, when a request has been answered and its flush() has not failed, every denormalized field holds what its callback returns and nothing is marked, whatever the requests before it did; a request that is rolled back leaves no trace; and however flush() ends in a request, nothing is lost for the next.", "quantifier": "every sequence of requests with any statements, with and without transactions and exceptions, every outcome of flush() in each of them", "why_tests_cant": "depends on the history of requests and on where in a request its writes happen", "anchors": ["denorm/middleware.py:DenormMiddleware.process_response", "denorm/__init__.py:do_flush"]}
{"id": "C73", "title": "flush() and rebuildall() write denormalized columns only", "statement": "However a call of flush() or rebuildall() ends (it returns, it raises an exception at any instance, it is still running), no row has been added, removed or moved and no column other than those of denormalized fields has changed; where every denormalized field is right already, nothing changes at all and the call returns after one pass.", "quantifier": "every project, every database content, any set of markers in any order, any outcome of the project's own code (truth values, exceptions before and after an instance is written)", "why_tests_cant": "flush() saves whole instances, every column of them; that all but the denormalized ones keep their values has to hold for every row of every table, at every point where an exception can end the call", "anchors": ["denorm/denorms.py:flush", "denorm/denorms.py:rebuildall", "denorm/fields.py:pre_save"]}
{"id": "C74", "title": "A project whose fields form layers just works", "statement": "Take a project whose @denormalized fields read, in their own instance and in related ones, plain columns or @denormalized fields of lower layers (L layers in all; L = 1 if everything is computed from plain data), and whose CountFields and SumFields follow plain ForeignKeys (SumFields may sum @denormalized columns; summed columns hold numbers); relations are not denormalized, there are no CacheKeyFields, no inherited or skipped columns, no GenericRelations backwards or on MySQL, no aggregates that feed each other in a circle, and trigger names agree. Whatever Django's ORM and SQL did to a database that started out empty, with calls of flush() in between, the next flush() returns without an error after at most L + 2 passes, and then every such field of every instance has its value, every CountField its count and every SumField its sum.", "quantifier": "every such project (any models, relations and functions), every history of ORM calls, SQL statements and flushes that respect keys, every database content reached", "why_tests_cant": "it is the conjunction of trigger coverage, marker bookkeeping, termination and counting, over unbounded histories; a test exercises one project and a few steps", "anchors": ["denorm/denorms.py:flush", "denorm/denorms.py:AggregateDenorm", "denorm/denorms.py:SumDenorm", "denorm/fields.py:denormalized", "denorm/fields.py:CountField", "denorm/fields.py:SumField", "denorm/dependencies.py:CallbackDependOnRelated"]}
{"id": "C75", "title": "Denormalized counters do not make sessions deadlock", "statement": "Sessions that write to the database at the same time, each statement by itself a correct one, never come to wait for each other in a circle because of the rows that triggers write: the database never has to abort one of them (\"deadlock detected\", error 1213).", "quantifier": "every number of sessions, every order in which they get their locks, every content of the database, every project with CountFields and SumFields", "why_tests_cant": "a deadlock depends on the interleaving of lock requests of several sessions; tests run one session, or a few interleavings", "anchors": ["denorm/denorms.py:AggregateDenorm", "denorm/denorms.py:CountDenorm", "denorm/denorms.py:SumDenorm", "denorm/db/postgresql/triggers.py:Trigger", "denorm/db/mysql/triggers.py:Trigger", "denorm/db/sqlite3/triggers.py:Trigger"]}
{"id": "C76", "title": "A cache key means the same in every committed state", "statement": "Sessions change data in transactions that overlap in time, and flush() runs in between. Whenever an instance has the same CacheKeyField value in two committed states, the related rows the key depends on are the same in both: something cached under the key while the instance had it is not stale when the instance has it later.", "quantifier": "every schedule of statements, commits and rollbacks of any number of sessions and of steps of flush(), every two moments of it, every instance, every project with a CacheKeyField", "why_tests_cant": "the two moments can be separated by any interleaving of any number of transactions; tests run one session", "anchors": ["denorm/denorms.py:CacheKeyDenorm", "denorm/fields.py:CacheKeyField", "denorm/db/postgresql/triggers.py:TriggerActionUpdate", "denorm/db/mysql/triggers.py:TriggerActionUpdate", "denorm/db/sqlite3/triggers.py:TriggerActionUpdate"]}
{"id": "C77", "title": "Saving an instance calls each of its callbacks once", "statement": "save() of an instance calls the function of each @denormalized field of its model exactly once, in the order of declaration, and so does flush() for each instance it saves.", "quantifier": "every model, instance, database content and outcome of the statements, any number of passes of flush()", "why_tests_cant": "holds for every combination of fields and every history of markers; a test counts the calls of one model", "anchors": ["denorm/fields.py:DenormDBField.pre_save", "denorm/denorms.py:flush", "test_denorm_project/test_app/models.py:CallCounter"]}
{"id": "C78", "title": "Relations with to_field are followed as Django follows them", "statement": "@depend_on_related, CountField, SumField and CacheKeyField over a ForeignKey with to_field= treat those instances as related that Django does: the ones whose target column holds the ForeignKey's value. After any history, an instance whose value is out of date is marked and counts are right.", "quantifier": "every project with such a ForeignKey in either direction, every assignment of target values, all database contents and statements", "why_tests_cant": "the outcome depends on whether a code happens to be the key of some row: with codes that equal the keys every test passes", "anchors": ["denorm/dependencies.py:CallbackDependOnRelated.get_triggers", "denorm/dependencies.py:CacheKeyDependOnRelated.get_triggers", "denorm/db/base.py:AggregateDenorm.get_triggers", "denorm/fields.py:CountField"]}
{"id": "C79", "title": "A marker leads back to the very instance that was marked, whatever its key", "statement": "Markers hold the key of the instance as text. For every key (integers, texts, UUIDs) flush() reads back from the text the key that the trigger or rebuildall() wrote, no two instances share a text, and an instance has one text. So flush() and rebuildall() do with the texts what they would do with the keys: after any history nothing is stale when flush() returns.", "quantifier": "all integer, text and UUID keys, all three backends, every history of statements, every order of markers and number of passes", "why_tests_cant": "there are infinitely many keys, and the conversion is done by the database in one direction and by Python in the other; tests use small integers", "anchors": ["denorm/models.py:DirtyInstance", "denorm/denorms.py:flush", "denorm/denorms.py:rebuildall", "denorm/dependencies.py:CallbackDependOnRelated.get_triggers"]}
{"id": "C80", "title": "A SumField over decimals is the sum of the decimals, up to rounding to an integer", "statement": "A SumField may sum a column of decimals. After every history of inserts, updates and deletes of related rows its value is the sum of their numbers, off by less than one at most, and no statement is refused while the sum is not negative and fits the column.", "quantifier": "all projects, all histories of statements, all decimals of a fixed number of places, all three databases", "why_tests_cant": "rounding errors of single statements are small and add up over a history; a test with a few rows sees an error below one", "anchors": ["denorm/fields.py:SumField", "denorm/fields.py:AggregateField", "denorm/denorms.py:SumDenorm", "denorm/db/sqlite3/triggers.py:TriggerActionUpdate"]}
{"id": "C81", "title": "flush() may read its markers piece by piece", "statement": "flush() iterates over a cursor that is read in portions while the loop saves instances and deletes markers. Whatever the size of the portions, and whether or not the cursor shows the changes made meanwhile, flush() returns when no instance depends on itself, leaves no marker and no out-of-date value, and gives every instance the same values as if the list had been read at once.", "quantifier": "all projects, all database contents, all portion sizes, all sequences of markers a cursor may deliver", "why_tests_cant": "portions have 100 or 2000 rows; a test with fewer markers reads everything at once, and what an open cursor shows is not specified by sqlite", "anchors": ["denorm/denorms.py:flush"]}
{"id": "C82", "title": "the order in which models are imported does not matter", "statement": "Whatever the order in which the modules with the models are imported, and whether relations and dependencies are written with classes or with their names, the project can be imported if each dependency has one relation to follow; each dependency then follows this relation, and each CountField and SumField belongs to the relation its manager comes from.", "quantifier": "all sets of models, all orders of their class statements, all ways to write relations", "why_tests_cant": "a test suite has one order of imports; the order changes with INSTALLED_APPS, with a new import line, and with a new model", "anchors": ["denorm/dependencies.py:DependOnRelated.setup", "denorm/dependencies.py:DependOnRelated.resolved_model", "denorm/helpers.py:find_fks", "denorm/helpers.py:remote_field_model", "denorm/denorms.py:AggregateDenorm.setup"]}
{"id": "C83", "title": "content types may be numbered anew", "statement": "When the content types of a project get other numbers (manage.py flush, a database moved with natural keys, content types removed and created again), changes of related rows are still tracked, and flush() still brings the instances concerned up to date.", "quantifier": "every old and new numbering, every project, every statement", "why_tests_cant": "tests have one numbering, or install the triggers anew for each test", "anchors": ["denorm/denorms.py:BaseCallbackDenorm.get_triggers", "denorm/denorms.py:flush", "denorm/dependencies.py:CallbackDependOnRelated.get_triggers", "denorm/models.py:DirtyInstance"]}
{"id": "C84", "title": "multi-table children are saved and flushed like other instances", "statement": "Instances of multi-table child models are created, saved and flushed like others: save() of a new or existing instance succeeds if the database accepts the rows; afterwards every @denormalized value of every model is right or marked and every CountField and SumField is right, as it is after flush(); and flush() leaves nothing stale.", "quantifier": "every project with multi-table children, every instance (new, existing, with any attribute values), every database", "why_tests_cant": "tests save instances that live in one table; the error depends on the way in which a new instance gets its key", "anchors": ["denorm/fields.py:CountField.pre_save", "denorm/fields.py:SumField", "denorm/fields.py:denormalized", "denorm/denorms.py:flush"]}
{"id": "C85", "title": "A project with every kind of field just works", "statement": "Take a project with @denormalized fields, CountFields, SumFields and CacheKeyFields whose models can be arranged in L ranks so that each of these fields depends on, counts or sums models of lower ranks only; @denormalized fields read plain columns and other @denormalized fields, of their own instance those declared before; relations are not denormalized, summed columns hold numbers, no inherited or skipped columns, no GenericRelations backwards or on MySQL, and trigger names agree. Whatever Django's ORM and SQL did to a database that started out empty, with calls of flush() in between, the next flush() returns without an error after at most L + 1 passes, and then every @denormalized field has its value, every CountField its count and every SumField its sum.", "quantifier": "every such project (any models, relations and functions), every history of ORM calls, SQL statements and flushes that respect keys, every database content reached", "why_tests_cant": "every save during flush() renews cache keys, which sets off triggers again; that this comes to an end with the right values is a statement about unbounded histories and all combinations of fields", "anchors": ["denorm/denorms.py:flush", "denorm/denorms.py:AggregateDenorm", "denorm/denorms.py:SumDenorm", "denorm/denorms.py:BaseCacheKeyDenorm", "denorm/fields.py:denormalized", "denorm/fields.py:CountField", "denorm/fields.py:SumField", "denorm/fields.py:CacheKeyField", "denorm/dependencies.py:CallbackDependOnRelated", "denorm/dependencies.py:CacheKeyDependOnRelated"]}
{"id": "C86", "title": "an instance may be saved with related objects loaded long ago", "statement": "Whatever related objects an instance holds from earlier reads (select_related, prefetch_related, an attribute that was followed before), and however out of date or changed they are, save(), save(update_fields=..) and create() lose nothing: the stored value is right or the instance is marked, CountFields and SumFields are right, and after the next flush() every value is right. With or without DENORM_BULK_UNSAFE_TRIGGERS.", "quantifier": "every project, every program of ORM calls, every instance with any attributes and any cached related objects, every database content", "why_tests_cant": "the callback is evaluated on objects from any earlier time; tests look at one stale object at most, and the outcome depends on which columns the triggers of the instance's own table watch", "anchors": ["denorm/fields.py:denormalized", "denorm/denorms.py:CallbackDenorm", "denorm/denorms.py:BaseCallbackDenorm", "denorm/denorms.py:flush", "denorm/fields.py:CountField"]}
{"id": "C87", "title": "a denormalized field can be declared unique", "statement": "A field declared with @denormalized(.., unique=True) can be flushed: if the values that the callback returns for different instances are all different, then flush() raises no IntegrityError and returns whenever it would return without the constraint, with every value right and no value twice.", "quantifier": "every project with unique fields, every database content, every set and order of markers, every number of passes and of later calls", "why_tests_cant": "the database checks the constraint after every save, so every state on the way must be free of duplicates, not only the first and the last; whether it is depends on the order of the markers", "anchors": ["denorm/fields.py:denormalized", "denorm/denorms.py:flush", "denorm/denorms.py:rebuildall"]}
{"id": "C88", "title": "a denormalized field's column may round or cut what is stored", "statement": "Whatever the type of a column makes of the values written to it (rounding to decimal_places, cutting off microseconds or characters), flush() returns, and then every @denormalized field holds what its column makes of the value that the callback returns for the stored data; CountFields and SumFields are right about what is stored.", "quantifier": "every project, every idempotent behaviour of its columns, every database content, every sequence of SQL statements and ORM calls with any values in memory, and every order of the markers", "why_tests_cant": "the triggers compare stored with newly written values: that rounding never leaves a difference that marks an instance again for ever, nor hides a change from those that depend on it, concerns all column types and all chains of dependencies", "anchors": ["denorm/fields.py:denormalized", "denorm/fields.py:DenormDBField.pre_save", "denorm/denorms.py:flush", "denorm/db/sqlite3/triggers.py:Trigger"]}
{"id": "C89", "title": "a @cached attribute can be refreshed, deferred, validated and dumped like any field", "statement": "refresh_from_db() gives a @cached attribute what the function returns for the stored row; an attribute left out by only() or defer() is loaded when it is read; full_clean() accepts an instance that was loaded from the database; what dumpdata writes, loaddata can read.", "quantifier": "every project with a @cached attribute, every history of statements, saves, loads, constructions, evictions, rollbacks and refreshes, every state of the instance in memory", "why_tests_cant": "reading the attribute gives the function's value where Django expects the column's key, and the cache is shared by keys and values: which of the two an entry belongs to depends on the whole history and on the order of the declarations", "anchors": ["denorm/fields.py:CacheWrapper", "denorm/fields.py:CachedField", "denorm/fields.py:cached"]}
{"id": "C90", "title": "upserts are noticed like inserts and updates", "statement": "After any history of INSERT .. ON CONFLICT DO UPDATE or DO NOTHING, ON DUPLICATE KEY UPDATE, INSERT IGNORE, REPLACE, TRUNCATE and plain statements, every instance whose @denormalized value is out of date has a dirty marker, flush() leaves nothing stale, and every CountField and SumField is right without flush().", "quantifier": "every project, every table content, every set of unique constraints, every list of rows (those that clash and those that do not mixed in one statement, and rows of the statement that clash with each other), every backend, every history", "why_tests_cant": "one statement inserts some rows, updates others and skips others, with the triggers of each; PostgreSQL queues them all until the end of the statement, and which rows clash depends on the whole content of the table", "anchors": ["denorm/db/sqlite3/triggers.py:Trigger", "denorm/db/mysql/triggers.py:Trigger", "denorm/db/postgresql/triggers.py:Trigger", "denorm/db/base.py:Trigger"]}
{"id": "C91", "title": "rows that foreign keys delete are noticed", "statement": "Foreign keys of the database may delete or clear rows themselves (ON DELETE CASCADE, ON DELETE SET NULL, as written in SQL, by other programs or with db_on_delete): after any history every instance whose @denormalized value is out of date has a dirty marker, flush() leaves nothing stale, and every CountField and SumField is right without flush().", "quantifier": "every project, every set of foreign keys (over any number of levels, also in circles and within one table), every content, every history, every backend", "why_tests_cant": "which rows vanish depends on the whole content of several tables, and the triggers of each deleted row run in the middle of the deletion of others, in an order that differs between databases", "anchors": ["denorm/db/sqlite3/triggers.py:Trigger", "denorm/db/mysql/triggers.py:Trigger", "denorm/db/postgresql/triggers.py:Trigger", "denorm/db/base.py:Trigger"]}
{"id": "C92", "title": "primary keys may change", "statement": "An UPDATE may change primary keys, with the references to them changed before or after it, as transactions with deferred constraints allow: after any history after which references point to rows that are there, every instance whose @denormalized value is out of date has a dirty marker under its present key, flush() leaves nothing stale, and every CountField and SumField is right.", "quantifier": "every project, every history of row changes that keeps primary keys unique, every content, every backend", "why_tests_cant": "between the change of a key and the change of the references to it the relations are broken, and a marker written meanwhile names a key that may go away; any number of such changes can be under way at once", "anchors": ["denorm/dependencies.py:CallbackDependOnRelated.get_triggers", "denorm/denorms.py:CallbackDenorm.get_triggers", "denorm/denorms.py:AggregateDenorm.get_related_where", "denorm/db/sqlite3/triggers.py:TriggerActionInsert"]}
{"id": "C93", "title": "objects may be deleted through the ORM", "statement": "instance.delete() and queryset.delete() may be called at any time: with everything that Django deletes along with the objects (on_delete=CASCADE) and every reference it clears (SET_NULL), over any number of levels, every remaining instance whose @denormalized value is out of date has a dirty marker, flush() leaves nothing stale, and every CountField and SumField is right; exactly the objects, and what refers to them by CASCADE, are gone; nothing refers to them any more; a call that raises ProtectedError changes nothing; and every call returns.", "quantifier": "every project, every sequence of calls of delete(), every content, every backend", "why_tests_cant": "what is deleted along with an object depends on the contents of all tables; Django's statements reach the triggers in an order that leaves relations broken in between", "anchors": ["denorm/dependencies.py:DependOnRelated.get_triggers", "denorm/denorms.py:CallbackDenorm.get_triggers", "denorm/denorms.py:AggregateDenorm.get_triggers", "denorm/db/base.py:Trigger"]}
{"id": "C94", "title": "cached attributes follow deletions through the ORM", "statement": "After instance.delete() or queryset.delete(), with everything that goes along, an instance that is loaded has the @cached value that its function returns for it now, never one that was cached before the deletion; an instance whose value has changed has another cache key.", "quantifier": "every project, every history of statements, save()s, loads, rollbacks and deletions, every content, every backend", "why_tests_cant": "whether an instance gets a new key depends on the order in which Django deletes rows and clears references, and on when values were cached", "anchors": ["denorm/dependencies.py:CacheKeyDependOnRelated.get_triggers", "denorm/denorms.py:BaseCacheKeyDenorm.get_triggers", "denorm/fields.py:CacheKeyField"]}
{"id": "C95", "title": "the database can be emptied", "statement": "manage.py flush, and a TransactionTestCase after its test, empty a database in which the triggers are installed: the command succeeds whatever the tables contain and in whatever order they are emptied; afterwards all tables are empty, no instance is marked, and denorm.flush() returns without doing anything.", "quantifier": "every project, every content of the database, every order of the tables, every backend", "why_tests_cant": "the tables are emptied in an arbitrary order, and on sqlite each deletion fires triggers that may mark instances in a table that was emptied before", "anchors": ["denorm/dependencies.py:CallbackDependOnRelated.get_triggers", "denorm/denorms.py:flush", "denorm/models.py:DirtyInstance"]}
{"id": "C96", "title": "nested atomic() blocks may be rolled back", "statement": "Sessions change data in transactions with nested atomic() blocks (savepoints), some of which are left by an exception, and flush() runs meanwhile. What was done in a block that failed leaves no trace, neither in counts and sums nor in markers. Every committed @denormalized value is right or its instance is marked, and every CountField and SumField is right, in the committed state and as each session sees it.", "quantifier": "any number of sessions, all schedules of statements, nested blocks (any depth), failures, commits, rollbacks and steps of flush(), all three databases", "why_tests_cant": "the triggers' writes of a block have to be undone exactly, whatever other sessions do between the savepoint and the rollback, and which locks are kept differs between databases", "anchors": ["denorm/db/sqlite3/triggers.py", "denorm/db/mysql/triggers.py", "denorm/db/postgresql/triggers.py", "denorm/denorms.py:flush", "denorm/denorms.py:AggregateDenorm"]}
