#!/usr/bin/env python3
"""Writes /verif/properties.jsonl from the table below (one JSON object per line)."""
import json, os

P = []
def p(id, title, statement, quantifier, why, anchors):
    P.append(dict(id=id, title=title, statement=statement, quantifier=quantifier,
                  why_tests_cant=why, anchors=anchors))

D = "denorm/denorms.py"; DEP = "denorm/dependencies.py"; F = "denorm/fields.py"; B = "denorm/db/base.py"
SQ = "denorm/db/sqlite3/triggers.py"; PG = "denorm/db/postgresql/triggers.py"; MY = "denorm/db/mysql/triggers.py"

p("C01", "flush() leaves nothing stale",
  "If, when denorm.flush() is called, every instance whose @denormalized value is out of date has a dirty marker, then whenever flush() returns the DirtyInstance table is empty and every @denormalized field of every existing row equals what its callback returns on the final database.",
  "all database contents, all sets and orders of dirty markers (duplicates included), all callbacks that read only their own row's stored fields and their declared relations, any number of passes",
  "depends on arbitrary dependency graphs and marker sets; a test fixes one graph and one marker order",
  [f"{D}:flush", f"{F}:DenormDBField.pre_save", "denorm/models.py:DirtyInstance"])
p("C02", "forward dependencies are tracked",
  "With triggers installed, after any INSERT, UPDATE or DELETE on the other model of a forward (ForeignKey) dependency, every row of the declaring model that refers to the affected row has a dirty marker, so a changed callback value is never left unmarked. What the callback reads is not in a skip list, no declaration sharing the trigger watches less (C08), and on sqlite no trigger leads back to itself (C40).",
  "every table content, every row written, every column changed, ORM or raw SQL, one-row or bulk statements",
  "the set of related rows and the changed columns are unbounded",
  [f"{DEP}:CallbackDependOnRelated.get_triggers", f"{B}:Trigger", f"{SQ}:Trigger.sql"])
p("C03", "backward dependencies are tracked",
  "With triggers installed, after any INSERT, UPDATE or DELETE of a row whose ForeignKey points at a row of the declaring model, both the row pointed to before and the row pointed to after the change have a dirty marker. What the callback reads is not in a skip list, no declaration sharing the trigger watches less (C08), and on sqlite no trigger leads back to itself (C40).",
  "every table content, every old and new foreign key value including NULL, one-row or bulk statements",
  "all combinations of old/new key values and co-changed columns",
  [f"{DEP}:CallbackDependOnRelated.get_triggers"])
p("C04", "many-to-many dependencies are tracked",
  "With triggers installed, adding, removing or re-pointing a row of the intermediate table, or updating a row of the other model, marks every row of the declaring model that is linked before or after the change. What the callback reads is not in a skip list, no declaration sharing the trigger watches less (C08), and on sqlite no trigger leads back to itself (C40).",
  "every content of the three tables, both directions of the relation, every statement",
  "link tables of any shape",
  [f"{DEP}:CallbackDependOnRelated.get_triggers"])
p("C05", "generic relation dependencies are tracked",
  "With triggers installed, creating, deleting, editing or re-pointing (even to another content type) a row of the target model of a GenericRelation marks the owning row(s) before and after the change. What the callback reads is not in a skip list, no declaration sharing the trigger watches less (C08), and on sqlite no trigger leads back to itself (C40).",
  "every old/new (content type, object id) pair, all three backends",
  "content-type/object-id combinations are unbounded; backends differ",
  [f"{DEP}:CallbackDependOnRelated.get_triggers", f"{B}:Trigger.__init__", f"{SQ}:Trigger.sql", f"{PG}:Trigger.sql", f"{MY}:Trigger.sql"])
p("C06", "updates that change nothing have no effect",
  "An UPDATE that leaves every watched column of a row null-safely equal to its old value marks nothing dirty and changes no other row.",
  "every row, every watched column list, NULLs included, every backend",
  "NULL handling and every column combination",
  [f"{SQ}:Trigger.sql", f"{PG}:Trigger.sql", f"{MY}:Trigger.sql"])
p("C07", "skipped columns never trigger work",
  "Changing only columns listed in skip= (or in the model's denorm_always_skip) neither marks anything dirty nor updates any denormalized value through the triggers of the declaration that listed them.",
  "every skip list, every denorm_always_skip tuple, every update",
  "interaction of two skip lists and every column set",
  [f"{B}:Trigger.__init__", f"{F}:DenormDBField.__init__"])
p("C08", "declarations do not interfere through trigger merging",
  "Adding another denormalization whose triggers fall on the same table and event never removes a reaction an already declared denormalization would have had: each declaration reacts to every change of each column it watches itself.",
  "every finite set of declarations and every order of them, every row change",
  "needs all combinations and orders of declarations",
  [f"{B}:TriggerSet.append", f"{D}:build_triggerset"])
p("C09", "each reaction runs once per row event",
  "However many times the same declaration is reached (multi-table inheritance, several dependencies, repeated registration), each distinct reaction is executed exactly once for a row event; a CountField is never incremented twice for one insert.",
  "every list of declarations with any repetition",
  "all multiplicities and orders",
  [f"{SQ}:Trigger.sql", f"{PG}:Trigger.sql", f"{MY}:Trigger.sql", f"{D}:get_alldenorms"])
p("C10", "CountField equals the number of related rows",
  "With triggers installed, after every committed history of inserts, updates, re-parenting, bulk updates and deletes of related rows and saves/inserts/deletes of counted rows, each CountField equals the number of related rows, immediately and without flush(); provided a row is inserted after the row it refers to, and statements change neither the primary key nor the count of counted rows.",
  "all histories of statements of any length, any table contents",
  "incremental counters need induction over histories",
  [f"{D}:AggregateDenorm.get_triggers", f"{D}:CountDenorm", f"{F}:AggregateField.pre_save"])
p("C11", "filtered CountField counts exactly the matching rows",
  "With filter= and exclude=, the stored count always equals manager.filter(**filter).exclude(**exclude).count(), including when an update moves a row into or out of the filter and when filtered columns are NULL; for the histories of C10.",
  "all filters and excludes over all column values with NULLs, all histories",
  "three-valued logic over all values",
  [f"{D}:AggregateDenorm.get_triggers", f"{D}:TriggerFilterQuery", f"{F}:AggregateField.__init__"])
p("C12", "SumField equals the sum over related rows",
  "After every history the SumField equals the sum of the summed column over related (filtered) rows, rows with NULL counting as zero.",
  "all histories, all integer values and NULL",
  "all values and histories",
  [f"{D}:SumDenorm", f"{D}:AggregateDenorm.get_triggers"])
p("C13", "saving an instance never overwrites its aggregate with a stale value",
  "save() of an instance loaded at any earlier time leaves CountField/SumField at the value currently stored in the database, whatever the in-memory attribute says, and sets the attribute to that value.",
  "every in-memory value, every interval of changes between load and save, every interleaving with other sessions",
  "all interleavings and stale values",
  [f"{F}:AggregateField.pre_save"])
p("C14", "counts never go negative, not even inside a statement",
  "The PositiveIntegerField constraint (value >= 0) on a CountField holds after every single UPDATE the triggers issue, including in the middle of a re-parenting or in-place update; for the histories of C10 and filters over columns that triggers do not write.",
  "every history, every intermediate step of every trigger",
  "intermediate states are not observable by tests",
  [f"{D}:AggregateDenorm.get_triggers"])
p("C15", "CacheKeyField is renewed when a dependency changes",
  "With triggers installed, a change of a related row (forward, backward, m2m; insert, update, delete) immediately gives every related instance's CacheKeyField a freshly drawn value, one draw per row, and leaves unrelated instances' keys alone.",
  "every table content and every statement; every outcome of the random source",
  "randomness and unbounded relation sets",
  [f"{DEP}:CacheKeyDependOnRelated.get_triggers", f"{F}:CacheKeyField", f"{B}:RandomBigInt"])
p("C16", "CacheKeyField is renewed on every save",
  "Every ORM save() of an instance stores a freshly drawn key and sets the attribute to the same value as the database.",
  "every instance and history",
  "randomness",
  [f"{F}:CacheKeyField.pre_save", f"{D}:BaseCacheKeyDenorm"])
p("C17", "@cached attributes are never stale",
  "Reading the attribute of an instance obtained at any time (freshly constructed, loaded, or saved) gives the value the function returns for that instance's data as of its cache key; after a dependency changes, newly loaded instances see the recomputed value.",
  "every cache content reachable by the library, every sequence of loads, saves and dependency changes",
  "all cache histories and key values, including the default key",
  [f"{F}:CacheWrapper.__set__", f"{F}:CachedField"])
p("C18", "flush() terminates on dependency chains",
  "If dependencies between instances are acyclic, flush() returns after at most (longest chain + 1) working passes, saving each affected instance a bounded number of times; it terminates for every declared dependency graph.",
  "every finite database and dependency graph",
  "termination is a statement about all runs",
  [f"{D}:flush"])
p("C19", "flush() result does not depend on order or multiplicity of markers",
  "For acyclic dependencies, the final values of all denormalized fields after flush() are the same for every order and multiplicity of dirty markers, with or without DISTINCT ON support in the backend.",
  "all permutations and multiplicities of markers",
  "permutations",
  [f"{D}:flush"])
p("C20", "flush() is crash safe",
  "If the process dies at any point during flush() (autocommit, between any two statements), every instance whose denormalized value is out of date still has a dirty marker, and running flush() again completes the work.",
  "every crash point of every run",
  "crash points",
  [f"{D}:flush"])
p("C21", "changes made by other sessions during flush() are not lost",
  "A change committed by another session at any point while flush() runs is reflected: when flush() has returned and no session is active, every instance affected by the change is either up to date or still marked dirty.",
  "every interleaving of flush() with any number of concurrent writers",
  "interleavings",
  [f"{D}:flush"])
p("C22", "markers without a target are discarded",
  "A dirty marker whose instance has been deleted, or whose object id is NULL, never raises, never saves anything, and is gone when flush() returns.",
  "every marker set",
  "all marker sets and deletions",
  [f"{D}:flush", "denorm/models.py:DirtyInstance"])
p("C23", "each dirty object is saved at most once per pass where DISTINCT ON exists",
  "On backends with DISTINCT ON, one pass of flush() saves each marked object at most once no matter how many markers it has; on the other backends it saves it once per marker present at the start of the pass.",
  "all marker multisets",
  "all multisets",
  [f"{D}:flush"])
p("C24", "rebuildall() recomputes everything it names",
  "rebuildall(model_name, field_name) marks exactly the rows of the models selected by app label, model name or app.Model and field name, and when it returns every denormalized field of every such row (CountField and SumField included) is recomputed from scratch and no marker is left.",
  "every set of models, every name argument, every database content (also one populated before the triggers were installed)",
  "all databases and arguments",
  [f"{D}:rebuildall", "denorm/management/commands/denorm_rebuild.py"])
p("C25", "rebuildall() evaluates each callback once per instance when nothing depends on anything",
  "For models without dependencies and an empty dirty table, rebuildall() evaluates each callback exactly once per row; proxy models and multi-table children add no further evaluations.",
  "every number of rows, models, proxies and children; keys that have one text (all but UUIDs on sqlite and MySQL, see C79)",
  "all model sets",
  [f"{D}:rebuildall", f"{D}:get_alldenorms", f"{D}:flush"])
p("C26", "denormalized ManyToManyFields hold exactly what the callback returns",
  "Saving an instance sets a denormalized ManyToManyField, its own or an inherited one, to exactly the set of objects the callback returns; creating an instance saves it exactly one extra time so the relation is filled, and never loops.",
  "every old relation set and callback result",
  "all sets",
  [f"{D}:many_to_many_pre_save", f"{D}:many_to_many_post_save"])
p("C27", "dependencies of denormalized ManyToManyFields are tracked",
  "A @denormalized ManyToManyField with @depend_on_related is updated by flush() after its dependency changes, like any other denormalized field.",
  "every model declaring such a field, alone or together with others",
  "all sets of declarations",
  [f"{D}:get_alldenorms", f"{D}:build_triggerset"])
p("C28", "denormalized ForeignKeys accept an object or its key",
  "A @denormalized ForeignKey callback may return an instance of the target model or a primary key or None; the stored column is the primary key (or NULL) in every case and the in-memory attribute agrees with it.",
  "every return value",
  "all return values and field kinds",
  [f"{F}:DenormDBField.pre_save", f"{D}:Denorm.update"])
p("C29", "relation auto-resolution picks the unique relation or fails",
  "depend_on_related resolves iff exactly one ForeignKey/ManyToManyField/GenericRelation between the models matches the given foreign_key and type; then that relation and direction are used; otherwise it raises, and a self relation without type is never taken backward.",
  "every pair of models with any number of relations, every foreign_key/type argument",
  "all model graphs",
  [f"{DEP}:DependOnRelated.resolved_model", "denorm/helpers.py:find_fks", "denorm/helpers.py:find_m2ms"])
p("C30", "declarations on abstract bases are independent per concrete model",
  "A denormalized field of any kind (@denormalized, CacheKeyField, CountField, SumField) declared on an abstract base is tracked separately for every concrete subclass.",
  "every number and order of subclasses",
  "all class hierarchies and preparation orders",
  [f"{F}:DenormDBField.contribute_to_class", f"{F}:CacheKeyField.contribute_to_class", f"{D}:BaseCacheKeyDenorm.setup", f"{DEP}:DependOnRelated.setup"])
p("C31", "proxy and swapped models contribute nothing, every other declaration is found",
  "The set of denormalizations used by denorm_init, denorm_rebuild and denorm_sql is exactly those of concrete fields of non-proxy models whose declaring model is not swapped out.",
  "every set of models",
  "all model registries",
  [f"{D}:get_alldenorms"])
p("C32", "denorm_drop removes exactly django-denorm's triggers",
  "After drop_triggers() no trigger created by django-denorm is left and every other trigger in the database is still there.",
  "every set of triggers in the database with any names, all three backends",
  "all names",
  [f"{SQ}:TriggerSet.drop_atomic", f"{PG}:TriggerSet.drop_atomic", f"{MY}:TriggerSet.drop", f"{B}:Trigger.name"])
p("C33", "denorm_init is all-or-nothing and repeatable after denorm_drop",
  "install_triggers() either creates every trigger or leaves the database as it was; drop followed by install gives the same triggers no matter what was installed before; a second install without drop fails without changing anything.",
  "every set of declarations, every prior trigger set, every failing statement",
  "failure points",
  [f"{SQ}:TriggerSet.install", f"{PG}:TriggerSet.install", f"{MY}:TriggerSet.install", f"{D}:install_triggers"])
p("C34", "different table events get different triggers",
  "Triggers for different (table, event, generic content type) never share a name, so no reaction is attached to the wrong table.",
  "all table names and content type ids",
  "all names",
  [f"{B}:Trigger.name", f"{SQ}:Trigger.name", f"{PG}:Trigger.name", f"{MY}:Trigger.sql", f"{B}:TriggerSet.append"])
p("C35", "the daemon flushes repeatedly, commits each round and runs once",
  "denorm_daemon flushes and commits once per interval until interrupted, commits on interrupt, with -o flushes exactly once, and does not start while the pid file names a live process.",
  "every sequence of intervals, interrupts and pid-file states",
  "all signal timings and pid-file states",
  ["denorm/management/commands/denorm_daemon.py:Command", "denorm/management/commands/denorm_daemon.py:commit_manually", "denorm/daemon.py:daemonize"])
p("C36", "DenormMiddleware always returns the response",
  "process_response calls flush() exactly once and returns the very response it was given, also when flush() raises a DatabaseError (which is logged); no other exception is swallowed.",
  "every response and every outcome of flush()",
  "all outcomes",
  ["denorm/middleware.py:DenormMiddleware.process_response"])
p("C37", "direct writes to denormalized columns are repaired",
  "If any session overwrites a @denormalized column with an arbitrary value by bulk update, raw SQL or a save() of a stale instance, the row is marked dirty, so the next flush() restores the callback's value. What the callback reads is not in a skip list, no declaration sharing the trigger watches less (C08), and on sqlite no trigger leads back to itself (C40).",
  "every written value, every path of writing",
  "all values and write paths",
  [f"{D}:CallbackDenorm.get_triggers"])
p("C38", "DENORM_BULK_UNSAFE_TRIGGERS only gives up tracking of the declaring table",
  "With the setting on, changes of related models are tracked exactly as without it; only the markers for inserts and updates of the declaring model itself are missing. A program that writes instances of the declaring model one at a time with save() and create(), and related models in any way, still has after every call each value right or its instance marked, and every value right after flush(). (Merged declarations watch the same columns, see C08.)",
  "every declaration, statement, program and flush",
  "all declarations and histories",
  [f"{D}:BaseCallbackDenorm.get_triggers", f"{D}:CallbackDenorm.get_triggers", f"{F}:DenormDBField.contribute_to_class"])
p("C39", "generic relations do not mark rows of other models",
  "A change of a generic target row that belongs to one model before and after never marks an instance of another model that happens to have the same primary key.",
  "every content type / object id combination, every backend",
  "all combinations",
  [f"{SQ}:Trigger.sql", f"{PG}:Trigger.sql", f"{MY}:Trigger.sql"])
p("C40", "changes caused by triggers are themselves tracked",
  "When a trigger changes a CountField, SumField or CacheKeyField, instances whose callbacks depend on that row are marked dirty exactly as if the column had been changed by a user.",
  "every chain of triggers on every backend",
  "nested trigger behaviour differs per backend and nesting",
  [f"{B}:TriggerSet.append", f"{D}:AggregateDenorm.get_triggers", f"{SQ}:Trigger.sql"])
p("C41", "migrations can reconstruct the fields",
  "deconstruct() of a denormalized field, CountField, SumField or CacheKeyField yields arguments from which the same database column can be rebuilt, and for aggregate fields the same declaration (manager, filter, exclude, skip, summed field).",
  "every constructor argument combination",
  "all argument combinations",
  [f"{F}:DenormDBField.deconstruct", f"{F}:AggregateField.deconstruct"])
p("C42", "stacked @depend_on_related decorators all take effect",
  "Every depend_on_related decorator applied to the function of a @denormalized or @cached field yields one dependency, in application order, and each class using a @denormalized callback gets its own dependency objects.",
  "every number of decorators and classes",
  "any number",
  [f"{DEP}:make_depend_decorator", f"{F}:DenormDBField.contribute_to_class"])
p("C43", "the incremental update of one denorm writes only when something changed",
  "Denorm.update(instance) changes the instance only if the callback's value differs from the stored one (many-to-many values compared as sets of keys), and reports exactly the changed field.",
  "every old and new value",
  "all values",
  [f"{D}:Denorm.update"])
p("C44", "the emitted trigger condition text means what was intended",
  "For every list of watched columns and every content type restriction, the WHEN/IF condition text each backend emits is accepted by the SQL expression grammar and evaluates to: some watched column changed, and the row belongs to the content type before or after.",
  "all column lists (also empty), all rows, all three backends",
  "operator precedence over all expressions",
  [f"{SQ}:Trigger.sql", f"{PG}:Trigger.sql", f"{MY}:Trigger.sql"])
p("C45", "callbacks on the same instance may use each other",
  "If one @denormalized callback of a model reads another @denormalized field of the same instance, both are consistent after flush().",
  "every declaration order",
  "all orders of fields",
  [f"{F}:DenormDBField.pre_save", f"{D}:flush"])

p("C46", "a new instance with a chosen primary key can be saved",
  "Saving a new instance whose primary key was chosen by the application inserts it, whatever denormalized, CountField, SumField and CacheKeyField fields its model has.",
  "every model, every key that is not in use, every database state",
  "depends on which fields the model has and on how the instance was constructed",
  [f"{F}:AggregateField.pre_save"])

p("C47", "the database gets the triggers that were meant",
  "The text of each CREATE TRIGGER statement that denorm_init sends, read by the rules of the database it is sent to, is a trigger with the intended name, on the intended table, for the intended event, with the intended statements, whose condition is TRUE exactly when a watched column (of a row of the right content type) has changed.",
  "all declarations: any names of tables, columns and fields, any relations, any filters, all three databases",
  "quoting, case folding, reserved words, separators and precedence matter for every combination of names and values",
  [f"{SQ}:Trigger.sql", f"{PG}:Trigger.sql", f"{MY}:Trigger.sql", f"{SQ}:TriggerActionInsert.sql", f"{SQ}:TriggerActionUpdate.sql", f"{SQ}:TriggerNestedSelect.sql", f"{D}:TriggerFilterQuery"])
p("C48", "what can be declared can be installed",
  "Every project whose models can be imported and whose tables the database accepted can have its triggers installed: the database accepts every statement that denorm_init sends.",
  "all declarations, all three databases",
  "a test installs the triggers of one project",
  [f"{SQ}:TriggerSet.install", f"{PG}:TriggerSet.install", f"{MY}:TriggerSet.install", f"{SQ}:Trigger.sql"])
p("C49", "denorm_sql prints what denorm_init executes",
  "The statements printed by the management command denorm_sql are the statements that denorm_init executes for the same project and database.",
  "all declarations, all filter values, all three databases",
  "depends on every parameter value and on random names",
  ["denorm/management/commands/denorm_sql.py:Command.handle", f"{D}:build_triggerset", f"{MY}:Trigger.sql"])

p("C50", "triggers leave the rest of the data alone",
  "A statement that succeeds with the triggers installed leaves in every table the rows, in the order, that it would leave without them, apart from the values of CountFields, SumFields and CacheKeyFields; so does a history of statements. (The statements do not themselves copy such a field into another one or select rows by it.)",
  "every INSERT, UPDATE and DELETE, every history, every content, every set of declarations, all three databases",
  "triggers call triggers in every combination of declarations and rows",
  [f"{B}:TriggerActionUpdate", f"{DEP}:CacheKeyDependOnRelated.get_triggers", f"{D}:AggregateDenorm.get_triggers"])
p("C51", "triggers do not make statements fail",
  "With the triggers of any declarations installed, every statement that succeeds without them succeeds with them: the triggers come to an end and do nothing that the database forbids inside a trigger.",
  "every statement, every content, every set of declarations, all three databases",
  "termination for every content and every combination of declarations",
  [f"{D}:AggregateDenorm.get_triggers", f"{DEP}:CacheKeyDependOnRelated.get_triggers", f"{D}:build_triggerset", f"{B}:TriggerSet.append"])

p("C52", "triggers only mention columns that exist",
  "Every column that a trigger of django-denorm mentions is a column of the table it is looked up in; otherwise the database refuses the trigger or every statement that runs it.",
  "all models (any column names, inheritance), all declarations, all three databases",
  "depends on every way to name and inherit columns",
  [f"{B}:Trigger.__init__", f"{DEP}:CallbackDependOnRelated.get_triggers", f"{DEP}:CacheKeyDependOnRelated.get_triggers", f"{D}:AggregateDenorm.get_triggers"])
p("C53", "triggers are written for the database they are sent to",
  "For every entry of DATABASES with one of Django's engines for sqlite, MySQL or PostgreSQL, denorm_init --database=alias writes the triggers in the SQL of that database.",
  "all settings, all aliases",
  "depends on the combination of engines in the settings",
  ["denorm/db/__init__.py:backend_for_dbname", "denorm/db/__init__.py:backend", "denorm/management/commands/denorm_init.py:Command.handle"])
p("C54", "flush() works on every database with triggers",
  "After flush() returns, no denormalized value is stale in any of the project's databases in which denorm_init has installed triggers.",
  "all databases of a project, all contents",
  "depends on the databases and on what happened in each of them",
  [f"{D}:flush", f"{D}:rebuildall", "denorm/management/commands/denorm_init.py:Command.handle"])
p("C55", "flush() works with every Django version",
  "flush() does the same with every version of Django that the library can be imported with, on all three databases.",
  "all versions, all three databases, all contents",
  "a test runs with one version",
  [f"{D}:flush"])

p("C56", "several processes may call flush()",
  "flush() may be called by several processes at the same time (the daemon, the middleware, denorm_flush). When all calls have returned and nobody has changed anything meanwhile, nothing is stale; and at every moment, also when some of the processes are killed, every stale instance is marked.",
  "any number of calls, every interleaving of their database accesses, every content",
  "races between processes",
  [f"{D}:flush"])
p("C57", "rows that the model's manager leaves out are maintained too",
  "save(), flush() and rebuildall() treat every row of a model's table, also those that the model's manager `objects` leaves out (for instance rows marked as deleted).",
  "all managers, all models, every content",
  "depends on what the manager leaves out and on which markers flush() meets",
  [f"{F}:AggregateField.pre_save", f"{D}:rebuildall", f"{D}:flush"])

p("C58", "changes made in transactions are not lost",
  "When sessions change data in transactions (save() and atomic() blocks) and flush() runs meanwhile, every committed value is right or its instance is marked in the committed state, whatever the order in which transactions start, execute statements, commit or are rolled back.",
  "any number of sessions, all schedules of statements, commits, rollbacks and flush(), all three databases",
  "races between transactions; depends on what a session can see of the others",
  [f"{D}:flush", "denorm/db/postgresql/triggers.py:TriggerActionInsert", "denorm/db/mysql/triggers.py:TriggerActionInsert", "denorm/db/sqlite3/triggers.py:TriggerActionInsert", "denorm/db/postgresql/triggers.py:TriggerNestedSelect"])

p("C59", "from declarations to rows, through the SQL that is sent",
  "The database reads every text that denorm_init sends as a trigger, and running what it has read it executes every statement with the effects the declarations ask for: after every history of statements each @denormalized value is right or its instance is marked, and each CountField holds the right number.",
  "all declarations, all databases and histories of statements",
  "goes through generated SQL in three dialects; tests run few declarations on one database",
  ["denorm/management/commands/denorm_init.py", f"{D}:install_triggers", "denorm/db/base.py:TriggerSet.install", "denorm/db/sqlite3/triggers.py:Trigger.sql", "denorm/db/postgresql/triggers.py:Trigger.sql", "denorm/db/mysql/triggers.py:Trigger.sql"])

p("C60", "aggregates over every kind of manager and in every Django version",
  "CountField and SumField work for every manager that leads to many objects (ForeignKeys backwards, ManyToManyFields in both directions) and in every version of Django that is supported: denorm_init installs triggers, and after every history the field holds the number (sum) over the related objects.",
  "all kinds of managers, all Django versions from 1.8 on, all projects",
  "each version needs its own test run with models of every kind; the library's tests have no aggregate over a many-to-many relation",
  [f"{D}:AggregateDenorm.get_triggers", f"{D}:AggregateDenorm.get_related_where", f"{D}:AggregateDenorm.m2m_triggers", f"{D}:SumDenorm.get_related_increment_value"])

p("C61", "flush() may run inside a transaction",
  "flush() may be called in a transaction (the daemon does so, or a caller with atomic()), at the isolation level that MySQL and Django use by default (REPEATABLE READ): it returns, and afterwards no value is stale without a marker, also if other sessions change data or flush meanwhile.",
  "all projects and contents, every interleaving of flush() with statements of other sessions and with other calls of flush()",
  "races; depends on the isolation level, which tests run with sqlite do not have",
  [f"{D}:flush", "denorm/management/commands/denorm_daemon.py:commit_manually"])

p("C62", "every way of writing through the ORM counts",
  "Whatever a program uses to change data - save(), save(update_fields=..), saving an instance that was loaded in part (only(), defer()), create(), bulk_create(), update(), delete(), loaddata, SQL - afterwards each computed value is right or its instance is marked (and right after flush()), each CountField and SumField is right, and the cache key of an instance that was saved is new.",
  "all programs made of such calls, in any order and number, all projects and contents, all three databases",
  "the combinations of calls and field kinds are unbounded; several of these calls bypass pre_save for some fields",
  [f"{F}:denormalized", f"{F}:CountField", f"{F}:CacheKeyField.pre_save", f"{D}:CallbackDenorm.get_triggers"])

p("C63", "data can be dumped and loaded again",
  "Fixtures written by dumpdata can be loaded with loaddata into a database with triggers: afterwards each computed value is right or its instance is marked, and each CountField holds the right number.",
  "all fixtures, all projects and contents",
  "depends on the content of the fixture and the order of its rows",
  [f"{F}:CountField", f"{D}:AggregateDenorm.get_triggers", f"{D}:CallbackDenorm.get_triggers"])

p("C64", "aggregates stay right in concurrent transactions",
  "When sessions change data in transactions that overlap in time, and flush() runs meanwhile, every CountField and SumField that is committed holds the number (the sum) of the committed rows it counts, and within its transaction each session sees the right number.",
  "any number of sessions, all schedules of statements, commits, rollbacks and flush(), all three databases",
  "races between transactions; two sessions that count for the same instance",
  [f"{D}:AggregateDenorm.get_triggers", f"{F}:AggregateField.pre_save", "denorm/db/base.py:TriggerActionUpdate", f"{D}:flush"])

p("C65", "an instance is flushed whatever its truth value",
  "flush() recomputes every marked instance that exists, also one that is false in a condition because its model defines __bool__ or __len__.",
  "all projects, all models and truth values, all contents and markers",
  "depends on methods that any model may define, and on the content at the moment of flush()",
  [f"{D}:flush"])

p("C66", "an instance that cannot be saved does not hold up the others",
  "When saving one marked instance raises an exception, flush() still brings the others up to date (if not in this call, then in a later one), and no marker of an out-of-date instance is lost.",
  "all projects, all contents and markers, any failing instances, failure before or after the write, any number of calls",
  "the failing instance can stand anywhere among the markers, and the failure can come at any point of the flush",
  [f"{D}:flush", "denorm/models.py:DirtyInstance"])

p("C67", "an aggregate's column takes every number it is given",
  "A statement on related rows is not refused by the database because of a CountField or SumField, as long as the right numbers before and after it are not negative.",
  "all histories, all statements, all three databases",
  "depends on the numbers in between, which the order of the triggers' updates decides",
  [f"{F}:AggregateField", f"{D}:AggregateDenorm.get_triggers", f"{D}:SumDenorm"])

p("C68", "inherited fields of multi-table children are tracked",
  "A @denormalized field may read inherited fields: of its own instance, if its model is a multi-table child, and of related instances of a multi-table child it depends on. After any change of such a field the instance is marked until flush() recomputes it.",
  "all models with multi-table inheritance, all histories of statements on the child's and the parent's table, all three databases",
  "the parent's table can be written in any way, among others by QuerySet.update() of the child",
  [f"{B}:Trigger.__init__", f"{D}:CallbackDenorm.get_triggers", f"{DEP}:CallbackDependOnRelated.get_triggers"])

p("C69", "filter= and exclude= may follow relations",
  "A CountField with lookups such as filter={'author__active': True} holds the number of related rows that filter(**filter).exclude(**exclude) selects, after every change of the related rows or of the rows that the lookups lead to.",
  "all lookups through ForeignKeys, all histories of statements, all three databases",
  "ranges over the joins that the lookups need and over the rows they lead to; the condition is built when the triggers are generated and evaluated when a row is written",
  [f"{D}:AggregateDenorm.get_triggers", f"{D}:TriggerFilterQuery", f"{D}:TriggerWhereNode"])

p("C70", "a new cache key always fits its column, and different draws are different keys",
  "The UPDATE with which a trigger renews a cache key is never refused because the number is out of range, and two different random numbers never become the same key; the number that save() draws fits as well.",
  "everything the random number functions of the three databases can return, every rounding of doubles to nearest",
  "the extreme draws have a probability of about 2^-53",
  ["denorm/db/postgresql/triggers.py:RandomBigInt", "denorm/db/mysql/triggers.py:RandomBigInt", "denorm/db/sqlite3/triggers.py:RandomBigInt", f"{D}:BaseCacheKeyDenorm"])

p("C71", "deploying a new version of a project leaves no trace of the old one",
  "Whatever version was in production before and whatever data is in the database: after denorm_drop, migrate, denorm_init and denorm_rebuild of a new version have succeeded, every statement has the effects that the new declarations ask for and no other, every denormalized field holds what it should, and stays right or marked through every history of statements that follows.",
  "every pair of versions, history of installations, database content, migration and later history, every backend",
  "tests install one version into an empty database",
  ["denorm/management/commands/denorm_init.py", "denorm/management/commands/denorm_drop.py", "denorm/management/commands/denorm_rebuild.py", f"{D}:install_triggers", f"{D}:drop_triggers", f"{D}:rebuildall", f"{SQ}:TriggerSet.install"])

p("C72", "after each request everything is up to date",
  "With DenormMiddleware or DENORM_FLUSH_AFTER_REQUEST, when a request has been answered and its flush() has not failed, every denormalized field holds what its callback returns and nothing is marked, whatever the requests before it did; a request that is rolled back leaves no trace; and however flush() ends in a request, nothing is lost for the next.",
  "every sequence of requests with any statements, with and without transactions and exceptions, every outcome of flush() in each of them",
  "depends on the history of requests and on where in a request its writes happen",
  ["denorm/middleware.py:DenormMiddleware.process_response", "denorm/__init__.py:do_flush"])

p("C73", "flush() and rebuildall() write denormalized columns only",
  "However a call of flush() or rebuildall() ends (it returns, it raises an exception at any instance, it is still running), no row has been added, removed or moved and no column other than those of denormalized fields has changed; where every denormalized field is right already, nothing changes at all and the call returns after one pass.",
  "every project, every database content, any set of markers in any order, any outcome of the project's own code (truth values, exceptions before and after an instance is written)",
  "flush() saves whole instances, every column of them; that all but the denormalized ones keep their values has to hold for every row of every table, at every point where an exception can end the call",
  [D+":flush", D+":rebuildall", F+":pre_save"])

p("C74", "A project whose fields form layers just works",
  "Take a project whose @denormalized fields read, in their own instance and in related ones, plain columns or @denormalized fields of lower layers (L layers in all; L = 1 if everything is computed from plain data), and whose CountFields and SumFields follow plain ForeignKeys (SumFields may sum @denormalized columns; summed columns hold numbers); relations are not denormalized, there are no CacheKeyFields, no inherited or skipped columns, no GenericRelations backwards or on MySQL, no aggregates that feed each other in a circle, and trigger names agree. Whatever Django's ORM and SQL did to a database that started out empty, with calls of flush() in between, the next flush() returns without an error after at most L + 2 passes, and then every such field of every instance has its value, every CountField its count and every SumField its sum.",
  "every such project (any models, relations and functions), every history of ORM calls, SQL statements and flushes that respect keys, every database content reached",
  "it is the conjunction of trigger coverage, marker bookkeeping, termination and counting, over unbounded histories; a test exercises one project and a few steps",
  [D+":flush", D+":AggregateDenorm", D+":SumDenorm", F+":denormalized", F+":CountField", F+":SumField", DEP+":CallbackDependOnRelated"])

p("C75", "Denormalized counters do not make sessions deadlock",
  "Sessions that write to the database at the same time, each statement by itself a correct one, never come to wait for each other in a circle because of the rows that triggers write: the database never has to abort one of them (\"deadlock detected\", error 1213).",
  "every number of sessions, every order in which they get their locks, every content of the database, every project with CountFields and SumFields",
  "a deadlock depends on the interleaving of lock requests of several sessions; tests run one session, or a few interleavings",
  [D+":AggregateDenorm", D+":CountDenorm", D+":SumDenorm", PG+":Trigger", MY+":Trigger", SQ+":Trigger"])

p("C76", "A cache key means the same in every committed state",
  "Sessions change data in transactions that overlap in time, and flush() runs in between. Whenever an instance has the same CacheKeyField value in two committed states, the related rows the key depends on are the same in both: something cached under the key while the instance had it is not stale when the instance has it later.",
  "every schedule of statements, commits and rollbacks of any number of sessions and of steps of flush(), every two moments of it, every instance, every project with a CacheKeyField",
  "the two moments can be separated by any interleaving of any number of transactions; tests run one session",
  [D+":CacheKeyDenorm", F+":CacheKeyField", PG+":TriggerActionUpdate", MY+":TriggerActionUpdate", SQ+":TriggerActionUpdate"])

p("C77", "Saving an instance calls each of its callbacks once",
  "save() of an instance calls the function of each @denormalized field of its model exactly once, in the order of declaration, and so does flush() for each instance it saves.",
  "every model, instance, database content and outcome of the statements, any number of passes of flush()",
  "holds for every combination of fields and every history of markers; a test counts the calls of one model",
  [F+":DenormDBField.pre_save", D+":flush", "test_denorm_project/test_app/models.py:CallCounter"])

p("C78", "Relations with to_field are followed as Django follows them",
  "@depend_on_related, CountField, SumField and CacheKeyField over a ForeignKey with to_field= treat those instances as related that Django does: the ones whose target column holds the ForeignKey's value. After any history, an instance whose value is out of date is marked and counts are right.",
  "every project with such a ForeignKey in either direction, every assignment of target values, all database contents and statements",
  "the outcome depends on whether a code happens to be the key of some row: with codes that equal the keys every test passes",
  [DEP+":CallbackDependOnRelated.get_triggers", DEP+":CacheKeyDependOnRelated.get_triggers", B+":AggregateDenorm.get_triggers", F+":CountField"])

p("C79", "A marker leads back to the very instance that was marked, whatever its key",
  "Markers hold the key of the instance as text. For every key (integers, texts, UUIDs) flush() reads back from the text the key that the trigger or rebuildall() wrote, no two instances share a text, and an instance has one text. So flush() and rebuildall() do with the texts what they would do with the keys: after any history nothing is stale when flush() returns.",
  "all integer, text and UUID keys, all three backends, every history of statements, every order of markers and number of passes",
  "there are infinitely many keys, and the conversion is done by the database in one direction and by Python in the other; tests use small integers",
  ["denorm/models.py:DirtyInstance", D+":flush", D+":rebuildall", DEP+":CallbackDependOnRelated.get_triggers"])

p("C80", "A SumField over decimals is the sum of the decimals, up to rounding to an integer",
  "A SumField may sum a column of decimals. After every history of inserts, updates and deletes of related rows its value is the sum of their numbers, off by less than one at most, and no statement is refused while the sum is not negative and fits the column.",
  "all projects, all histories of statements, all decimals of a fixed number of places, all three databases",
  "rounding errors of single statements are small and add up over a history; a test with a few rows sees an error below one",
  [f"{F}:SumField", f"{F}:AggregateField", f"{D}:SumDenorm", SQ+":TriggerActionUpdate"])

p("C81", "flush() may read its markers piece by piece",
  "flush() iterates over a cursor that is read in portions while the loop saves instances and deletes markers. Whatever the size of the portions, and whether or not the cursor shows the changes made meanwhile, flush() returns when no instance depends on itself, leaves no marker and no out-of-date value, and gives every instance the same values as if the list had been read at once.",
  "all projects, all database contents, all portion sizes, all sequences of markers a cursor may deliver",
  "portions have 100 or 2000 rows; a test with fewer markers reads everything at once, and what an open cursor shows is not specified by sqlite",
  [f"{D}:flush"])

p("C82", "the order in which models are imported does not matter",
  "Whatever the order in which the modules with the models are imported, and whether relations and dependencies are written with classes or with their names, the project can be imported if each dependency has one relation to follow; each dependency then follows this relation, and each CountField and SumField belongs to the relation its manager comes from.",
  "all sets of models, all orders of their class statements, all ways to write relations",
  "a test suite has one order of imports; the order changes with INSTALLED_APPS, with a new import line, and with a new model",
  [f"{DEP}:DependOnRelated.setup", f"{DEP}:DependOnRelated.resolved_model", "denorm/helpers.py:find_fks", "denorm/helpers.py:remote_field_model", f"{D}:AggregateDenorm.setup"])

p("C83", "content types may be numbered anew",
  "When the content types of a project get other numbers (manage.py flush, a database moved with natural keys, content types removed and created again), changes of related rows are still tracked, and flush() still brings the instances concerned up to date.",
  "every old and new numbering, every project, every statement",
  "tests have one numbering, or install the triggers anew for each test",
  [f"{D}:BaseCallbackDenorm.get_triggers", f"{D}:flush", f"{DEP}:CallbackDependOnRelated.get_triggers", "denorm/models.py:DirtyInstance"])

p("C84", "multi-table children are saved and flushed like other instances",
  "Instances of multi-table child models are created, saved and flushed like others: save() of a new or existing instance succeeds if the database accepts the rows; afterwards every @denormalized value of every model is right or marked and every CountField and SumField is right, as it is after flush(); and flush() leaves nothing stale.",
  "every project with multi-table children, every instance (new, existing, with any attribute values), every database",
  "tests save instances that live in one table; the error depends on the way in which a new instance gets its key",
  [f"{F}:CountField.pre_save", f"{F}:SumField", f"{F}:denormalized", f"{D}:flush"])

p("C85", "A project with every kind of field just works",
  "Take a project with @denormalized fields, CountFields, SumFields and CacheKeyFields whose models can be arranged in L ranks so that each of these fields depends on, counts or sums models of lower ranks only; @denormalized fields read plain columns and other @denormalized fields, of their own instance those declared before; relations are not denormalized, summed columns hold numbers, no inherited or skipped columns, no GenericRelations backwards or on MySQL, and trigger names agree. Whatever Django's ORM and SQL did to a database that started out empty, with calls of flush() in between, the next flush() returns without an error after at most L + 1 passes, and then every @denormalized field has its value, every CountField its count and every SumField its sum.",
  "every such project (any models, relations and functions), every history of ORM calls, SQL statements and flushes that respect keys, every database content reached",
  "every save during flush() renews cache keys, which sets off triggers again; that this comes to an end with the right values is a statement about unbounded histories and all combinations of fields",
  [D+":flush", D+":AggregateDenorm", D+":SumDenorm", D+":BaseCacheKeyDenorm", F+":denormalized", F+":CountField", F+":SumField", F+":CacheKeyField", DEP+":CallbackDependOnRelated", DEP+":CacheKeyDependOnRelated"])

p("C86", "an instance may be saved with related objects loaded long ago",
  "Whatever related objects an instance holds from earlier reads (select_related, prefetch_related, an attribute that was followed before), and however out of date or changed they are, save(), save(update_fields=..) and create() lose nothing: the stored value is right or the instance is marked, CountFields and SumFields are right, and after the next flush() every value is right. With or without DENORM_BULK_UNSAFE_TRIGGERS.",
  "every project, every program of ORM calls, every instance with any attributes and any cached related objects, every database content",
  "the callback is evaluated on objects from any earlier time; tests look at one stale object at most, and the outcome depends on which columns the triggers of the instance's own table watch",
  [F+":denormalized", D+":CallbackDenorm", D+":BaseCallbackDenorm", D+":flush", F+":CountField"])

p("C87", "a denormalized field can be declared unique",
  "A field declared with @denormalized(.., unique=True) can be flushed: if the values that the callback returns for different instances are all different, then flush() raises no IntegrityError and returns whenever it would return without the constraint, with every value right and no value twice.",
  "every project with unique fields, every database content, every set and order of markers, every number of passes and of later calls",
  "the database checks the constraint after every save, so every state on the way must be free of duplicates, not only the first and the last; whether it is depends on the order of the markers",
  [F+":denormalized", D+":flush", D+":rebuildall"])

p("C88", "a denormalized field's column may round or cut what is stored",
  "Whatever the type of a column makes of the values written to it (rounding to decimal_places, cutting off microseconds or characters), flush() returns, and then every @denormalized field holds what its column makes of the value that the callback returns for the stored data; CountFields and SumFields are right about what is stored.",
  "every project, every idempotent behaviour of its columns, every database content, every sequence of SQL statements and ORM calls with any values in memory, and every order of the markers",
  "the triggers compare stored with newly written values: that rounding never leaves a difference that marks an instance again for ever, nor hides a change from those that depend on it, concerns all column types and all chains of dependencies",
  [F+":denormalized", F+":DenormDBField.pre_save", D+":flush", SQ+":Trigger"])

p("C89", "a @cached attribute can be refreshed, deferred, validated and dumped like any field",
  "refresh_from_db() gives a @cached attribute what the function returns for the stored row; an attribute left out by only() or defer() is loaded when it is read; full_clean() accepts an instance that was loaded from the database; what dumpdata writes, loaddata can read.",
  "every project with a @cached attribute, every history of statements, saves, loads, constructions, evictions, rollbacks and refreshes, every state of the instance in memory",
  "reading the attribute gives the function's value where Django expects the column's key, and the cache is shared by keys and values: which of the two an entry belongs to depends on the whole history and on the order of the declarations",
  [F+":CacheWrapper", F+":CachedField", F+":cached"])

p("C90", "upserts are noticed like inserts and updates",
  "After any history of INSERT .. ON CONFLICT DO UPDATE or DO NOTHING, ON DUPLICATE KEY UPDATE, INSERT IGNORE, REPLACE, TRUNCATE and plain statements, every instance whose @denormalized value is out of date has a dirty marker, flush() leaves nothing stale, and every CountField and SumField is right without flush().",
  "every project, every table content, every set of unique constraints, every list of rows (those that clash and those that do not mixed in one statement, and rows of the statement that clash with each other), every backend, every history",
  "one statement inserts some rows, updates others and skips others, with the triggers of each; PostgreSQL queues them all until the end of the statement, and which rows clash depends on the whole content of the table",
  [SQ+":Trigger", MY+":Trigger", PG+":Trigger", B+":Trigger"])

p("C91", "rows that foreign keys delete are noticed",
  "Foreign keys of the database may delete or clear rows themselves (ON DELETE CASCADE, ON DELETE SET NULL, as written in SQL, by other programs or with db_on_delete): after any history every instance whose @denormalized value is out of date has a dirty marker, flush() leaves nothing stale, and every CountField and SumField is right without flush().",
  "every project, every set of foreign keys (over any number of levels, also in circles and within one table), every content, every history, every backend",
  "which rows vanish depends on the whole content of several tables, and the triggers of each deleted row run in the middle of the deletion of others, in an order that differs between databases",
  [SQ+":Trigger", MY+":Trigger", PG+":Trigger", B+":Trigger"])

p("C92", "primary keys may change",
  "An UPDATE may change primary keys, with the references to them changed before or after it, as transactions with deferred constraints allow: after any history after which references point to rows that are there, every instance whose @denormalized value is out of date has a dirty marker under its present key, flush() leaves nothing stale, and every CountField and SumField is right.",
  "every project, every history of row changes that keeps primary keys unique, every content, every backend",
  "between the change of a key and the change of the references to it the relations are broken, and a marker written meanwhile names a key that may go away; any number of such changes can be under way at once",
  [DEP+":CallbackDependOnRelated.get_triggers", D+":CallbackDenorm.get_triggers", D+":AggregateDenorm.get_related_where", SQ+":TriggerActionInsert"])

p("C93", "objects may be deleted through the ORM",
  "instance.delete() and queryset.delete() may be called at any time: with everything that Django deletes along with the objects (on_delete=CASCADE) and every reference it clears (SET_NULL), over any number of levels, every remaining instance whose @denormalized value is out of date has a dirty marker, flush() leaves nothing stale, and every CountField and SumField is right; exactly the objects, and what refers to them by CASCADE, are gone; nothing refers to them any more; a call that raises ProtectedError changes nothing; and every call returns.",
  "every project, every sequence of calls of delete(), every content, every backend",
  "what is deleted along with an object depends on the contents of all tables; Django's statements reach the triggers in an order that leaves relations broken in between",
  [DEP+":DependOnRelated.get_triggers", D+":CallbackDenorm.get_triggers", D+":AggregateDenorm.get_triggers", B+":Trigger"])

p("C94", "cached attributes follow deletions through the ORM",
  "After instance.delete() or queryset.delete(), with everything that goes along, an instance that is loaded has the @cached value that its function returns for it now, never one that was cached before the deletion; an instance whose value has changed has another cache key.",
  "every project, every history of statements, save()s, loads, rollbacks and deletions, every content, every backend",
  "whether an instance gets a new key depends on the order in which Django deletes rows and clears references, and on when values were cached",
  [DEP+":CacheKeyDependOnRelated.get_triggers", D+":BaseCacheKeyDenorm.get_triggers", F+":CacheKeyField"])

p("C95", "the database can be emptied",
  "manage.py flush, and a TransactionTestCase after its test, empty a database in which the triggers are installed: the command succeeds whatever the tables contain and in whatever order they are emptied; afterwards all tables are empty, no instance is marked, and denorm.flush() returns without doing anything.",
  "every project, every content of the database, every order of the tables, every backend",
  "the tables are emptied in an arbitrary order, and on sqlite each deletion fires triggers that may mark instances in a table that was emptied before",
  [DEP+":CallbackDependOnRelated.get_triggers", D+":flush", "denorm/models.py:DirtyInstance"])

p("C96", "nested atomic() blocks may be rolled back",
  "Sessions change data in transactions with nested atomic() blocks (savepoints), some of which are left by an exception, and flush() runs meanwhile. What was done in a block that failed leaves no trace, neither in counts and sums nor in markers. Every committed @denormalized value is right or its instance is marked, and every CountField and SumField is right, in the committed state and as each session sees it.",
  "any number of sessions, all schedules of statements, nested blocks (any depth), failures, commits, rollbacks and steps of flush(), all three databases",
  "the triggers' writes of a block have to be undone exactly, whatever other sessions do between the savepoint and the rollback, and which locks are kept differs between databases",
  ["denorm/db/sqlite3/triggers.py", "denorm/db/mysql/triggers.py", "denorm/db/postgresql/triggers.py", D+":flush", D+":AggregateDenorm"])

out = os.path.join(os.path.dirname(os.path.abspath(__file__)), "..", "properties.jsonl")
with open(out, "w") as f:
    for x in P:
        f.write(json.dumps(x, ensure_ascii=False) + "\n")
print(len(P))
