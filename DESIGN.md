# Formal model of django-denorm in Lean 4

## 1. What is modelled

django-denorm has three cooperating parts, and the model has one layer for each.

1. **The code generator** (`helpers.py`, `dependencies.py`, `denorms.py:get_triggers`, `db/base.py`,
   `db/*/triggers.py`): from model declarations to a `TriggerSet`, merged by trigger name, to the SQL triggers
   that a backend installs. Modelled as ordinary functions on declaration data (`Verif/Code/*`).
2. **The SQL that it emits**: row triggers with a condition and a list of actions (`INSERT INTO
   denorm_dirtyinstance`, `UPDATE .. SET .. WHERE`). The actions are a deep embedding (`Action`), and a small
   relational engine (`Verif/Sql/*`) gives them meaning: AFTER ROW triggers, NULLs and three-valued logic, nested
   firing, the three backends' rules for re-entrant triggers, row-by-row versus whole-statement firing. The condition
   is also modelled at token level and parsed with SQL precedence (`Verif/Code/CondText.lean`), because the
   precedence matters.
3. **The ORM side** (`fields.py`, `flush`, `rebuildall`, m2m signal handlers, middleware, daemon): functions
   from database state to database state, with exceptions as values; loops take fuel, and theorems quantify over
   all fuel values.

Callbacks are parameters. A callback is any function of (its own row restricted to the columns it reads, for every
declared dependency the related rows restricted to the columns it reads there). This is what `@depend_on_related`
documents: information not declared is not tracked.

Random values are an arbitrary oracle `rand : Nat → Int` indexed by draw number; a theorem that needs two draws to differ
takes that as a visible hypothesis.

## 2. Trusted base

* Lean 4.33.0's kernel. Every property theorem rests on at most `propext`, `Classical.choice`, `Quot.sound`
  (`Verif/Audit.lean` prints them during the build).
* The reading of `/repo` (each definition cites file and lines), and the reading of what Django and the three
  databases do at their documented interfaces; listed in section 5.
* No axioms of our own, no `sorry`, no `native_decide`/`bv_decide`.

## 3. Plan per property

| id | model | proof |
|----|-------|-------|
| C01 | `flush` over the concrete engine; `save` writes every callback column, then triggers run | invariant "stale ⇒ marked" through every iteration; empty table at exit ⇒ nothing stale |
| C02–C05 | `get_triggers` → `TriggerSet` → installed triggers → engine, statement by statement | explicit marking theorems per relation kind; plus one invariant theorem over all histories |
| C06 | `fires` per backend | case analysis, null-safe comparison; refuted for PostgreSQL generic relations |
| C07 | `mkTrigger` field lists | membership; refuted for `skip` + `denorm_always_skip` and for generic relations |
| C08 | `TriggerSet.append` | refuted (first field list wins); `_partial` when watch lists agree |
| C09 | action de-duplication in `Trigger.sql` | `Nodup`, and set equality with the declared actions |
| C10–C12 | engine on parent/child tables, histories of statements | invariant by induction over histories |
| C13 | `AggregateField.pre_save` + UPDATE, also split in two steps | sequential theorem; interleaving refuted |
| C14 | the sequence of single UPDATEs a child statement causes | invariant on each intermediate state |
| C15, C16 | `CacheKeyDependOnRelated`, oracle draws | membership of the new value in this statement's draws |
| C17 | cache as key/value map, instance life cycle | invariant "cached under k ⇒ value of the drawing"; refuted for default key 0 |
| C18 | `flush` pass function | rank argument between instances (all kinds of fields, with C51) and between fields (`FieldsAcyclic`: instances may depend on each other in circles); refuted for cycles that never settle |
| C19 | uniqueness of the consistent state | induction on rank, between instances and between fields |
| C20 | all intermediate states of `flush`; histories of programs, deletions, upserts, crashes and failures (`CrashHistory`) | invariant holds at every step; the invariant of C85 along the history |
| C21 | small-step interleaving of `flush` with statements of other sessions | refuted by three schedules; `_partial`: every schedule in which the others leave alone the one instance flush() is working on; the step function is proved to be `flush` when nobody else acts |
| C22, C23 | one iteration / one pass of `flush` | direct |
| C24, C25 | `rebuildall` | direct; CountField part refuted |
| C26 | m2m pre/post save handlers | direct, recursion depth |
| C27 | `get_alldenorms` on `_meta.fields` | refuted |
| C28 | `DenormDBField.pre_save` | case analysis |
| C29 | `resolved_model`, `find_fks`, `find_m2ms` | iff characterisation |
| C30 | heap of dependency objects, class preparation events | invariant for `@denormalized`; refuted for CacheKeyField |
| C31 | `get_alldenorms` | membership iff |
| C32 | SQL `LIKE` matcher, `startswith` | all denorm names match; refuted for "nothing else" |
| C33 | install/drop on a set of named triggers | transaction semantics; refuted for MySQL |
| C34 | `name()` | injectivity; refuted for generic suffix |
| C35 | daemon loop as a transition system, pid file | induction over rounds; refuted for `-o` |
| C36 | `process_response` | case analysis |
| C37 | self triggers | corollary of C02 machinery |
| C38 | trigger lists with and without the setting; programs of ORM calls and flush() with the setting on (`OneByOne`) | list equation; the tracking invariant of C02 without the triggers on the own table, where save() itself stores the right value; refuted for callbacks that read their own model's CountField |
| C39 | generic condition | sqlite/PostgreSQL proof; MySQL refuted |
| C40 | nested firing | PostgreSQL proof; sqlite refuted |
| C41 | `deconstruct` and re-construction | round trip; refuted for filter/exclude/skip/field |
| C42 | decorator list | induction |
| C43 | `Denorm.update` | case analysis |
| C44 | token text + parser | evaluation theorem per backend; PostgreSQL deviation exhibited |
| C45 | field order in `save` | refuted; `_partial` for earlier fields |
| C46 | `AggregateField.pre_save` on an instance with a chosen key | refuted (IndexError); `_partial` for models without aggregates |
| C47 | the emitted text as a string, with placeholders and parameters put together by the drivers (Code/Execute); a lexer and a recursive-descent parser for the databases' side | lexing and formatting compose over concatenation; the parser inverts the generator; conditions through C44; refuted for upper-case names on PostgreSQL |
| C48 | the same | corollary of C47; refuted for reserved words, values on sqlite, percent signs in column names, `$$` in values, empty column lists, dependencies on proxy models, and (Code/EmptyList) for every project with an empty list in a filter |
| C49 | text with Python's `%s` against text with the driver's literals | congruence in the parameters; refuted for texts, sqlite, long names on MySQL |
| C50 | every statement on every engine with installed triggers, against the same statement on bare tables | invariant of the engine: pending trigger work writes maintained columns only; simulation of the statement's own writes |
| C51 | existence of a bound on the work of a statement | items of a statement get levels that fall: triggers not yet running (sqlite), tables fed (all), columns led to (PostgreSQL, MySQL); refuted by an invariant of endless work and by error 1442 |
| C52 | the columns that the models give to tables; the columns that occur in a trigger | every Trigger object is shown to mention existing columns only, then C34 for merged ones; refuted for `db_column` and multi-table inheritance |
| C53 | `db/__init__.py`; the texts of C47 read by another database | splitting of the engine's path; refuted by reading the text of each module with the grammar of each other database |
| C54 | one application per alias; flush() and rebuildall() on the default one | C01; refuted for every other alias |
| C55 | the exception that Django raises for DISTINCT ON, by version | equality with `flush`; refuted from 2.1 on |
| C56 | any number of program counters (`Pc`) over one database, one access per step; other sessions' statements in between | invariant over all schedules; refuted for chains of computed fields |
| C57 | the two queries through `model.objects` see only the rows that the manager returns | equality with the model without managers; refuted for every project with a hidden row |
| C58 | sessions with a private view (their own changes merged into what is committed), row locks as each database takes them; a schedule is any list of statements, commits, rollbacks and steps of flush() (Code/Transactions) | invariant over all schedules: what a session would bring into the committed state is marked by it; on MySQL a reference is committed only while its target is locked against other sessions, which gives the invariant for flush() at any time (`Tied`); refuted by a row inserted while the row it refers to is changed in another transaction |
| C59 | a database that runs triggers as it has read them from texts (Sql/Run) | refinement: item by item it does what the engine does with the generated triggers; then the theorems about the engine apply; refuted for upper-case names on PostgreSQL |
| C60 | the rest of `AggregateDenorm.get_triggers`: descriptors of Django 1.8 and of 1.9 and later, many-to-many branch, exceptions (Code/AggManagers) | for ForeignKeys equality with the model of C10–C14; refuted for every project with an aggregate over a many-to-many relation |
| C61 | `flush()` one access at a time, reading from a snapshot with its own changes and writing to what is committed; markers deleted by others stay visible (Code/Snapshot) | without others: equality with `App.alone` step by step, then C21/C01; refuted in every project by an invariant (a deleted marker in the snapshot is never removed), and by a witness that is fine with READ COMMITTED |
| C62 | a program as a list of calls; each is reduced to the statement it issues: save(update_fields) is save() of the restricted model, bulk_create one INSERT of all rows with their `pre_save` values, a raw save one without `pre_save` (Code/Calls) | every call issues a legal statement or none, then C02-C05/C11/C12 for statements, by induction over the program (for SumFields together with "summed columns hold numbers"); what save(update_fields) stores, column by column; cache keys refuted in every project |
| C63 | as C62 with `load` for every row of the fixture | corollary of C62 for computed values; witness for CountField |
| C64 | the transactions of C58; the aggregate is written by triggers and by save() (Code/Transactions, Code/Orm) | every property of databases that merging preserves is an invariant of all schedules; the totals of a merged state are those of its parts added up, and row locks on the counted instance keep them in line with the stored number; refuted without foreign key constraint and for a save() that read before another session's commit |
| C65 | flush() with `bool(instance)` given by the project (Code/Hooks) | the invariant of C20 for models with truthy instances; refuted for falsy ones |
| C66 | flush() that may end with an exception at each instance, before or after the write (Code/Hooks) | the invariant of C20 in every outcome; refuted: a failing first marker leaves the database as it is, by induction on the number of calls |
| C67 | the states a statement goes through (`Engine.Reach`) against the CHECK (MySQL: UNSIGNED) of the aggregate's column | the invariant of C14, generalised from counts to sums of non-negative numbers; refuted for negative ones |
| C68 | multi-table children: callbacks that read columns of the parent's row (`Inheriting`); statements on a table without triggers | an invariant over the engine's steps shows that nothing else is written; tracked with the parent as declared dependency (reduction to C02); refuted without |
| C69 | aggregates whose lookups follow ForeignKeys (`JoinAgg`): Django's aliases, trimmed joins, and the names a database finds in the trigger's UPDATE | lookups for keys compile to the condition on the ForeignKey's column (reduction to C11); by induction over the lookup, every other lookup names a table that is not in scope; witnesses for lookups that lead to the aggregate's own table |
| C70 | the expressions of `RandomBigInt.sql`, evaluated in double arithmetic (`Fpu`: monotone rounding that is exact on the doubles that matter) | exact on multiples of 2^-53, everything else by monotonicity |
| C71 | the management commands one after the other on a database with data and triggers of an earlier version (`Production.deploy`), with the tables that sqlite remakes in a migration | the catalogue by C32 and C33, the values by C24's lemmas with the installed engine replaced by the expected one (equal effects of every statement), later histories by C02-C05's tracking; the loss of triggers in sqlite because the catalogue of an administered database says which table each trigger is on |
| C72 | a server that answers one request after the other (`App.serve`): the view with or without a transaction, `process_response`, what is written after it, `do_flush` | the invariant of C01 and C66 (outdated implies marked) through every step of every request; a returned flush() leaves no marker. For views that are programs with blocks and exceptions (`WebRequest.script`): C96 for one session, induction over the requests |
| C73 | flush() with the project's own code (`App.flushWith`), row by row and column by column against the database before the call | each save is an UPDATE of one row with the values that were read, by uniqueness of keys; what its triggers write is confined to aggregates and cache keys (C50); induction over markers and passes; the idle case through C06 |
| C74 | conditions on models and declarations only (`LayeredProject`), histories of ORM calls, SQL and flushes (`History`) | derives the hypotheses of C62 (markers and counts after any program), C51 (statements finish), C18 (flush returns, layer by layer) and C13 (saves keep counts and sums) from the declarations; induction over the history; shown for a shop whose basket sums the @denormalized amounts of its items |
| C75 | locks taken one by one in the order of the row changes of a statement and its triggers (`Code/Waiting.lean`), sessions as lock queues (`LockRun`) | the rows written by a one-row statement form a path along the foreign keys (`Climbing`), so locks are taken in the order of levels; in-order locking excludes circles (`noDeadlock`) |
| C76 | the transactions of C58; keys are drawn by triggers and by save() (Code/Transactions, Code/Orm) | every committed state satisfies `KeyFine memo` for one and the same table `memo` of what keys stand for; a statement extends `memo` at keys that no visible state has (row locks: no other session has written the instance), and merging preserves it (`keyFine_closed`); for transactions that do not overlap (sqlite: always) the same table for all kinds of relations, without merging (`SerialState`) |
| C77 | save(), create(), flush() and rebuildall() with a record of the callbacks they call (Code/Evaluations) | the recorded functions have the results of the original ones; the record is a list of marks saved, each followed by the callback fields of its model |
| C78 | the meaning of a relation with `to_field` (Spec/ToField), against the triggers as they are | positive: where the column mirrors the key, the C01/C11 theorems carry over; negative: a statement on the other table runs triggers none of whose actions finds a row, by induction over the engine's steps (Lemmas/ToField) |
| C79 | the marker table with its text column: casts, Python's `str`, `int` and `UUID` (Sql/KeyText), statements, flush() and rebuildall() over texts (Code/TextFlush) | round trip by the laws of decimal and hexadecimal digits; column types are an invariant of the engine's steps; then a simulation: flush() over texts equals flush() over keys, so that the theorems about keys carry over |
| C80 | the engine once more with column types: what is written into a PositiveIntegerField is rounded or refused (Sql/Store); numbers in units of 1/u | the engine with types equals the engine without while every state on the way fits the column; whole numbers as an invariant; drift refuted by induction on the number of purchases |
| C81 | flush() with a cursor position in the marker table (Code/Reading); any sequence of handled markers (`App.Handles`) | the invariant of C20 needs nothing of the list; termination by a lexicographic order on the number of markers per layer; uniqueness of the solution as for C19 |
| C82 | class statements with relations that are resolved later (Code/Loading): registry, pending operations in their order, strings in place of classes, reverse managers | invariant over pending operations (each string that is still there belongs to a pending relation; of one model, relations wait in front of dependencies); the program is right iff the unordered specification has a solution, hence independent of the order |
| C83 | a project under a numbering of the content types (Code/ContentTypes): the triggers under the numbering of `denorm_init`, the models under the present one | marks carry a number of the old numbering (induction over the work list, C18's lemma), so the lookup fails; after a new installation C71 |
| C84 | save_base of a child (Code/MultiTable; for any number of levels Code/DeepTables): the parent's part, the link, the child's part, `force_insert`, `parent_inserted`; flush() with such saves | each part is a call of C62; for flush, the invariant of C01 with a lemma for a child's row that is saved with what was read before its parent's was written; for aggregates in flush, a lemma that flush() keeps whatever each single save keeps; induction over the fields for the IndexError; induction over the levels with the invariant that the rows of the levels below are as they were read, except for computed columns |
| C85 | conditions on models and declarations only (`RankedProject`), with CacheKeyFields; histories as in C74 | derives the hypotheses of C62, C51, C18 (instances in layers, the layer being the rank of the model), C01 and C13 from the declarations; induction over the history; shown for a shop with all four kinds of fields |
| C86 | save(), save(update_fields=..) and create() where each callback reads a database of its own (Code/Held) | such a call is one of the calls of C62 of a model without callbacks, with the attributes as computed; C62's invariant holds for whatever is written; the attributes as computed are numbers where numbers are summed; the database is in order, so C74 applies |
| C87 | flush() where every save is refused if a unique column gets a value twice (Code/Unique) | invariant: every field holds its old value or the one the callback returned at the start; refutation: the first save puts a value where another row still holds it |
| C88 | save(), flush() and SQL where every row that is written goes through a function of its columns (Code/Typed, Sql/Store), and the other calls of C62 likewise (Code/TypedCalls) | simulation: the run is the run of the project whose callbacks return what the columns store; then C74. A call with attributes that are not rounded is the call of a model without callbacks with the values as they are stored |
| C89 | Python's attribute lookup with `CacheWrapper` (no `__get__`), and what refresh_from_db, full_clean, dumpdata and loaddata do with it (Code/CachedAttr) | invariant of C17, and: what is cached under a text is this text; refutations for every project |
| C90 | upserts, REPLACE and TRUNCATE as one statement whose row writes are of different kinds (Sql/Upsert) | the invariants of C02–C05 and C10–C12, per row write (phases); for whole projects, `InOrder` is kept (Props/Deleted); refutations for REPLACE on sqlite and for TRUNCATE |
| C91 | a DELETE with what the foreign keys of the database do, level by level, interleaved with triggers as sqlite and PostgreSQL do; InnoDB's silent version for MySQL (Sql/Cascade) | invariants of C02–C05 and C10–C12 carried through a list of pending writes, constraints and triggers (`chain_inv`); for whole projects, `InOrder` is kept (Props/Deleted); refuted on MySQL |
| C92 | histories constrained only by what the database checks per row: keys there and unique (Spec/Rekey) | invariant with a fourth case, 'refers to a row that is not there', which a write can only leave by marking the instance; refuted for aggregates, for references that stay broken, and for re-inserted linked rows |
| C93 | Django's `Collector` (collect, fast deletes, field updates, deletes per model) on top of statements (Code/Collector) | closure of what is collected; references are in order afterwards; the invariant of C92 for statements that only delete or clear; lexicographic measure for termination; for whole projects, `InOrder` is kept (Props/Deleted); refuted for DO_NOTHING |
| C94 | `Collector` as in C93, together with the cache and the histories of C17 | each statement of a deletion is legal when it is executed (links go before what they link to), so a deletion is a run of C17; refuted for SET_NULL |
| C95 | `Emptied`, `Engine.emptyDatabase`: what Django sends to empty all tables, with the delete triggers | triggers only update rows and add markers (C33), so emptied tables stay empty; invariant over the statement that nothing is marked; refuted for orders in which the markers come early |
| C96 | `NestServer`, `App.nestMoves`: the sessions of C58 with savepoints, and the locks that are kept after a rollback to one | simulation: every state, with any sessions already gone back to one of their savepoints, is the outcome of a schedule without savepoints that leaves out what was undone; then C58 and C64. A stack invariant for the savepoints of a block. For one session with flush() inside the blocks: `App.script`, induction over the program, with the invariant of C85 |

"Refuted" means: the code itself violates the property as a user would state it. Then the model contains a theorem that exhibits the
violation on a concrete state, and a `_partial` theorem that says exactly when the property does hold.

## 4. Where the code does not do what a user would expect

Each line is a theorem on a concrete, executable state (the kernel evaluates the model); names as in `MANIFEST.json`.

| property | what happens | theorem |
|---|---|---|
| C01 | an instance related to itself, or an aggregate fed by the instance's own row: the save changes what the callback has just read, and the marker this creates is deleted with the old one | `C01_violated_self_reference`, `C01_violated_through_aggregate` |
| C06, C44 | PostgreSQL: `a AND b OR c` without parentheses; an UPDATE that changes nothing fires the generic trigger | `C06_violated_on_postgresql`, `C44_violated_on_postgresql` |
| C06 | MySQL: a trigger with an empty column list has no condition and fires always | `C06_violated_on_mysql` |
| C44, C33 | sqlite, PostgreSQL: an empty column list gives `WHEN(())`/`IF () THEN`, which is not SQL; the install fails | `C44_violated_no_columns`, `C33_empty_watch_list` |
| C07 | `skip or () + always_skip`: a skip list hides `denorm_always_skip`; generic relations ignore both; a shared trigger ignores the second skip list | `C07_violated_*` |
| C08 | triggers with one name are merged and only the first one's column list is kept | `C08_violated` |
| C09 | the same marker inserted by two actions with different texts (the column quoted in one, not in the other) is inserted twice | `C09_violated_marker_twice` |
| C10 | sqlite: a multi-row INSERT with a child before its parent leaves the parent's count at 0 | `C10_violated_child_first` |
| C12 | `sum + NULL` is NULL: one NULL makes the SumField NULL for ever | `C12_violated_null` |
| C13 | the stored aggregate is read, then written: a change in between is lost | `C13_violated_race` |
| C15, C39 | generic M2M dependencies and MySQL compare no content type: other models' rows are renewed/marked | `C15_violated_generic`, `C39_violated_on_mysql` |
| C16 | the save's own trigger draws another key, the attribute keeps the old one | `C16_violated_own_trigger` |
| C17 | `@cached`: every unsaved instance and every row from before the field has key 0 and shares one cache entry; primary key unknown at creation; fields computed later | `C17_violated_*` |
| C17 | a function without @depend_on_related cannot be given to @cached: `self.func.depend` raises AttributeError | `C17_violated_undecorated` |
| C18 | two instances that depend on each other without a fixed point: flush() does not return | `C18_violated_cycle` |
| C19 | a field computed from a field declared after it: a second marker changes the result | `C19_violated_*` |
| C21 | changes between the callback and the deletion of the marker; UPDATE or DELETE while flush() holds the instance | `C21_violated_*` |
| C24 | rebuildall() does not recompute CountField and SumField | `C24_violated_aggregate` |
| C26 | an instance with a falsy primary key never gets its relation | `C26_violated_zero_key` |
| C26 | an instance of a proxy model, or a field inherited from a concrete model: the signal handlers are connected with `sender=cls` of the declaring class | `C26_not_local`, `C26_violated_proxy` |
| C27 | ManyToManyFields are not in `_meta.fields`: no triggers for them | `C27_violated` |
| C28 | Django < 3.0: after save() the instance still has the previous related object | `C28_violated_cached_object` |
| C30 | CacheKeyField in an abstract base: dependency objects shared by all subclasses | `C30_violated_cachekey` |
| C30 | CountField in an abstract base: one denorm object for all subclasses, with the model of the last and the manager of the first | `C30_violated_aggregate` |
| C32 | `LIKE 'denorm_%'`: triggers of other programs are dropped (`_` is a wildcard) | `C32_violated` |
| C33 | `atomic()` without `using`; DDL in MySQL commits; random names in MySQL | `C33_violated_*` |
| C34 | `t_5` against content type 5 on `t` | `C34_violated` |
| C35 | `-o` never flushes; Python 3 never writes the pid file; Python 3.7+ needs one | `C35_violated_*` |
| C38 | DENORM_BULK_UNSAFE_TRIGGERS: a callback that reads a CountField of its own model is neither recomputed nor marked when the count changes | `C38_violated_aggregate` |
| C40 | sqlite does not enter a running trigger again: changes on the way back are lost | `C40_violated_on_sqlite` |
| C41 | filter, exclude, skip and the summed field are not in the deconstruction | `C41_violated` |
| C43 | a callback returning an instance never equals the stored key: always "changed" | `C43_violated_instance` |
| C45 | a callback that reads a field declared after it sees the old value | `C45_violated_by_order` |
| C46 | save() of a new instance with a chosen key: `[0]` on an empty result | `C46_violated_explicit_key` |
| C47 | tables, key columns and the denormalized field are written without quotes: PostgreSQL folds `Entry` to `entry` | `C47_violated_case` |
| C48 | the same with a reserved word: no database can read the trigger | `C48_violated_reserved` |
| C48 | a GenericRelation to a model that a OneToOneField of another model points to (every multi-table parent): `k.attname` of a OneToOneRel, AttributeError | `C48_reflected_generic_partial`, `C48_violated_generic` |
| C48 | an empty list in a `filter=` (`{'status__in': []}`): get_triggers compiles the condition itself and does not catch EmptyResultSet, so denorm_init raises and installs nothing for the whole project | `C48_violated_empty_list` |
| C11 | sqlite as default database: `filter=` raises NotImplementedError when the class is created (a refusal, not a wrong count) | `C11_sqlite_refused` |
| C48 | sqlite, PostgreSQL: a ForeignKey (or ManyToManyField) to a proxy model. Only the proxy can be named as the dependency (`find_fks` compares `repr`s), all its fields belong to the concrete model, so the UPDATE trigger watches no column: `WHEN(())` / `IF () THEN` is a syntax error and denorm_init installs nothing | `C48_violated_proxy` |
| C48 | sqlite: a value in `exclude=` becomes a placeholder inside CREATE TRIGGER, which sqlite rejects | `C48_violated_value` |
| C48 | PostgreSQL, MySQL: a percent sign in the name of a column (`db_column='share%'`) makes `cursor.execute(sql, params)` raise, because names are put into the text before the parameters are | `C48_violated_percent` |
| C48 | PostgreSQL: `$$` in a filter value ends the dollar-quoted body of the trigger function | `C48_violated_dollar` |
| C49 | sqlite: with a percent sign in the name of a column `denorm_sql` raises, `denorm_init` works | `C49_violated_percent` |
| C49 | `denorm_sql` prints texts without quotes, sqlite's placeholders as values, and other random names in MySQL | `C49_violated_*` |
| C51 | a CountField on `Forum` over `Post` and a CacheKeyField on `Post` that depends on `Forum`: inserting a post recurses without end on PostgreSQL and fails with error 1442 on MySQL; a CountField over a relation of a model to itself makes inserts fail on MySQL | `C51_violated_*` |
| C52 | watched columns are named by `attname` (base.py:97-122), the denormalized column by the field's name, the key of an aggregate by `attname`: a field with `db_column` gives triggers that mention a column that does not exist; so does a dependency through a ForeignKey inherited from a multi-table parent | `C52_violated_db_column`, `Renamed.C52_violated_*` |
| C53 | the trigger module is chosen by the default database alone: `denorm_init --database=other` sends the wrong SQL to a database of another kind; `spatialite` is not mapped; `rsplit('.')[1]` raises IndexError for an engine outside a package | `C53_violated_*` |
| C54 | `denorm_init --database=other` installs triggers there, but flush() and rebuildall() only look at the default database | `C54_violated_*` |
| C55 | Django 2.1 raises NotSupportedError instead of NotImplementedError for `distinct(fields)`: flush() always raises on sqlite and MySQL | `C55_violated` |
| C56 | two calls of flush() at the same time, a field computed from a computed field: the slower call overwrites the newer value with its own and deletes the marker | `C56_violated` |
| C57 | `AggregateField.pre_save` reads the stored count through `model.objects`: IndexError for rows that the manager hides, and flush() never gets past such a marker; rebuildall() does not mark hidden rows | `C57_violated_*` |
| C58 | a trigger selects the rows to mark as its session sees them: an instance inserted by another session meanwhile is not marked, and if flush() handles its own marker before the first session commits, it stays stale | `Chain.C58_violated`; on MySQL with constraints a link that is handed over to another instance takes no lock on its target: `Album.C58_violated_handed_over` |
| C59 | on PostgreSQL a `db_table` with an upper-case letter: the texts are read as triggers of another table, and a changed instance is not marked | `Texts.C59_violated` |
| C60 | `get_related_where` uses `self.manager.related`, which the descriptors of many-to-many relations do not have since Django 1.9: AttributeError; in 1.8 `related.model` is the wrong end of the relation | `C60_violated`, `C60_violated_forward`, `Labels.C60_violated_18` |
| C61 | the daemon runs flush() with autocommit off; with REPEATABLE READ the loop `while True: ... if not qs: break` waits for markers that another process has deleted, and the DELETE after save() removes markers whose changes the snapshot does not show | `C61_violated_endless`, `Chain.C61_violated`, `Chain.C61_violated_deleted` |
| C62 | `pre_save` of a CacheKeyField runs only for the fields that are written: save(update_fields=["title"]) stores the title under the old key; with DENORM_BULK_UNSAFE_TRIGGERS save(update_fields=["blog"]), which is no bulk operation, leaves the value stale without a marker | `C62_violated_key`, `Chain.C62_violated_bulk_unsafe` |
| C63 | a raw save (loaddata) writes the CountField of the fixture, and every INSERT of a related object adds one: after loading a dump every count is doubled until denorm_rebuild | `Demo.C63_violated_count` |
| C64 | `pre_save()` of an aggregate reads the number with a query and save() writes it back in an UPDATE; a related object that another session commits in between is never counted. Without a foreign key constraint an object can also be counted for an instance that the session does not see yet, and its count is lost | `Demo.C64_violated_save`, `Demo.C64_violated_unconstrained` |
| C65 | `if dirty_instance.content_object:` tests the instance's truth value, not whether it exists: an instance of a model with `__bool__` or `__len__` that is false at this moment has its marker deleted without being saved | `Chain.C65_violated` |
| C66 | flush() has no handler: an instance whose save() raises, or a marker of a removed model, ends every call at the same marker, and the markers behind it are never reached | `Chain.C66_violated`, `C66_violated_stuck`, `C66_violated_removed_model` |
| C67 | every aggregate is a PositiveIntegerField: with negative numbers in the summed column the sum can be below zero between the addition of the new number and the subtraction of the old one, and the database refuses the statement | `Demo.C67_violated_negative` |
| C68 | only the columns of a multi-table child's own table are watched (the FIXME in base.py:107-108): after `Child.objects.update(inherited=...)` or a save of the parent, the child and everything that depends on the child keep the old value, unmarked | `Renamed.C68_violated`, `Renamed.C68_violated_dependency`; in general `C68_lost` |
| C69 | the trigger of an aggregate takes only the WHERE part of the query Django compiles (denorms.py:404-420). With `filter={'author__active': True}` it names a table that is in no FROM clause: installing the triggers succeeds, but from then on every INSERT and DELETE of a related row is an error. A lookup that leads back to the aggregate's table is evaluated on the row being updated, whichever row the ForeignKey refers to, and only when a related row is written | `C69_violated_other_table`, `JoinDemo.C69_violated_own_table`, `JoinDemo.C69_violated_wrong_row` |
| C71 | `denorm_rebuild` recomputes no CountField or SumField, so a new one has its default in all existing rows after a complete deployment. On sqlite Django's migrations create changed tables anew, without triggers; django-denorm does not notice. `denorm_init` then raises because the triggers of the other tables are still there, and rolls back | `C71_violated_aggregate`, `C71_violated_migration`, `C71_init_without_drop` |
| C72 | `DenormMiddleware` flushes in `process_response`, before the content of a streaming response is produced: what is written then stays outdated until the next request. The deprecated DENORM_FLUSH_AFTER_REQUEST flushes after it | `C72_violated_streaming` |
| C73 | flush() saves instances like a user does: a `DateTimeField(auto_now=True)` of an instance nobody touched is set | `Chain.C73_violated_auto_now` |
| C75 | the counters that triggers keep are locked in the order in which rows are written: two sessions that move rows between the same two parents, or add rows to them in opposite order, deadlock; on MySQL with foreign key constraints two plain INSERTs under the same parent do | `Till.C75_violated_move`, `Till.C75_violated_txn`, `Till.C75_violated_bulk`, `Till.C75_violated_mysql`, `Press.C75_violated_two_links` |
| C76 | a trigger renews the keys of the instances it sees: an instance that another session has related to the changed row and not committed yet keeps its key | `Keys.C76_violated_forward`, `Keys.C76_violated_m2m`, `Notice.C76_violated_unconstrained` |
| C77 | save() of an instance with a given key and no row calls the callbacks twice | `C77_violated_given_key` |
| C78 | Triggers ignore `to_field`: they compare the ForeignKey with the primary key | `C78_violated_lost`, `C78_violated_count`, `C78_violated_cachekey` (every project), `Atlas.C78_violated_forward`, `_backward`, `_wrong_row` |
| C79 | On sqlite and MySQL a UUID has two texts, with dashes (rebuildall) and without (triggers): rebuildall() saves instances twice | `C79_violated_uuid`, `Notes.C79_violated_rebuild` |
| C80 | A SumField over decimals is kept in an integer column: on PostgreSQL and MySQL each trigger rounds, and the errors add up without bound; on sqlite save() and flush() cut off the decimals | `Demo.C80_violated_drift`, `Demo.C80_violated_save` |
| C81 | fields of C45: with two markers of one instance the value depends on whether the second is read before or after the first is handled | `C81_violated_portions` |
| C82 | relations written with a name, not resolved when the dependency is looked at: `resolved_model` compares the string with the class and finds nothing, ValueError at import | `C82_violated_backward`, `C82_violated_class`, `C82_violated_self` |
| C82 | the reverse manager appears after `class_prepared` of the last model was sent, and nobody looks for it again: `denorm_init` raises AttributeError | `C82_last`, `C82_violated_last` |
| C83 | triggers contain the content type's number as a literal: markers are refused, unknown to flush(), or taken for instances of another model | `C83_violated_refused`, `C83_violated_raises`, `C83_violated_other` |
| C84 | a new instance of a multi-table child has a key when its own part is saved: save() (Django 1.8 to 2.0) calls pre_save of its CountFields and SumFields with add=False, which raises IndexError (fields.py:171-175), for every project with such a field | `C84_violated_create` |
| C84 | with three levels even `objects.create(..)` raises, as `force_insert` is about the last level only, if a model in the middle has a CountField or SumField | `C84_violated_deep_create` |
| C86 | DENORM_BULK_UNSAFE_TRIGGERS: save() of an instance that holds an old related object stores an old value, and nothing marks the instance | `C86_violated_unsafe` |
| C87 | two instances have to exchange the values of a field with unique=True: flush() raises IntegrityError for every order of the markers, and for ever | `C87_violated_taken`, `C87_violated_forever`, `C87_violated_exchange` |
| C88 | a field computed from a computed field of the same instance, whose column rounds: it holds the callback's value for what was in memory, not for what is stored; with DENORM_BULK_UNSAFE_TRIGGERS every field that is computed from a column that rounds | `C88_violated_own`, `C88_violated_unsafe` |
| C89 | refresh_from_db() with columns declared after the attribute or with numbers; deferred attributes; full_clean(); loaddata of what dumpdata wrote | `C89_violated_order`, `C89_violated_number`, `C89_violated_deferred`, `C89_violated_clean`, `C89_violated_dump`, `C89_violated_fixture` |
| C90 | REPLACE on sqlite; TRUNCATE | `C90_violated_replace`, `C90_violated_truncate` |
| C91 | MySQL: rows deleted or cleared by foreign keys run no triggers | `Crates.C91_violated` |
| C92 | CountField and SumField when keys change; instances whose reference points nowhere; linked rows deleted and inserted again | `C92_violated_count`, `C92_violated_dangling`, `C92_violated_reinserted` |
| C93 | many-to-many relations through a model with `on_delete=DO_NOTHING` and no constraint in the database | `C93_violated` |
| C94 | `@cached` functions that follow a ForeignKey with `on_delete=SET_NULL`: the value of the deleted object stays in the cache | `C94_violated` |
| C95 | sqlite: a database whose markers are emptied before a table that others depend on: `manage.py flush` is refused, or leaves markers at which `denorm.flush()` raises | `C95_violated_refused`, `C95_violated_raises` |
| C96 | the race of C58, within nested blocks | `Chain.C96_violated` |
| C20 | a `@denormalized` field computed from one that is declared after it (C45): out of date and no longer marked during and after flush() | `C20_violated` |
| C67 | A sum that fits the column before and after a statement can be too large in between; a related row with NULL in the summed column cannot be inserted | `Demo.C67_violated_large`, `Demo.C67_violated_null` |
| C78 | With texts in the target column and numbers as keys, a marker cannot be read, and flush() raises for good | `Atlas.C78_violated_flush_raises` |

`WellDeclared` (`Spec/Declared.lean`), the hypothesis of C02–C05 and C01, excludes declarations that lose changes for one of the
reasons above: reading a column in a skip list (C07), a merged trigger that watches less (C08), the primary key in another table (multi-table
inheritance: `pk.model._meta.db_table` is the parent's table), reading a column that is not local (base.py has a FIXME), a GenericRelation followed
backwards (no trigger is made for the rows of the generic table), and links or primary keys written by triggers.

Seen while reading, not stated as theorems: `find_fks` compares lower-cased representations of classes; a column whose `db_column` differs from
`attname` breaks the SQL of its triggers; `SumDenorm.func` uses `.values()[0]` (Python 3: TypeError; only reached through `update`); loading a historical model in a migration that has
a `@cached` attribute fails (`func` is None); `daemonize` forks with an open database connection.

## 5. How Django and the databases are read

The model contains no code of Django or of the databases. What it assumes about them:

**Statements and triggers** (`Sql/Db.lean`). A table is a list of rows; a row is a function from column names to values; values are NULL, integers and text.
Comparison with NULL is unknown; `IS NOT`, `IS DISTINCT FROM` and `NOT <=>` are null-safe. AFTER ROW triggers run after each row (sqlite, MySQL) or after
the whole statement (PostgreSQL), the actions of a trigger in order, and what an action changes fires triggers before the next action (depth first).
sqlite does not enter a trigger that is active (`recursive_triggers` off). MySQL refuses to write a table that an enclosing statement is writing (error 1442).
An error undoes the whole statement. A nested trigger recursion has a bound; all theorems hold for every bound. Values have no size limit and no
type errors. `INSERT OR REPLACE`/`INSERT IGNORE`/`EXCEPTION WHEN unique_violation` into `denorm_dirtyinstance` add a row, since the table has no unique constraint
(`migrations/0001_initial.py`; `models.py`). The markers' own ids are not modelled; the order in which flush() sees them is arbitrary.

**Constraints.** Primary keys are unique and not NULL, and an UPDATE does not change them (except in C92); links of a many-to-many table are inserted after and deleted before the
rows they link (`LegalStmt`, `Spec/Legal.lean`). These are hypotheses of the theorems, not part of the engine.

**save()** (`Code/Orm.lean`). `pre_save` of every field in the order of declaration, then one UPDATE by primary key, and an INSERT if the
UPDATE matched no row. The UPDATE writes every column of the instance. Attributes that are set by `pre_save` are visible to the fields after them.
Signals other than django-denorm's own have no effect. `update_fields`, partly loaded instances, `bulk_create` and raw saves (loaddata) are modelled in `Code/Calls.lean`: the same UPDATE with fewer columns, one INSERT
of several rows, and save() without `pre_save`. `select_on_save` is not modelled.

**Multi-table inheritance** (`Spec/Inherited.lean`): the fields of a parent are stored in the parent's table, in the row the parent link points to; writing an inherited field through the child, by
`save()` or `QuerySet.update()`, is a statement on the parent's table. That `save()` of a child also writes the parent's row is not modelled.

**flush()** The queryset of one pass is evaluated once (`snapshot`) and walked in any order (`App.order` is any function; on PostgreSQL one marker per object, `DISTINCT ON`).
`content_object` is looked up by content type and key when it is accessed, and is None if there is no such row; without a model for the content type the access raises (`noModel`).
Instances are truthy and flush() as a whole fails if one save() does, except in `Code/Hooks.lean`, where both are given by the project.
`DirtyInstance.objects.filter(..).delete()` removes all markers of the object in one statement.

**Other sessions** (`Code/Session.lean`): READ COMMITTED; statements are atomic, and between any two statements of flush() any number of other statements
may run. Evaluating the fields of one save (`pre_save`) is one step: reads of one instance are not interleaved with writers.

**Aggregates** with a filter: the lookups `exact`, `gt`, `gte`, `lt`, `lte`, `in`, `range` and `isnull` on columns of the related table; how Django compiles the lookup into SQL
(`TriggerFilterQuery`, `TriggerWhereNode.sql_for_columns`) is represented by its result, a condition with `NEW.`/`OLD.` in place of the table alias.

**Descriptors** (`Code/AggManagers.lean`): since Django 1.9 the descriptors of reverse ForeignKeys and of ManyToManyFields have an attribute `field` and none called `related`; in 1.8 those of the reverse
ends have `related` and those of ManyToManyFields have `field`; there `related.model` is the model that the relation points to and `related.related_model` the one that declares it.

**Random numbers** (`RandomBigInt`, `random.randint`): an arbitrary oracle, indexed by draw. In `Code/RandomKey.lean` the expressions are evaluated: sqlite's RANDOM() returns any 64 bit integer, PostgreSQL's a multiple of 2^-53 in [0, 1), MySQL's the double nearest n / (2^30 - 1), n < 2^30 - 1; a number out of range is refused.

**ManyToMany** `manager.set(objs)` removes the links that are not in the new set and adds the missing ones, each as SQL statements with triggers.

**Imports** (`Code/Classes.lean`): a program is a sequence of class statements; a class statement copies the fields of its abstract bases (`copy.deepcopy`), calls `contribute_to_class`
in order of creation and sends `class_prepared` to all receivers connected so far. Names are resolved when the class exists.

**Catalogue** (`Code/Install.lean`): a set of named triggers per database; `CREATE TRIGGER` fails on an existing name and on text that is not SQL; DDL is transactional in sqlite and PostgreSQL and
commits in MySQL; `LIKE` has `_` and `%`; names longer than the limit are truncated as in `truncate_name` (the hash is any function).

**Reading SQL** (`Sql/Text.lean`): tokens are words, names in quotes, string literals, symbols and `--` comments. Quotes inside names and literals are not read. An
unquoted name must not be a reserved word (the list is a parameter) nor begin with a digit; PostgreSQL folds it to lower case. The grammar covers what the library emits. A `?` is no
expression inside a trigger. psycopg2 and MySQLdb put literals into the text, sqlite3 sends placeholders. Which tables and columns exist is not checked there;
that is C52, which also justifies that a row is a total function from column names.

**Several flush()** (`Code/Crew.lean`): the same steps as for one (Code/Session): each access to the database is atomic and sees what is committed; the UPDATE of save() and its triggers are one step.

**Transactions** (`Code/Transactions.lean`): isolation level READ COMMITTED on all databases (Django's default; sqlite has one writer at a time). A statement sees what is committed when it starts and the session's own changes. A writer locks the rows it writes; a foreign key constraint takes a shared lock on the row it refers to, which on MySQL excludes writers of that row, on PostgreSQL only its deletion. A statement that would have to wait is left out of the schedule; no deadlocks; savepoints are added in `Code/Savepoints.lean` (C96): a rollback to one restores what the session had written, and gives up the locks taken since on PostgreSQL only. One `content_object`, its save() and the deletion of its markers are one step of flush() (C21 and C56 take these steps apart).

**Managers** (`Code/Managers.lean`): whether a manager returns a row depends on the row only. A model without an attribute `objects` (its manager has another name) is not modelled: rebuildall() and the save() of its aggregates raise AttributeError.

**Settings** (`Code/Databases.lean`): no database routers: every model is read from and created in the default database, an instance is saved where it was loaded from.
All other parts of the model are about one database and a Django version before 2.1 (or PostgreSQL).

**Lookups that follow relations** (`Code/JoinFilter.lean`): each ForeignKey of a lookup is a join, reused when it is already there; a joined table is called by its name, or `T<n>` when that is taken; joins that are needed for the referenced key only are trimmed. Only ForeignKeys in forward direction. A trigger that names an unknown column is created without error and fails when it runs.

**Migrations** (`Code/Deploy.lean`): on sqlite a migration that alters a table creates it anew, copies the rows and drops the old table (`_remake_table`), and its triggers go with it; on PostgreSQL and MySQL tables are altered in place and keep their triggers. What a migration does to the rows is arbitrary.

**Requests** (`Code/Request.lean`): an exception of a view becomes a response before `process_response` is called; with ATOMIC_REQUESTS the view's statements are rolled back then; streaming content and the middleware classes listed before DenormMiddleware come after it; `request_finished` is sent last. One request at a time (for concurrent sessions see C21, C56 and C58).

**Waiting** (`Code/Waiting.lean`): locks one by one, in the order in which a statement and its triggers write rows; PostgreSQL's KEY SHARE and InnoDB's shared lock for
foreign key constraints; sqlite's lock on the whole database. Left out: locks on gaps and indexes, queues of waiting sessions, SELECTs that lock, what a statement finds when it goes on after
waiting (the theorems hold for the locks of any statement in any state, so it does not matter in which state it was looked up).

**Evaluations** (`Code/Evaluations.lean`): save(), create(), flush() and rebuildall() a second time, with a record of the callbacks they call. `Lemmas/Evaluations` proves that apart
from the record they have the results of the originals.

**Targets** (`Spec/ToField.lean`): a ForeignKey with `to_field` is an ordinary ForeignKey column for the library, so the model of the triggers is unchanged; only the specification of
which rows are related differs. The target column and the primary key are taken to have the same type. With different types PostgreSQL rejects the trigger's comparison when it
runs, and the application's statement fails; this is not modelled.

**Texts of keys** (`Sql/KeyText.lean`, `Code/TextFlush.lean`): elsewhere a marker holds the key itself. Here the column `object_id` is a text. The three databases cast integers to decimal digits when
a trigger inserts them; a UUID is 32 characters on sqlite and MySQL and is printed with dashes by PostgreSQL. Python's `int()` and `UUID()` are modelled without blanks, `+`, underscores, braces and
`urn:`. That columns hold values of their type is a hypothesis about the schema (`Db.Fits`); that triggers and save() keep it so is proved. `C79_flush` is the reason why the other modules may keep
keys in markers.

**Column types** (`Sql/Store.lean`): the engine of `Sql/Db` stores what it is given. For C67 and C80 there is a second engine in which each written row passes through a function `Store`, which may
change it or refuse it. For the column of an aggregate this function refuses NULL, negative numbers and numbers above the limit, and rounds decimals (halves away from zero) except on sqlite.
`execStored_eq` says when both engines agree: when every state on the way holds only values its columns take as they are. The other columns take everything.

**Reading in portions** (`Code/Reading.lean`): `qs.iterator()` reads through an open cursor. PostgreSQL and MySQL show it the table as it was when the query was sent, which is the model of `App.flush`.
sqlite shows it the changes of its own connection, and Django reads it in portions since version 2.0 (in 2.1 flush() raises on sqlite anyway, C55). Here the cursor is a position in the list of markers; deletions before it move it, additions come
after it. What sqlite leaves unspecified, and the row that older versions of Python read ahead, are covered by `App.Handles`, which says nothing about which markers are handled.

**Imports** (`Code/Loading.lean`): `Code/Classes` has the complete metadata of a class from the beginning. `Code/Loading` has them as they are during the import: the class of a relation field given by name is a string until
Django (1.9 and later: `lazy_related_operation`, `Apps.register_model`, `do_pending_operations`) has both classes, and reverse managers appear at the same time. `find_fks` and `find_m2ms` are the functions of Code/Resolve, applied to what is there.
The two models agree where both apply: `C82_classes` and `C30_callback` state the same `EachRight`.

**Fields of a trigger** (`Code/Reflect.lean`): `Trigger.__init__` and `get_fields_with_model` read `_meta.get_fields()`. The entries of this list, with the attributes that Django gives them, are modelled here; `C48_reflected_model` shows that
what comes out is `watchedFields` of Code/Trigger, which the other files use.

**Content types** (`Code/ContentTypes.lean`): elsewhere a model has one number, `ct`. Here `numbered N` gives every model, wherever it occurs in declarations, callbacks and the ORM's models, the number `N table`; triggers that are in the database keep theirs.

**Multi-table children** (`Code/MultiTable.lean`: one level of inheritance; `Code/DeepTables.lean`: any number; `saveDeep_two` shows that they agree): one parent each; the attributes of an instance are kept by table; what the child's callbacks read of the parent's part they read from the database, where it has just been written.

**Upserts** (`Sql/Upsert.lean`). An upsert is one statement whose row writes are inserts and updates mixed. Which rows clash is decided
row by row on the table's content without what triggers write into it meanwhile, which makes no difference unless triggers write columns
of unique constraints. PostgreSQL's refusal to update a row twice in one statement is left out (the theorems cover more runs). What
databases document about triggers under `ON CONFLICT`, `ON DUPLICATE KEY UPDATE`, `REPLACE`, `TRUNCATE` and sqlite's
`recursive_triggers` is taken from their documentation.

**Foreign keys that act** (`Sql/Cascade.lean`). The order in which constraints and triggers run, and that InnoDB's actions run no triggers,
are taken from the databases' documentation. `ON UPDATE` actions are left out (Django writes none). The frame of a trigger that runs for a
row deleted by a constraint is that of a statement of its own.

**Deletions** (`Code/Collector.lean`). `Collector` is Django's, not `/repo`'s; it is modelled because what `delete()` does to denormalized fields depends on which statements it sends and in which order. `on_delete` may be CASCADE, SET_NULL, PROTECT or DO_NOTHING (SET_DEFAULT and SET() are left out, RESTRICT is like PROTECT here). Rows are read once per level, before any statement is sent. The order of models is arbitrary. Batches, and the single DELETE for a queryset without dependents, are left out; signal handlers do nothing.

**Daemon** (`Code/Daemon.lean`): every call out of the loop (flush, sleep, commit, open, kill, fork) may return or raise anything, chosen by an arbitrary oracle.

**Field construction** (`Code/Deconstruct.lean`): a field class is given by the options it accepts and their defaults; `Field.deconstruct` lists the options that differ from their defaults.

**Cache** (`Code/Cached.lean`): a total map from names to values or nothing; entries may vanish at any moment and never change otherwise. Transactions of the database do not roll the cache back.

## 6. Code covered

| /repo | Lean |
|---|---|
| `helpers.py:find_fks`, `find_m2ms`, `remote_field_model` | `findFks`, `findM2Ms` (Code/Resolve) |
| `db/base.py:get_fields_with_model`, `Trigger.__init__` | `getFieldsWithModel`, `modelFields`, `genericFields`, `reflectTrigger` (Code/Reflect) |
| `dependencies.py:DependOnRelated.__init__`, `setup`, `resolved_model`, `make_depend_decorator` | `candidates`, `resolvedModel` (Code/Resolve); `DepSpec.new`, `World.setupDep`, `dependOnRelated` (Code/Classes) |
| `dependencies.py:DependOnRelated.setup`, `denorms.py:AggregateDenorm.setup`, `helpers.py:remote_field_model` during the import | `Loading.*` (Code/Loading) |
| `dependencies.py:CallbackDependOnRelated.get_triggers` | `callbackM2MTriggers`, `Dep.callbackTriggers` (Code/GetTriggers) |
| `dependencies.py:CacheKeyDependOnRelated.get_triggers` | `cacheKeyM2MTriggers`, `Dep.cacheKeyTriggers`, `randomUpdate` |
| `denorms.py:BaseCallbackDenorm`, `CallbackDenorm`, `BaseCacheKeyDenorm` (`setup`, `get_triggers`; `CacheKeyDenorm` is used nowhere and not modelled) | `selfTriggers`, `Denorm.triggers`; `World.send` |
| `denorms.py:AggregateDenorm.get_triggers`, `SumDenorm`, `CountDenorm` (ForeignKey managers) | `AggDenorm.triggers`, `Agg.incr`, `Agg.decr`, `Cond`, `whereOf`; with empty lists `KwAgg.triggers`, `whereSql` (Code/EmptyList) |
| `denorms.py:AggregateDenorm.get_triggers`, `TriggerFilterQuery` with lookups that follow relations | `JoinAgg.*`, `setupJoins`, `trimJoins`, `compileConds` (Code/JoinFilter) |
| `denorms.py:AggregateDenorm.get_triggers`, `get_related_where`, `m2m_triggers`, `SumDenorm.get_related_increment_value` (all managers, all versions of Django) | `AnyAgg.*`, `ManagerOf`, `installAny` (Code/AggManagers) |
| `denorms.py:Denorm.update` | `DenormField.update`, `updateM2M` (Code/FieldValue) |
| `denorms.py:many_to_many_pre_save`, `many_to_many_post_save` | `App.m2mPreSave`, `App.saveModel`, `App.createModel` (Code/M2M) |
| `fields.py:CachedField.__init__` | `cachedInit`, `cachedStmt` (Code/CachedInit) |
| `fields.py:DenormDBField.contribute_to_class` (the signals) | `receivers`, `App.saveAs` (Code/Senders) |
| `denorms.py:get_alldenorms` | `getAlldenorms` (Code/Registry) |
| `denorms.py:rebuildall` | `rebuildModels`, `rebuildMarks`, `App.rebuildall` (Code/Rebuild) |
| `denorms.py:flush` | `App.flush`, `App.pass`, `App.flushOne` (Code/Orm); `App.flushStep` (Code/Session); `App.flushWith` (Code/Hooks); `App.flushReading` (Code/Reading) |
| `denorms.py:build_triggerset`, `install_triggers`, `drop_triggers` | `buildTriggerset`, `installTriggers`, `dropTriggers` (Code/GetTriggers, Code/Install) |
| `db/base.py:Trigger`, `TriggerSet`, `get_fields_with_model` | `mkTrigger`, `watchedFields`, `PyTrigger.name`, `TriggerSet.append` (Code/Trigger) |
| `db/*/triggers.py:Trigger.name`, `Trigger.sql` | `PyTrigger.name`, `PyTrigger.compile` (Code/Trigger), `DbTrigger.condText` (Code/CondText), `createdName` (Code/Install) |
| `db/*/triggers.py:TriggerActionInsert`, `TriggerActionUpdate`, `TriggerNestedSelect`, `RandomBigInt` | `Action` and its meaning (Sql/Db) |
| `db/*/triggers.py`: the text of `Trigger.sql`, `TriggerActionInsert.sql`, `TriggerActionUpdate.sql`, `TriggerNestedSelect.sql`, `RandomBigInt.sql` | Code/SqlText |
| `db/*/triggers.py:RandomBigInt.sql`, `denorms.py:BaseCacheKeyDenorm.__init__` (the numbers) | `randomTerm`, `newKey`, `pyKey` (Code/RandomKey) |
| `management/commands/denorm_drop.py`, `denorm_init.py`, `denorm_rebuild.py` (in sequence, default database) | `Production.drop`, `Production.init`, `Production.rebuild`, `Production.deploy` (Code/Deploy) |
| `middleware.py:DenormMiddleware` in a sequence of requests, `__init__.py:do_flush` | `App.runMiddleware`, `App.requestFinished`, `App.serve` (Code/Request) |
| `cursor.execute(sql, args)` of the drivers and Django's `convert_query` (not in /repo) | Code/Execute |
| `management/commands/denorm_sql.py` | `printedTexts` (Code/SqlText), `formatAll` (Code/Execute) |
| `db/*/triggers.py:TriggerSet.install`, `drop` | `installStmts`, `dropStmts`, `transact` (Code/Install) |
| `fields.py:denormalized` (`DenormDBField.__init__`, `contribute_to_class`, `pre_save`, `deconstruct`) | `DenormField.preSave` (Code/FieldValue), `SaveField.preSave` (Code/Orm), `DenormDBField.*` (Code/Deconstruct), `World.contribute` (Code/Classes) |
| `fields.py:AggregateField`, `CountField`, `SumField` | `SaveField.preSave`, `AggregateField.*`, `countField`, `sumField` |
| the column type of `AggregateField` (PositiveIntegerField) | `Backend.storePositive`, `positiveColumn`, `Engine.execStored` (Sql/Store) |
| `fields.py:CacheKeyField`, `CachedField`, `CacheWrapper`, `cached` | `SaveField.preSave`, `cacheKeyField`, `cachedField`, `setCached`, `App.saveCached`, ... (Code/Cached), `KeyFieldObj` (Code/Classes) |
| `middleware.py`, `daemon.py:daemonize`, `management/commands/denorm_daemon.py` | `processResponse`, `daemonize`, `handle`, `daemonRound` (Code/Daemon) |
| `db/__init__.py` | `backendForDbname`, `backendName`, `triggersModule` (Code/Databases) |
| `denorms.py:flush`, called by several processes | `App.crewTurn`, `App.crewTurns` (Code/Crew) |
| `denorms.py:flush` in a transaction with snapshot reads (`commit_manually` of `denorm_daemon.py`) | `App.snapStep`, `App.snapTurns` (Code/Snapshot) |
| `fields.py` `pre_save` as Django calls it in save(update_fields), for deferred fields, bulk_create and raw saves | `App.saveFields`, `App.bulkCreate`, `App.load`, `App.calls` (Code/Calls) |
| `fields.py:60` `self.denorm.func(model_instance)` of an instance that keeps related objects from earlier reads | `SaveField.preSaveHeld`, `preSaveAllHeld`, `App.saveHeld`, `App.saveFieldsHeld`, `App.createHeld`, `App.heldCalls` (Code/Held) |
| `fields.py:33-37, 98-101` (`unique=True` handed on to the column), `denorms.py:593-635` with the constraint | `repeated`, `Db.repeats`, `App.saveObjectUnique`, `App.flushListUnique`, `App.flushUnique`, `App.callsUnique` (Code/Unique) |
| `fields.py:33-37, 60-80`, `denorms.py:593-635` with columns that change what they store | `ColumnTypes`, `App.execTyped`, `App.saveTyped`, `App.saveObjectTyped`, `App.flushListTyped`, `App.flushTyped`, `App.runTyped` (Code/Typed); `App.createTyped`, `App.saveFieldsTyped`, `App.bulkCreateTyped`, `App.loadTyped`, `App.callTyped`, `App.callsTyped` (Code/TypedCalls) |
| `fields.py:297-321` `CacheWrapper` as Django uses the attribute | `refreshFields`, `refreshCached`, `pyGetattr`, `cacheWrapper`, `readCached`, `cleanCached`, `dumpCached`, `loadFixtureCached` (Code/CachedAttr) |
| `db/*/triggers.py` `CREATE TRIGGER .. FOR EACH ROW` under upserts, REPLACE and TRUNCATE | `upsertOps`, `Engine.upsert`, `replaceOps`, `Engine.replaceQuietly`, `Engine.replace`, `Db.truncate` (Sql/Upsert) |
| `db/*/triggers.py` `CREATE TRIGGER .. FOR EACH ROW` under `ON DELETE CASCADE` and `SET NULL` | `ForeignRef.ops`, `follow`, `Engine.chain`, `Db.sweep`, `Engine.execRefs` (Sql/Cascade) |
| what `after delete` triggers see of `delete()` (`dependencies.py` 274-400, `denorms.py` 355-368, 436-439): Django's `Collector` | `ModelRef.points`, `Collector.canFast`, `Collector.relate`, `Collector.collect`, `Gathered.stmts`, `Engine.runAll`, `Engine.deleteObjects`, `Engine.deletions` (Code/Collector) |
| what `after delete` triggers see of `manage.py flush` (`dependencies.py` 274-400, `models.py` 7-20): Django's `sql_flush` | `Emptied.truncate`, `Engine.emptyOne`, `Engine.emptyAll`, `Engine.emptyDatabase` (Code/Emptied) |
| what triggers and `flush()` (`denorms.py` 593-635) write in transactions with savepoints: Django's nested `atomic()` | `NestServer`, `App.nestMove`, `App.nestMoves` (Code/Savepoints) |
| one session's program with nested `atomic()` blocks, exceptions, and `flush()` (`denorms.py` 593-635) in them | `Script`, `Ending`, `App.script` (Code/Scripts) |
| `DenormMiddleware.process_response` (`middleware.py` 22-27) after views that are such programs, with and without ATOMIC_REQUESTS | `WebRequest`, `WebRequest.called`, `WebRequest.shown`, `WebRequest.script` (Code/Views) |
| `flush()` and `pre_save` for multi-table children (`denorms.py` 593-635, `fields.py` 56-80, 159-178, 282-285): Django's `save_base`, `_save_parents` over any number of levels | `syncLevels`, `linkLevel`, `insertLevel`, `App.saveLevel`, `App.saveLevels`, `App.saveDeep`, `readLevels`, `App.saveObjectDeep`, `App.flushListDeep`, `App.flushDeep` (Code/DeepTables) |
| `denorms.py:flush` and the triggers' `INSERT` into `denorm_dirtyinstance`, among transactions | `App.move`, `App.moves`, `Db.merge`, `Locks.conflict` (Code/Transactions) |
| `fields.py:AggregateField.pre_save`, `denorms.py:rebuildall`, `flush` with managers that leave out rows | `SaveField.preSaveSeeing`, `App.saveSeeing`, `App.flushSeeing`, `App.rebuildallSeeing` (Code/Managers) |
| `denorms.py:flush`, `rebuildall` in projects with several databases or newer Django versions | `Site.flush`, `Site.rebuildall`, `App.flushIn` (Code/Databases) |
| `models.py:DirtyInstance` | `Mark`, `Db.dirty` (Sql/Db), `App.contentObject`; with texts: `TextMark`, `Disk`, `TextApp.*` (Code/TextFlush) |

Not modelled: `south_field_triple` and `south_migrations` (South), `CopyField` (an empty shell), `TriggerFilterQuery`/`TriggerWhereNode` internals, messages
printed by `rebuildall(verbose)`, `_redirectFileDescriptors`, `denormalize` (only raises), `DirtyInstance.__str__`, `commit_manually` for old Django versions.
