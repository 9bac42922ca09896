import Verif.Code.Orm
/-!
# Content types

The triggers contain the number of a content type as a literal, taken from `ContentType.objects.get_for_model(..)` when `denorm_init` runs
(denorms.py:182, 245; dependencies.py:105, 282); flush() looks up the model of a marker in the content types of the database as they are when
it runs (models.py:18-20, denorms.py:629-635).

What is taken from Django: the content types are rows of a table, created by `migrate` and, after it has emptied all tables, by `manage.py flush` (also after
each TransactionTestCase); their numbers are not fixed. Content types are identified by tables here (a proxy model has the content type of its concrete model).
`DirtyInstance.content_type` is a ForeignKey: PostgreSQL, MySQL and, since Django 2.0, sqlite refuse a marker whose content type does not exist.
-/
namespace Denorm

/-- The model, with the number that the content type of table `t` has: `N t`. -/
def Model.numbered (N : TableName → Nat) (m : Model) : Model := { m with ct := N m.table }

def Dep.numbered (N : TableName → Nat) (d : Dep) : Dep := { d with this := d.this.numbered N, other := d.other.numbered N }

def Callback.numbered (N : TableName → Nat) (cb : Callback) : Callback :=
  { cb with model := cb.model.numbered N, deps := cb.deps.map fun d => { d with dep := d.dep.numbered N } }

/-- The declarations, as `get_triggers` sees them when the content types are numbered by `N`. -/
def Denorm.numbered (N : TableName → Nat) : Denorm → Denorm
  | .callback bulkUnsafe m f skip deps => .callback bulkUnsafe (m.numbered N) f skip (deps.map (Dep.numbered N))
  | .cacheKey m f deps => .cacheKey (m.numbered N) f (deps.map (Dep.numbered N))
  | .aggregate a => .aggregate { a with model := a.model.numbered N, related := a.related.numbered N }

def OrmModel.numbered (N : TableName → Nat) (om : OrmModel) : OrmModel :=
  ⟨om.model.numbered N, om.saved.map fun f => { f with kind := match f.kind with | .callback cb => .callback (cb.numbered N) | k => k }⟩

/-- The project when the content types are numbered by `N`, with the triggers that are in the database already. -/
def App.numbered (A : App) (N : TableName → Nat) : App := { A with models := A.models.map (OrmModel.numbered N) }

/-- A statement in a database that checks the ForeignKey from markers to content types; `cts` are the numbers that exist. Simplified: the check comes at
the end of the statement (in PostgreSQL and sqlite: of the transaction). `none`: the statement is refused. -/
def App.execChecked (A : App) (cts : List Nat) (s : Stmt) (db : Db) : Option Db :=
  match A.exec s db with
  | .error _ => none
  | .ok db' => if db'.dirty.all fun m => cts.contains m.ct then some db' else none

end Denorm
