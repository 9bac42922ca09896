import Verif.Code.Orm
/-!
# flush() one database access at a time (denorms.py:593-635)

The same code as `App.flush`, cut where other sessions can come in between: before each query and each statement. Every access sees what is
committed at that moment (autocommit, or READ COMMITTED inside the transaction of save()).

Simplifications: a callback reads everything it reads at one moment; `qs.iterator()` reads the list of markers at one moment; the queries of
`'%s' % qs_unified` are left out, they have no effect.
-/
namespace Denorm

/-- Where flush() is. -/
inductive Pc where
  /-- `if not qs: break` -/
  | check
  /-- `qs.iterator()` -/
  | fetch
  /-- the loop over the markers, those left -/
  | loop (ms : List Mark)
  /-- save() of the instance of marker `m`, whose attributes are `mem`; `pre_save` of the fields `fs` is to come, then the UPDATE -/
  | saving (m : Mark) (om : OrmModel) (mem : Row) (fs : List SaveField) (ms : List Mark)
  /-- the UPDATE has matched no row; `pre_save` of the fields `fs` is to come, then the INSERT -/
  | inserting (m : Mark) (om : OrmModel) (mem : Row) (fs : List SaveField) (ms : List Mark)
  /-- `DirtyInstance.objects.filter(..).delete()` -/
  | deleting (m : Mark) (ms : List Mark)
  /-- flush() has returned -/
  | done
  /-- flush() has raised -/
  | failed (e : OrmErr)

/-- The next access of flush() to the database. -/
def App.flushStep (A : App) : Pc → Db → Pc × Db
  | .check, db => if db.dirty = [] then (.done, db) else (.fetch, db)
  | .fetch, db => (.loop (A.snapshot db), db)
  | .loop [], db => (.check, db)
  | .loop (m :: ms), db =>
    match A.contentObject db m with
    | .error e => (.failed e, db)
    | .ok none => (.deleting m ms, db)
    | .ok (some (om, r)) => (.saving m om r om.saved ms, db)
  | .saving m om mem (f :: fs) ms, db =>
    match f.preSave A om.model db false mem with
    | .ok v => (.saving m om (mem.set f.col v) fs ms, db)
    | .error e => (.failed e, db)
  | .saving m om mem [] ms, db =>
    if (db.rows om.model.table).any (isRowOf om.model (mem om.model.pk)) then
      match A.exec (saveUpdate om mem) db with
      | .ok db' => (.deleting m ms, db')
      | .error e => (.failed e, db)
    else (.inserting m om mem om.saved ms, db)
  | .inserting m om mem (f :: fs) ms, db =>
    match f.preSave A om.model db true mem with
    | .ok v => (.inserting m om (mem.set f.col v) fs ms, db)
    | .error e => (.failed e, db)
  | .inserting m om mem [] ms, db =>
    match A.exec (.insert om.model.table [mem]) db with
    | .ok db' => (.deleting m ms, db')
    | .error e => (.failed e, db)
  | .deleting m ms, db => (.loop ms, db.dropMarks m)
  | .done, db => (.done, db)
  | .failed e, db => (.failed e, db)

/-- What happens next: flush() goes on, or another session commits a statement. -/
inductive Turn where
  | flush
  | other (s : Stmt)

def App.turn (A : App) : Turn → Pc × Db → Pc × Db
  | .flush, st => A.flushStep st.1 st.2
  | .other s, st =>
    match A.exec s st.2 with
    | .ok db' => (st.1, db')
    | .error _ => st

/-- A schedule. -/
def App.turns (A : App) : List Turn → Pc × Db → Pc × Db
  | [], st => st
  | t :: ts, st => A.turns ts (A.turn t st)

end Denorm
