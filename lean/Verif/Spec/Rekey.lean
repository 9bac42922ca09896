import Verif.Spec.Affected
import Verif.Spec.Cascade
/-!
# Histories in which primary keys change

Nothing is required of a statement but what the database checks row by row: primary keys are there and different. References may point nowhere
in between, as they may inside a transaction whose constraints are checked at its end.
-/
namespace Denorm

/-- No two rows of a table have the same primary key. -/
def KeysApart (cb : Callback) (db : Db) : Prop := ∀ p ∈ cb.pks, (db.rows p.1).Pairwise fun r r' => r p.2 ≠ r' p.2

/-- Row `r` refers to a row that is not there: by its ForeignKey, or through a link of the many-to-many relation. -/
def Dep.Dangles (d : Dep) (db : Db) (r : Row) : Prop :=
  match d.rel with
  | .forward f => r f.column ≠ .null ∧ ∀ o ∈ db.rows d.other.table, o d.other.pk ≠ r f.column
  | .forwardM2M (.m2m m) => ∃ l ∈ db.rows m.through, Val.sqlEq (l m.colName) (r d.this.pk) = true ∧ l m.revName ≠ .null ∧
      ∀ o ∈ db.rows d.other.table, o d.other.pk ≠ l m.revName
  | .backwardM2M (.m2m m) => ∃ l ∈ db.rows m.through, Val.sqlEq (l m.revName) (r d.this.pk) = true ∧ l m.colName ≠ .null ∧
      ∀ o ∈ db.rows d.other.table, o d.other.pk ≠ l m.colName
  | _ => False

instance (d : Dep) (db : Db) (r : Row) : Decidable (d.Dangles db r) := by unfold Dep.Dangles; split <;> infer_instance

/-- The foreign keys that the relations of the callback consist of refer to rows that are there: what foreign key constraints say. -/
def RefsIntact (cb : Callback) (db : Db) : Prop := ∀ r ∈ db.rows cb.model.table, ∀ d ∈ cb.deps, ¬ d.dep.Dangles db r

/-- What the database checks when a row has been written: primary keys. Besides, a row that is inserted into the other table of a
many-to-many relation is linked to afterwards. -/
def KeyedChange (cb : Callback) (ch : Change) (db : Db) : Prop :=
  KeysOk cb db ∧ KeysApart cb db ∧ (ch.event = .insert → ∀ d ∈ cb.deps, d.dep.other.table = ch.table → Unlinked d.dep db ch.new)

instance (d : Dep) (db : Db) (o : Row) : Decidable (Unlinked d db o) :=
  decidable_of_iff (∀ p ∈ d.m2mTable, ∀ l ∈ db.rows p.1, ¬ Val.sqlEq (o d.other.pk) (l p.2.2) = true)
    ⟨fun h tbl c k hm => h (tbl, c, k) hm, fun h p hp => h p.1 p.2.1 p.2.2 hp⟩

instance (cb : Callback) (ch : Change) (db : Db) : Decidable (KeyedChange cb ch db) := by
  unfold KeyedChange KeysOk KeysApart; infer_instance

/-- A history of statements, each of whose row changes passes these checks. -/
def KeyedRun (E : Engine) (cb : Callback) (fuel : Nat) : List Stmt → Db → Prop
  | [], _ => True
  | s :: ss, db => (∀ p ∈ E.changesOf fuel s db, KeyedChange cb p.1 p.2) ∧
    match E.exec fuel s db with
    | .ok db' => KeyedRun E cb fuel ss db'
    | .error _ => KeyedRun E cb fuel ss db

instance decKeyedRun (E : Engine) (cb : Callback) (fuel : Nat) : ∀ (ss : List Stmt) (db : Db), Decidable (KeyedRun E cb fuel ss db)
  | [], _ => isTrue trivial
  | s :: ss, db =>
    have : Decidable (match E.exec fuel s db with
        | .ok db' => KeyedRun E cb fuel ss db'
        | .error _ => KeyedRun E cb fuel ss db) :=
      match E.exec fuel s db with
      | .ok db' => decKeyedRun E cb fuel ss db'
      | .error _ => decKeyedRun E cb fuel ss db
    inferInstanceAs (Decidable (_ ∧ _))

/-- The foreign keys of the database clear no primary key. -/
def RefsKeepKeys (cb : Callback) (fs : List ForeignRef) : Prop := ∀ f ∈ fs, f.action = .setNull → ∀ p ∈ cb.pks, p.1 = f.table → p.2 ≠ f.col

/-- A history on a database whose foreign keys delete and clear rows: any DELETE, and INSERTs and UPDATEs whose row changes pass the checks. -/
def KeyedRefs (E : Engine) (cb : Callback) (fs : List ForeignRef) (fuel : Nat) : List Stmt → Db → Prop
  | [], _ => True
  | s :: ss, db => ((∀ t w, s ≠ .delete t w) → ∀ p ∈ E.changesOf fuel s db, KeyedChange cb p.1 p.2) ∧
    match E.execRefs fs fuel s db with
    | .ok db' => KeyedRefs E cb fs fuel ss db'
    | .error _ => KeyedRefs E cb fs fuel ss db

/-- The triggers can watch the primary keys: they are in no skip list. -/
def KeysWatched (cb : Callback) : Prop := Watchable cb.model cb.skip cb.model.pk ∧ ∀ d ∈ cb.deps,
  match d.dep.rel with
  | .forwardM2M (.generic _) => True
  | _ => Watchable d.dep.other d.dep.skip d.dep.other.pk

instance (cb : Callback) : Decidable (KeysWatched cb) := by
  unfold KeysWatched
  have : ∀ d : DepRead, Decidable (match d.dep.rel with
    | .forwardM2M (.generic _) => True
    | _ => Watchable d.dep.other d.dep.skip d.dep.other.pk) := fun d => by split <;> infer_instance
  infer_instance

end Denorm
