import Verif.Code.Transactions
import Verif.Spec.Flush
/-!
# What is asked of transactions
-/
namespace Denorm

/-- Primary keys are unique. -/
def KeysDistinct (S : Schema) (db : Db) : Prop := ∀ t, ((db.rows t).map fun r => r (S.key t)).Nodup

/-- A statement that respects primary keys: an UPDATE leaves them alone, an INSERT brings new ones. -/
def KeepsKeys (S : Schema) (db : Db) : Stmt → Prop
  | .update t _ σ => ∀ x r, σ x r (S.key t) = r (S.key t)
  | .insert t rs => ((db.rows t ++ rs).map fun r => r (S.key t)).Nodup
  | .delete _ _ => True

/-- What the sessions may do, at every moment of the schedule: execute statements that respect primary keys and many-to-many constraints, as far as the session itself
can see. When flush() comes to an instance, the field is one it handles well (`Flushable`). -/
def Orderly (A : App) (S : Schema) (D : List Denorm) (om : OrmModel) (cb : Callback) : List Move → DbServer → Prop
  | [], _ => True
  | μ :: μs, X =>
    (match μ with
      | .stmt i s => LegalStmt A.engine cb (X.sight S i).1 s ∧ KeepsKeys S (X.sight S i).1 s
      | .flushOne _ => Flushable A D om cb X.db ∧ KeysUnique A X.db
      | _ => True) ∧
    Orderly A S D om cb μs (A.move S X μ)

/-- The related rows of `r` as far as the callback reads them, together with their primary keys and, for a many-to-many relation, the keys of the links. -/
def keyedView (S : Schema) (d : DepRead) (db : Db) (r : Row) : List ((Val × Val) × List (List Val)) :=
  match d.dep.m2mTable with
  | some (tbl, c, k) => ((db.rows tbl).filter fun l => Val.sqlEq (l c) (r d.dep.this.pk)).flatMap fun l =>
      [((l (S.key tbl), l k), seen (S.key d.dep.other.table :: d.reads)
        ((db.rows d.dep.other.table).filter fun o => Val.sqlEq (o d.dep.other.pk) (l k)))]
  | none => [((.null, .null), seen (S.key d.dep.otherTable :: d.reads) (relatedRows d.dep db r))]

/-- The same for all dependencies. -/
def Callback.keyed (S : Schema) (cb : Callback) (db : Db) (r : Row) : List (List ((Val × Val) × List (List Val))) :=
  cb.deps.map fun d => keyedView S d db r

/-- The markers a session has added and not committed. -/
def Txn.added (T : Txn) : List Mark := T.view.dirty.drop T.base.dirty.length

/-- flush() has brought the instance `m` up to date in the committed state `db`. The uncommitted changes of `T` would not put it out of date again unnoticed: `T` has added
a marker for it, or deletes it, or the instance sees the same related rows with these changes as without. -/
def Undisturbed (S : Schema) (cb : Callback) (m : Mark) (db : Db) (T : Txn) : Prop :=
  ∀ r ∈ db.rows cb.model.table, m = ⟨cb.model.ct, r cb.model.pk⟩ →
    m ∈ T.added ∨ (∀ r' ∈ (Db.merge S T.base T.view db).rows cb.model.table, r' cb.model.pk ≠ r cb.model.pk) ∨
    cb.keyed S (Db.merge S T.base T.view db) r = cb.keyed S db r

/-- flush() never handles an instance that is disturbed by uncommitted changes. -/
def FlushApart (A : App) (S : Schema) (cb : Callback) : List Move → DbServer → Prop
  | [], _ => True
  | μ :: μs, X =>
    (match μ with
      | .flushOne m => A.flushWaits S m X = false → ∀ db', A.flushOne m X.db = .ok db' → ∀ T, some T ∈ X.sessions → Undisturbed S cb m db' T
      | _ => True) ∧
    FlushApart A S cb μs (A.move S X μ)

/-- flush() is at work only while no session has uncommitted changes. -/
def FlushAlone (A : App) (S : Schema) : List Move → DbServer → Prop
  | [], _ => True
  | μ :: μs, X =>
    (match μ with
      | .flushOne _ => ∀ T ∈ X.sessions, T = none
      | _ => True) ∧
    FlushAlone A S μs (A.move S X μ)

/-- The related rows refer to the instance: a ForeignKey followed backwards, or a GenericRelation. (The value to be marked is in the row that changes.) -/
def ByValue (cb : Callback) : Prop :=
  ∀ d ∈ cb.deps, (∃ f, d.dep.rel = .backward f) ∨ ∃ g, d.dep.rel = .forwardM2M (.generic g)

/-- The foreign keys by which related rows are found: a ForeignKey of the instance, and the side of a many-to-many link that leads to the other model. `keep`: the columns of
that table that say whose related row it is. -/
structure Reference where
  table : TableName
  keep : List Col
  col : Col
  target : Model
deriving DecidableEq

def Dep.reference (d : Dep) : Option Reference :=
  match d.rel, d.m2mTable with
  | .forward f, _ => some ⟨d.this.table, [], f.column, d.other⟩
  | _, some (tbl, c, k) => some ⟨tbl, [c], k, d.other⟩
  | _, none => none

/-- These foreign keys have constraints in the database. They refer to primary keys. -/
def Constrained (S : Schema) (cb : Callback) : Prop :=
  ∀ d ∈ cb.deps, ∀ p ∈ d.dep.reference, (p.col, p.target.table) ∈ S.refs p.table ∧ S.key p.target.table = p.target.pk

/-- The statement does not hand over a many-to-many link from one instance to another. -/
def LinksStay (cb : Callback) : Stmt → Prop
  | .update t _ σ => ∀ d ∈ cb.deps, ∀ p ∈ d.dep.reference, p.table = t → ∀ c ∈ p.keep, ∀ x r, σ x r c = r c
  | _ => True

/-- Nor do triggers and save(). -/
def LinksKept (A : App) (cb : Callback) : Prop :=
  ∀ d ∈ cb.deps, ∀ p ∈ d.dep.reference, ∀ c ∈ p.keep, ¬ Managed A.engine p.table c ∧ ∀ om ∈ A.models, om.model.table = p.table → c ∉ om.cols

instance (S : Schema) (cb : Callback) (m : Mark) (db : Db) (T : Txn) : Decidable (Undisturbed S cb m db T) := by
  unfold Undisturbed; infer_instance

instance decidableFlushApart (A : App) (S : Schema) (cb : Callback) : ∀ μs X, Decidable (FlushApart A S cb μs X)
  | [], _ => inferInstanceAs (Decidable True)
  | μ :: μs, X => by
    have := decidableFlushApart A S cb μs (A.move S X μ)
    unfold FlushApart
    have h : ∀ (m : Mark) (db : Db), Decidable (∀ T, some T ∈ X.sessions → Undisturbed S cb m db T) := fun m db =>
      decidable_of_iff (∀ o ∈ X.sessions, ∀ T ∈ o, Undisturbed S cb m db T)
        ⟨fun h T hT => h _ hT T rfl, fun h o ho T hT => h T (by cases hT; exact ho)⟩
    have h' : ∀ m, Decidable (∀ db', A.flushOne m X.db = .ok db' → ∀ T, some T ∈ X.sessions → Undisturbed S cb m db' T) := fun m =>
      match he : A.flushOne m X.db with
      | .error _ => .isTrue fun _ h => by cases h
      | .ok d => match h m d with
        | .isTrue p => .isTrue fun _ h => by cases h; exact p
        | .isFalse p => .isFalse fun q => p (q d rfl)
    cases μ <;> infer_instance

instance decidableFlushAlone (A : App) (S : Schema) : ∀ μs X, Decidable (FlushAlone A S μs X)
  | [], _ => inferInstanceAs (Decidable True)
  | μ :: μs, X => by
    have := decidableFlushAlone A S μs (A.move S X μ)
    unfold FlushAlone
    have h : ∀ T : Option Txn, Decidable (T = none) := fun T => match T with
      | none => .isTrue rfl
      | some _ => .isFalse nofun
    cases μ <;> infer_instance

end Denorm
