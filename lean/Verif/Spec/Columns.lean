import Verif.Code.GetTriggers
/-!
# The columns that exist and the columns that triggers mention
-/
namespace Denorm

/-- The models `Ms` give table `t` a column `c`: a field that is declared on a model with that table (inherited fields are stored in the parent's
table), or one of the two columns of a many-to-many table. -/
def TableColumn (Ms : List Model) (t : TableName) (c : Col) : Prop :=
  ∃ m ∈ Ms, (m.table = t ∧ ∃ f ∈ m.fields, f.isLocal = true ∧ f.column = c) ∨ ∃ x ∈ m.m2ms, x.through = t ∧ (c = x.colName ∨ c = x.revName)

instance (Ms : List Model) (t : TableName) (c : Col) : Decidable (TableColumn Ms t c) := by unfold TableColumn; infer_instance

/-- The columns in a condition. -/
def Filter.cols : Filter → List Col
  | .tt => []
  | .cmp c _ _ => [c]
  | .isNull c => [c]
  | .not f => f.cols
  | .and f g => f.cols ++ g.cols

/-- The columns, with their tables, in the right operand of a SET clause; `on` is the trigger's table, which NEW and OLD are rows of. -/
def Term.mentions (on : TableName) : Term → List (TableName × Col)
  | .one => []
  | .ref _ c => [(on, c)]
  | .scalar sel t k _ c => [(t, sel), (t, k), (on, c)]

def SetExpr.mentions (on : TableName) : SetExpr → List (TableName × Col)
  | .plus t => t.mentions on
  | .minus t => t.mentions on
  | .random => []

/-- The columns in the condition that selects the rows of `upd` to be updated. -/
def Key.mentions (on upd : TableName) : Key → List (TableName × Col)
  | .eq k _ c => [(upd, k), (on, c)]
  | .inSelect k sel t wk _ c => [(upd, k), (t, sel), (t, wk), (on, c)]

def Guard.mentions (on : TableName) : Guard → List (TableName × Col)
  | .filter _ f => f.cols.map fun c => (on, c)
  | .someRow t f k _ c => (f.cols.map fun x => (t, x)) ++ [(t, k), (on, c)]

/-- The columns of the project's tables in an action. -/
def Action.mentions (on : TableName) : Action → List (TableName × Col)
  | .markValues _ _ c _ => [(on, c)]
  | .markSelect _ sel t k _ c _ => [(t, sel), (t, k), (on, c)]
  | .update u => (u.table, u.col) :: u.expr.mentions on ++ u.key.mentions on u.table ++ u.guards.flatMap (Guard.mentions on)

/-- The columns in a trigger. -/
def DbTrigger.mentions (tr : DbTrigger) : List (TableName × Col) :=
  ((tr.fields ++ tr.ctField.toList).map fun c => (tr.table, c)) ++ tr.actions.flatMap (Action.mentions tr.table)

/-- The triggers only mention columns that exist. -/
def ColumnsExist (Ms : List Model) (trs : List DbTrigger) : Prop := ∀ tr ∈ trs, ∀ p ∈ tr.mentions, TableColumn Ms p.1 p.2

instance (Ms : List Model) (trs : List DbTrigger) : Decidable (ColumnsExist Ms trs) := by unfold ColumnsExist; infer_instance

/-- A model of the project, no field of which is stored under another name than Django's default (`db_column`). -/
structure PlainColumns (Ms : List Model) (m : Model) : Prop where
  mem : m ∈ Ms
  names : ∀ f ∈ m.fields, f.isLocal = true → f.column = f.attname
  pk : ∃ f ∈ m.fields, f.isLocal = true ∧ f.column = m.pk

/-- The model itself has a field stored in column `c`. -/
def Model.HasColumn (m : Model) (c : Col) : Prop := ∃ f ∈ m.fields, f.isLocal = true ∧ f.column = c

instance (m : Model) (c : Col) : Decidable (m.HasColumn c) := by unfold Model.HasColumn; infer_instance

/-- The GenericRelation leads to a model of the project with the columns that it names. -/
def GenericRel.Found (Ms : List Model) (g : GenericRel) : Prop :=
  ∃ r, PlainColumns Ms r ∧ r.table = g.remoteTable ∧ r.pk = g.remotePk ∧ g.remoteFields = (r.fields.filter (·.isLocal)).map (·.attname) ∧
    r.HasColumn g.objectIdField ∧ r.HasColumn (g.ctFieldName ++ "_id")

/-- The relation of a dependency is a field that the model itself declares. -/
def Dep.Local (Ms : List Model) (d : Dep) : Prop :=
  PlainColumns Ms d.this ∧ d.this.pkTable = d.this.table ∧ PlainColumns Ms d.other ∧
  match d.rel with
  | .forward f => f ∈ d.this.fields ∧ f.isLocal = true
  | .backward f => f ∈ d.other.fields ∧ f.isLocal = true
  | .forwardM2M (.m2m x) => x ∈ d.this.m2ms
  | .backwardM2M (.m2m x) => x ∈ d.other.m2ms
  | .forwardM2M (.generic g) => g.Found Ms
  | .backwardM2M (.generic g) => g.Found Ms

/-- A declaration of a project without `db_column`, whose relations are not inherited from a multi-table parent. -/
def Denorm.Local (Ms : List Model) : Denorm → Prop
  | .callback _ m _ _ deps => PlainColumns Ms m ∧ ∀ d ∈ deps, d.Local Ms
  | .cacheKey m f deps => m.HasColumn f ∧ ∀ d ∈ deps, d.this = m ∧ d.Local Ms
  | .aggregate a => PlainColumns Ms a.model ∧ PlainColumns Ms a.related ∧ a.model.HasColumn a.fieldname ∧ a.fk ∈ a.related.fields ∧
      a.fk.isLocal = true ∧ (∀ c, a.agg = .sum c → a.related.HasColumn c) ∧ ∀ x ∈ a.filter ++ a.exclude, a.related.HasColumn x.col

end Denorm
