import Verif.Spec.Flush
/-!
# Fields of a multi-table child

With multi-table inheritance (`class Thread(Post)`) an instance of the child has the fields of its parent as its own. They are stored in the parent's
table, in the row that the parent link of the child points to.
-/
namespace Denorm

/-- A `@denormalized` field of a multi-table child: its callback reads the columns `own` of the child's table and the inherited fields `inherited`.
`link` is the parent link (a OneToOneField of the child). -/
structure Inheriting where
  child : Model
  parent : Model
  link : Field
  field : Col
  skip : List String := []
  own : List Col
  inherited : List Col
  fn : List Val → List Val → Val

/-- The row of the parent's table that belongs to the child's row `r` (all NULL if there is none). -/
def Inheriting.parentRow (v : Inheriting) (db : Db) (r : Row) : Row :=
  match (db.rows v.parent.table).find? fun p => Val.sqlEq (p v.parent.pk) (r v.link.column) with
  | some p => p
  | none => fun _ => .null

/-- What the callback returns for the instance whose row in the child's table is `r`. -/
def Inheriting.value (v : Inheriting) (db : Db) (r : Row) : Val :=
  v.fn (v.own.map r) (v.inherited.map (v.parentRow db r))

def Inheriting.Fresh (v : Inheriting) (db : Db) (r : Row) : Prop := r v.field = v.value db r

instance (v : Inheriting) (db : Db) (r : Row) : Decidable (v.Fresh db r) := inferInstanceAs (Decidable (_ = _))

/-- The field declared as one would expect: without `@depend_on_related`, because only fields of the instance are read. -/
def Inheriting.denorm (v : Inheriting) : Denorm := .callback false v.child v.field v.skip []

/-- The field with `@depend_on_related(Parent, foreign_key=<parent link>)`. -/
def Inheriting.withParent (v : Inheriting) : Callback :=
  { model := v.child, field := v.field, skip := v.skip, own := v.own, deps := [⟨⟨v.child, v.parent, .forward v.link, []⟩, v.inherited⟩],
    fn := fun own related => match related with
      | [[p]] => v.fn own p
      | _ => v.fn own (v.inherited.map fun _ => .null) }

/-- The primary keys of the parent's table differ. -/
def Inheriting.ParentKeys (v : Inheriting) (db : Db) : Prop := (db.rows v.parent.table).Pairwise fun p q => p v.parent.pk ≠ q v.parent.pk

/-- Every out-of-date instance of the child has a dirty marker. -/
def Inheriting.StaleMarked (v : Inheriting) (db : Db) : Prop := ∀ r ∈ db.rows v.child.table, ¬ v.Fresh db r → Marked v.child db r

end Denorm
