import Verif.Sql.Db
/-!
# The moments of a running statement
-/
namespace Denorm

/-- States reached while a statement runs. -/
inductive Engine.Reach (E : Engine) : List Item → Db → List Item → Db → Prop where
  | refl (W db) : Engine.Reach E W db W db
  | step {it W new db db' W2 db2} : E.step it db = .ok (new, db') → Engine.Reach E (new ++ W) db' W2 db2 →
      Engine.Reach E (it :: W) db W2 db2

end Denorm
