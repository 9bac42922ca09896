import Verif.Code.Request
import Verif.Spec.Flush
import Verif.Spec.Legal
/-!
# Requests
-/
namespace Denorm

/-- The statements of a request are legal when they are executed, and the database sees to it that primary keys are unique. -/
structure LegalRequest (A : App) (S : FlushSettings) (cb : Callback) (r : Request) (db : Db) : Prop where
  view : LegalRun A.engine cb A.fuel r.view db
  viewKeys : KeysUnique A (A.runView r db)
  later : LegalRun A.engine cb A.fuel r.later (A.runMiddleware S r (A.runView r db)).1
  laterKeys : KeysUnique A (A.engine.run A.fuel r.later (A.runMiddleware S r (A.runView r db)).1)

/-- The same for all requests of a list. -/
def LegalRequests (A : App) (S : FlushSettings) (cb : Callback) : List Request → Db → Prop
  | [], _ => True
  | r :: rs, db => LegalRequest A S cb r db ∧ LegalRequests A S cb rs (A.serve S r db).1

end Denorm
