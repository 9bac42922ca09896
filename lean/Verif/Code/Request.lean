import Verif.Code.Hooks
/-!
# flush() after requests

`DenormMiddleware` (middleware.py:12-36) and the setting DENORM_FLUSH_AFTER_REQUEST (`__init__.py:5-14`), in a server that answers one request after the other.

What is taken from Django: a view's exception becomes a response before `process_response` is called, in all versions; with ATOMIC_REQUESTS the view runs in a transaction that is
rolled back in this case; the content of a streaming response is produced, and the middleware classes listed before this one see the response, after `process_response`;
`request_finished` is sent when the response has been closed, after all of this.
-/
namespace Denorm

/-- How a project asks for flush() to be called. -/
structure FlushSettings where
  /-- `DenormMiddleware` is in MIDDLEWARE -/
  middleware : Bool
  /-- the value of DENORM_FLUSH_AFTER_REQUEST; `none`: not set -/
  flushAfterRequest : Option Bool
deriving DecidableEq, Repr

/-- `do_flush` is connected to `request_finished` (`__init__.py:10-14`). -/
def FlushSettings.connected (S : FlushSettings) : Bool := S.flushAfterRequest.isSome && S.flushAfterRequest.getD false

/-- What happens in one request.
* `view`: the statements of the view and of what runs before it,
* `atomic`, `raises`: it is in a transaction; it ends with an exception,
* `later`: the statements executed after `process_response`,
* `hooks`, `passes`: what the models do during a flush, and the passes until the server gives up on the request. -/
structure Request where
  view : List Stmt
  atomic : Bool
  raises : Bool
  later : List Stmt
  hooks : Hooks
  passes : Nat

/-- The database when the middleware sees the response. -/
def App.runView (A : App) (r : Request) (db : Db) : Db :=
  if r.atomic && r.raises then db else A.engine.run A.fuel r.view db

/-- `process_response` (middleware.py:22-27): an exception is logged, or becomes an error page; the request goes on. `none`: there is no such middleware. -/
def App.runMiddleware (A : App) (S : FlushSettings) (r : Request) (db : Db) : Db × Option Outcome :=
  if S.middleware then ((A.flushWith r.hooks r.passes db).1, some (A.flushWith r.hooks r.passes db).2) else (db, none)

/-- `do_flush` (`__init__.py:13-14`). -/
def App.requestFinished (A : App) (S : FlushSettings) (r : Request) (db : Db) (o : Option Outcome) : Db × Option Outcome :=
  if S.connected then ((A.flushWith r.hooks r.passes db).1, some (A.flushWith r.hooks r.passes db).2) else (db, o)

/-- One request: the database afterwards, and how the last call of flush() has ended (`none`: there was none). A request whose `process_response` does not come to an
end is not answered. -/
def App.serve (A : App) (S : FlushSettings) (r : Request) (db : Db) : Db × Option Outcome :=
  match A.runMiddleware S r (A.runView r db) with
  | (db2, some .running) => (db2, some .running)
  | (db2, o) => A.requestFinished S r (A.engine.run A.fuel r.later db2) o

/-- One request after the other. -/
def App.serveAll (A : App) (S : FlushSettings) : List Request → Db → Db
  | [], db => db
  | r :: rs, db => A.serveAll S rs (A.serve S r db).1

end Denorm
