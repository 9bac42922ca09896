import Verif.Code.Scripts
/-!
# Requests whose views are programs

A server that answers one request after the other, with `DenormMiddleware` (middleware.py:12-36). What is taken from Django: a view's exception becomes a response before
`process_response` is called; with ATOMIC_REQUESTS the view runs in `atomic()`.
-/
namespace Denorm

/-- A request: what its view does, and whether ATOMIC_REQUESTS is set. -/
structure WebRequest where
  view : Script
  atomic : Bool

/-- The view as it is called. -/
def WebRequest.called (r : WebRequest) : Script := if r.atomic then .atomic r.view else r.view

/-- The view, with its exception made a response. -/
def WebRequest.shown (r : WebRequest) : Script := .handle r.called .skip

/-- Then `process_response` (middleware.py:22-27) calls flush(), with these limits on trigger recursion and passes; if it raises, this is logged, or becomes an error page. `H`: what
the project's own code does during this flush(). Simplification: nothing is written after `process_response` (see `App.serve` in Code/Request). -/
def WebRequest.script (r : WebRequest) (H : Hooks) (n k : Nat) : Script := .seq r.shown (.handle (.flushWith H n k) .skip)

end Denorm
