import Verif.Code.Classes
/-!
# The constructor of @cached fields (fields.py:310-328)
-/
namespace Denorm

inductive CachedErr where
  | attributeError
deriving DecidableEq, Repr

/-- `for c, a, kw in self.func.depend: self.depend_on_related(*a, **kw)` (fields.py:316-317): one dependency for each entry, in their order;
AttributeError if the function has no attribute `depend`. -/
def cachedDependencies (func : Func) : Except CachedErr (List DepSpec) :=
  match func.depend with
  | none => .error .attributeError
  | some l => .ok l

/-- `CachedField.__init__(func, cache)` (fields.py:311-317), the arguments of the calls of `self.depend_on_related` it makes. `cache`: the truth
value of the cache object; `func` is missing when a migration rebuilds the field. -/
def cachedInit (func : Option Func) (cache : Bool) : Except CachedErr (List DepSpec) :=
  match func with
  | none => .ok []
  | some f => if cache then cachedDependencies f else .ok []

/-- The statement `@cached(cache)` above a function: what is then contributed to classes (`World.exec` with `keyField`). -/
def cachedStmt (func : Func) : Except CachedErr PyStmt :=
  match cachedInit (some func) true with
  | .ok specs => .ok (.keyField specs)
  | .error e => .error e

end Denorm
