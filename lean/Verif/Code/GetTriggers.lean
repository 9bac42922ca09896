import Verif.Code.Trigger
/-!
# get_triggers of every dependency and denorm (dependencies.py, denorms.py)
-/
namespace Denorm

/-- A resolved dependency object (`DependOnRelated` after `setup`). -/
structure Dep where
  this : Model
  other : Model
  rel : Rel
  skip : List String := []
deriving DecidableEq, Repr

/-- Column of the intermediate (or generic target) table that identifies the `this_model` row, and the one that
identifies the other row (dependencies.py:168-181 and 348-361). -/
def m2mColumns (forward : Bool) : M2MLike → Col × Col
  | .m2m f => if forward then (f.colName, f.revName) else (f.revName, f.colName)
  | .generic g => if forward then (g.objectIdField, g.remotePk) else (g.remotePk, g.objectIdField)

def M2MLike.subject : M2MLike → Subject
  | .m2m f => .m2m f
  | .generic g => .generic g

/-- m2m branch of `CallbackDependOnRelated.get_triggers` (dependencies.py:345-409). -/
def callbackM2MTriggers (d : Dep) (forward : Bool) (f : M2MLike) : List PyTrigger :=
  let ct := d.this.ct
  let cols := m2mColumns forward f
  let actNew := Action.markValues ct .new cols.1 true
  let actOld := Action.markValues ct .old cols.1 true
  [ mkTrigger f.subject .update [actNew, actOld] ct d.skip,
    mkTrigger f.subject .insert [actNew] ct d.skip,
    mkTrigger f.subject .delete [actOld] ct d.skip ] ++
  match f with
  | .m2m m =>
    [ mkTrigger (.model d.other) .update
        [.markSelect ct cols.1 m.through cols.2 .new d.other.pk true] ct d.skip ]
  | .generic _ => []

/-- `CallbackDependOnRelated.get_triggers` (dependencies.py:274-411). -/
def Dep.callbackTriggers (d : Dep) : List PyTrigger :=
  let ct := d.this.ct
  match d.rel with
  | .forward f =>
    let actNew := Action.markSelect ct d.this.pk d.this.pkTable f.column .new d.other.pk false
    let actOld := Action.markSelect ct d.this.pk d.this.pkTable f.column .old d.other.pk false
    [ mkTrigger (.model d.other) .update [actNew] ct d.skip,
      mkTrigger (.model d.other) .insert [actNew] ct d.skip,
      mkTrigger (.model d.other) .delete [actOld] ct d.skip ]
  | .backward f =>
    -- line 324-330 selects from `self.field.model`'s table by its primary key; `find_fks(other, this)` looks the field up on
    -- `other`; for an inherited field `self.field.model` is the parent (not modelled: we take `other`)
    let actNew := Action.markSelect ct f.column d.other.table d.other.pk .new d.other.pk false
    let actOld := Action.markValues ct .old f.column false
    [ mkTrigger (.model d.other) .update [actNew, actOld] ct d.skip,
      mkTrigger (.model d.other) .insert [actNew] ct d.skip,
      mkTrigger (.model d.other) .delete [actOld] ct d.skip ]
  | .forwardM2M f => callbackM2MTriggers d true f
  | .backwardM2M f => callbackM2MTriggers d false f

/-- `UPDATE this SET fieldname = RANDOM() WHERE key`. -/
def randomUpdate (m : Model) (fieldname : Col) (key : Key) : Action :=
  .update ⟨m.table, fieldname, .random, key, []⟩

/-- m2m branch of `CacheKeyDependOnRelated.get_triggers` (dependencies.py:165-233). -/
def cacheKeyM2MTriggers (d : Dep) (fieldname : Col) (forward : Bool) (f : M2MLike) : List PyTrigger :=
  let ct := d.this.ct
  let cols := m2mColumns forward f
  let actNew := randomUpdate d.this fieldname (.eq d.this.pk .new cols.1)
  let actOld := randomUpdate d.this fieldname (.eq d.this.pk .old cols.1)
  [ mkTrigger f.subject .update [actNew, actOld] ct d.skip,
    mkTrigger f.subject .insert [actNew] ct d.skip,
    mkTrigger f.subject .delete [actOld] ct d.skip ] ++
  match f with
  | .m2m m =>
    [ mkTrigger (.model d.other) .update
        [randomUpdate d.this fieldname (.inSelect d.this.pk cols.1 m.through cols.2 .new d.other.pk)] ct d.skip ]
  | .generic _ => []

/-- `CacheKeyDependOnRelated.get_triggers` (dependencies.py:97-235). -/
def Dep.cacheKeyTriggers (d : Dep) (fieldname : Col) : List PyTrigger :=
  let ct := d.this.ct
  match d.rel with
  | .forward f =>
    let actNew := randomUpdate d.this fieldname (.eq f.column .new d.other.pk)
    let actOld := randomUpdate d.this fieldname (.eq f.column .old d.other.pk)
    [ mkTrigger (.model d.other) .update [actNew] ct d.skip,
      mkTrigger (.model d.other) .insert [actNew] ct d.skip,
      mkTrigger (.model d.other) .delete [actOld] ct d.skip ]
  | .backward f =>
    let actNew := randomUpdate d.this fieldname (.eq d.this.pk .new f.column)
    let actOld := randomUpdate d.this fieldname (.eq d.this.pk .old f.column)
    [ mkTrigger (.model d.other) .update [actNew, actOld] ct d.skip,
      mkTrigger (.model d.other) .insert [actNew] ct d.skip,
      mkTrigger (.model d.other) .delete [actOld] ct d.skip ]
  | .forwardM2M f => cacheKeyM2MTriggers d fieldname true f
  | .backwardM2M f => cacheKeyM2MTriggers d fieldname false f

/-- One keyword of a `filter=`/`exclude=` dict: column, lookup, value. `exact` with `None` is `IS NULL`. -/
structure Cond where
  col : Col
  lookup : Lookup := .exact
  value : Val
deriving DecidableEq, Repr

/-- All values of a condition. -/
def Cond.values (c : Cond) : List Val := c.value :: c.lookup.more

def Cond.toFilter (c : Cond) : Filter :=
  if c.lookup = .exact ∧ c.value = .null then .isNull c.col else .cmp c.col c.lookup c.value

/-- Inside a negated Q Django adds `AND col IS NOT NULL` for nullable columns, which makes the negation two-valued; we always
add it (for a non-nullable column it is vacuous). -/
def Cond.toNegFilters (c : Cond) : List Filter :=
  if c.lookup = .exact ∧ c.value = .null then [.isNull c.col]
  else [.cmp c.col c.lookup c.value, .not (.isNull c.col)]

/-- Conditions joined with AND. -/
def andAll : List Filter → Filter
  | [] => .tt
  | [f] => f
  | f :: g :: fs => .and f (andAll (g :: fs))

/-- `Q(**filter)` and `~Q(**exclude)` (denorms.py:406-407); an empty dict gives no condition. -/
def whereOf (filter exclude : List Cond) : Option Filter :=
  match filter.map Cond.toFilter ++ (if exclude = [] then [] else [.not (andAll (exclude.flatMap Cond.toNegFilters))]) with
  | [] => none
  | fs => some (andAll fs)

/-- What an aggregate adds up. -/
inductive Agg where
  | count
  | sum (field : Col)
deriving DecidableEq, Repr

/-- `get_increment_value` / `get_decrement_value` (denorms.py:469-477, 519-527). -/
def Agg.incr : Agg → SetExpr
  | .count => .plus .one
  | .sum f => .plus (.ref .new f)

def Agg.decr : Agg → SetExpr
  | .count => .minus .one
  | .sum f => .minus (.ref .old f)

/-- An `AggregateDenorm` over a ForeignKey manager: `fk` is the ForeignKey field on `related`. -/
structure AggDenorm where
  model : Model
  fieldname : Col
  related : Model
  fk : Field
  agg : Agg
  filter : List Cond := []
  exclude : List Cond := []
  skip : List String := []
deriving DecidableEq, Repr

def AggDenorm.guards (a : AggDenorm) (s : Side) : List Guard :=
  match whereOf a.filter a.exclude with
  | none => []
  | some f => [.filter s f]

/-- `UPDATE model SET field = field ± .. WHERE pk = NEW.fk AND <filter>` (denorms.py:393-433). -/
def AggDenorm.increment (a : AggDenorm) : Action :=
  .update ⟨a.model.table, a.fieldname, a.agg.incr, .eq a.model.pk .new a.fk.attname, a.guards .new⟩

def AggDenorm.decrement (a : AggDenorm) : Action :=
  .update ⟨a.model.table, a.fieldname, a.agg.decr, .eq a.model.pk .old a.fk.attname, a.guards .old⟩

/-- `AggregateDenorm.get_triggers`, ForeignKey case (denorms.py:371-442). -/
def AggDenorm.triggers (a : AggDenorm) : List PyTrigger :=
  [ mkTrigger (.model a.related) .update [a.increment, a.decrement] a.model.ct a.skip,
    mkTrigger (.model a.related) .insert [a.increment] a.model.ct a.skip,
    mkTrigger (.model a.related) .delete [a.decrement] a.model.ct a.skip ]

/-- An entry of `get_alldenorms()`. -/
inductive Denorm where
  /-- `@denormalized` field: `BaseCallbackDenorm` if `bulkUnsafe` (settings.DENORM_BULK_UNSAFE_TRIGGERS), else
  `CallbackDenorm` (fields.py:41-44) -/
  | callback (bulkUnsafe : Bool) (model : Model) (fieldname : Col) (skip : List String) (deps : List Dep)
  /-- CacheKeyField: `BaseCacheKeyDenorm` (fields.py:276) -/
  | cacheKey (model : Model) (fieldname : Col) (deps : List Dep)
  | aggregate (a : AggDenorm)
deriving DecidableEq, Repr

def Denorm.model : Denorm → Model
  | .callback _ m _ _ _ => m
  | .cacheKey m _ _ => m
  | .aggregate a => a.model

def Denorm.fieldname : Denorm → Col
  | .callback _ _ f _ _ => f
  | .cacheKey _ f _ => f
  | .aggregate a => a.fieldname

/-- The two triggers on the declaring model itself (CallbackDenorm.get_triggers, denorms.py:179-201). -/
def selfTriggers (m : Model) (skip : List String) : List PyTrigger :=
  let act := Action.markValues m.ct .new m.pk true
  [ mkTrigger (.model m) .update [act] m.ct skip,
    mkTrigger (.model m) .insert [act] m.ct skip ]

/-- `denorm.get_triggers(using)` (denorms.py:159-171, 179-203, 222-234, 371-442). -/
def Denorm.triggers : Denorm → List PyTrigger
  | .callback bulkUnsafe m _ skip deps =>
    (if bulkUnsafe then [] else selfTriggers m skip) ++ deps.flatMap Dep.callbackTriggers
  | .cacheKey _ f deps => deps.flatMap fun d => d.cacheKeyTriggers f
  | .aggregate a => a.triggers

/-- `build_triggerset` (denorms.py:582-590), from the result of `get_alldenorms()`. -/
def buildTriggerset (b : Backend) (alldenorms : List Denorm) : TriggerSet :=
  alldenorms.foldl (fun ts d => ts.append b d.triggers) []

/-- The triggers that `TriggerSet.install` creates (names not truncated; see `Code/Install.lean`). -/
def installedTriggers (b : Backend) (alldenorms : List Denorm) : List DbTrigger :=
  (buildTriggerset b alldenorms).map fun p => p.2.compile p.1

end Denorm
