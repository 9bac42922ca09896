import Verif.Code.Install
/-!
# Filters with an empty list: `filter={'status__in': []}`

`AggregateDenorm.get_triggers` compiles the conditions itself (denorms.py:404-415: `inc_query.where.as_sql(..)`), where a query would let Django's compiler do it. What is
taken from Django: `In.process_rhs` raises `EmptyResultSet` when the list is empty (`django/db/models/lookups.py`), and `WhereNode.as_sql`
(`django/db/models/sql/where.py`) catches it for its children. A query that is evaluated catches what reaches the top (`SQLCompiler.execute_sql`), and has no rows;
`get_triggers` does not.
-/
namespace Denorm

/-- One keyword of `filter=`/`exclude=`. -/
inductive Kw where
  | cond (c : Cond)
  /-- `name__in=[]` -/
  | emptyIn (col : Col)
deriving DecidableEq, Repr

/-- Django's `EmptyResultSet`. -/
inductive EmptyResultSet where
  | raised
deriving DecidableEq, Repr

/-- What compiling a part of a WHERE clause gives: SQL, the empty string, or EmptyResultSet. -/
abbrev Compiled := Except EmptyResultSet (Option Filter)

/-- The loop of `WhereNode.as_sql` over the children of an AND: `empty_needed` is 1, `full` is `full_needed`, `acc` is `result`. -/
def asSqlLoop (negated : Bool) : Nat → List Filter → List Compiled → Compiled
  | _, [], [] => .ok none
  | _, f :: fs, [] => .ok (some (if negated then .not (andAll (f :: fs)) else andAll (f :: fs)))
  | _, _, .error e :: _ => if negated then .ok none else .error e
  | full, acc, .ok (some f) :: cs => asSqlLoop negated full (acc ++ [f]) cs
  | full, acc, .ok none :: cs =>
    if full - 1 = 0 then (if negated then .error .raised else .ok none) else asSqlLoop negated (full - 1) acc cs

/-- `WhereNode.as_sql` of a node with connector AND. -/
def asSql (negated : Bool) (children : List Compiled) : Compiled := asSqlLoop negated children.length [] children

/-- A keyword of `filter=`. -/
def Kw.compile : Kw → Compiled
  | .cond c => .ok (some c.toFilter)
  | .emptyIn _ => .error .raised

/-- A keyword of `exclude=`, with the `IS NOT NULL` that Django adds. -/
def Kw.compileNeg : Kw → List Compiled
  | .cond c => c.toNegFilters.map fun f => .ok (some f)
  | .emptyIn c => [.error .raised, .ok (some (.not (.isNull c)))]

/-- `inc_query.add_q(Q(**self.filter)); inc_query.add_q(~Q(**self.exclude)); inc_query.where.as_sql(..)` (denorms.py:405-409). -/
def whereSql (filter exclude : List Kw) : Compiled :=
  asSql false (filter.map Kw.compile ++ (if exclude = [] then [] else [asSql true (exclude.flatMap Kw.compileNeg)]))

/-- An aggregate as it is declared: `base` without its conditions. -/
structure KwAgg where
  base : AggDenorm
  filter : List Kw := []
  exclude : List Kw := []
deriving DecidableEq, Repr

/-- `AggregateDenorm.get_triggers`, ForeignKey case (denorms.py:393-442); the conditions of the two updates differ in the alias only. -/
def KwAgg.triggers (k : KwAgg) : Except EmptyResultSet (List PyTrigger) :=
  match whereSql k.filter k.exclude with
  | .error e => .error e
  | .ok w =>
    let guards (s : Side) : List Guard := match w with | none => [] | some f => [.filter s f]
    let a := k.base
    let inc := Action.update ⟨a.model.table, a.fieldname, a.agg.incr, .eq a.model.pk .new a.fk.attname, guards .new⟩
    let dec := Action.update ⟨a.model.table, a.fieldname, a.agg.decr, .eq a.model.pk .old a.fk.attname, guards .old⟩
    .ok [ mkTrigger (.model a.related) .update [inc, dec] a.model.ct a.skip,
      mkTrigger (.model a.related) .insert [inc] a.model.ct a.skip,
      mkTrigger (.model a.related) .delete [dec] a.model.ct a.skip ]

/-- An entry of `get_alldenorms()`. -/
inductive KwDecl where
  | plain (d : Denorm)
  | agg (k : KwAgg)
deriving DecidableEq, Repr

def KwDecl.triggers : KwDecl → Except EmptyResultSet (List PyTrigger)
  | .plain d => .ok d.triggers
  | .agg k => k.triggers

/-- The loop of `build_triggerset` (denorms.py:582-590). -/
def buildKwFrom (b : Backend) : TriggerSet → List KwDecl → Except EmptyResultSet TriggerSet
  | ts, [] => .ok ts
  | ts, d :: ds =>
    match d.triggers with
    | .error e => .error e
    | .ok l => buildKwFrom b (ts.append b l) ds

def buildKw (b : Backend) (ds : List KwDecl) : Except EmptyResultSet TriggerSet := buildKwFrom b [] ds

/-- `install_triggers` (denorms.py:575-579): the databases, and whether the call returned. -/
def installKw (b : Backend) (hash : String → String) (draws : Nat → String) (fails : Nat → Bool) (using_ : String) (ds : List KwDecl) (s : Server) :
    Server × Bool :=
  match buildKw b ds with
  | .error _ => (s, false)
  | .ok ts => transact b fails using_ (installStmts b hash draws 0 ts) s

end Denorm
