import Verif.Spec.Declared
import Verif.Spec.Acyclic
/-!
# Which tables feed which

Independent of triggers: read off the declarations.
-/
namespace Denorm

/-- The tables on whose rows the stored value of a CountField, SumField or CacheKeyField depends. (`@denormalized` fields are not written by the
database.) -/
def Denorm.sources : Denorm → List TableName
  | .callback .. => []
  | .cacheKey _ _ deps => deps.flatMap fun d => d.other.table :: match d.rel with
    | .forwardM2M (.m2m m) | .backwardM2M (.m2m m) => [m.through]
    | .forwardM2M (.generic g) | .backwardM2M (.generic g) => [g.remoteTable]
    | _ => []
  | .aggregate a => [a.related.table]

/-- A change in table `t` can change a CountField, SumField or CacheKeyField in table `t'`, directly or through other such fields. -/
inductive Feeds (D : List Denorm) : TableName → TableName → Prop where
  | direct {dn t} : dn ∈ D → t ∈ dn.sources → Feeds D t dn.model.table
  | trans {t t' t''} : Feeds D t t' → Feeds D t' t'' → Feeds D t t''

/-- No table feeds itself. -/
def TablesAcyclic (D : List Denorm) : Prop := ∀ t, ¬ Feeds D t t

/-- With these triggers installed, an UPDATE that changes column `p.2` of table `p.1` can lead to an UPDATE of column `q.2` of table `q.1`, directly or
through others. -/
inductive Leads (E : Engine) : TableName × Col → TableName × Col → Prop where
  | direct {tr u c} : tr ∈ E.triggers → tr.event = .update → (tr.Unconditional ∨ c ∈ tr.fields) → Action.update u ∈ tr.actions →
      Leads E (tr.table, c) (u.table, u.col)
  | trans {p q r} : Leads E p q → Leads E q r → Leads E p r

/-- A statement on table `t` can lead to an UPDATE of column `q.2` of table `q.1`. -/
inductive Stirs (E : Engine) (t : TableName) : TableName × Col → Prop where
  | direct {tr u} : tr ∈ E.triggers → tr.table = t → Action.update u ∈ tr.actions → Stirs E t (u.table, u.col)
  | next {p q} : Stirs E t p → Leads E p q → Stirs E t q

/-- No table with triggers has the name of another one followed by an underscore and a number (triggers for GenericRelations are named so). -/
def TableNamesClear (D : List Denorm) : Prop := ∀ g ∈ generated D, ∀ g' ∈ generated D, ∀ n : Nat, g.table ≠ g'.table ++ "_" ++ toString n

/-- The statement succeeds, if the database's limit on trigger recursion is high enough, and with the same result for every such limit. -/
def Engine.Finishes (E : Engine) (s : Stmt) (db : Db) : Prop := ∃ db' N, ∀ fuel, N ≤ fuel → E.exec fuel s db = .ok db'

/-- The statement fails whatever the limit. -/
def Engine.Fails (E : Engine) (s : Stmt) (db : Db) : Prop := ∀ fuel, ∃ e, E.exec fuel s db = .error e

end Denorm
