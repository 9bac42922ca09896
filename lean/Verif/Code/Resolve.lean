import Verif.Code.Meta
/-!
# Finding the relation of a dependency (helpers.py, dependencies.py:37-92)
-/
namespace Denorm

/-- `find_fks(from_model, to_model, fk_name)` (helpers.py:15-32). `fk_name = None` and `''` are the same (`if fk_name`).
Simplification: `fk_name` is a string (a field object is replaced by its attname before the call, line 29). -/
def findFks (from_ to : Model) (fkName : Option String) : List Field :=
  let fkeys := from_.fields.filter fun x => x.target.isSome
  let fkeys := fkeys.filter fun x => match x.target with
    | some t => lower t == lower to.repr
    | none => false
  match fkName with
  | none => fkeys
  | some n => if n = "" then fkeys else fkeys.filter fun x => x.attname == n || x.attname == n ++ "_id"

/-- What `find_m2ms` returns: ManyToManyFields and GenericRelations. -/
inductive M2MLike where
  | m2m (f : M2M)
  | generic (g : GenericRel)
deriving DecidableEq, Repr

def M2MLike.attname : M2MLike → String
  | .m2m f => f.attname
  | .generic g => g.attname

/-- `repr(remote_field_model(x))`; a GenericForeignKey has no remote model, `repr(None)`. -/
def M2MLike.targetRepr : M2MLike → String
  | .m2m f => f.target
  | .generic g => g.target.getD "None"

/-- `find_m2ms(from_model, to_model, m2m_name)` (helpers.py:35-56). -/
def findM2Ms (from_ to : Model) (m2mName : Option String) : List M2MLike :=
  let m2ms := from_.m2ms.map .m2m ++ from_.privates.map .generic
  let m2ms := m2ms.filter fun x => lower x.targetRepr == lower to.repr
  match m2mName with
  | none => m2ms
  | some n => if n = "" then m2ms else m2ms.filter fun x => x.attname == n

/-- The `type` argument / resolved type of a dependency. -/
inductive RelType where
  | forward | backward | forwardM2M | backwardM2M
deriving DecidableEq, Repr

/-- A candidate: `(type, field)`. -/
inductive Rel where
  | forward (f : Field)
  | backward (f : Field)
  | forwardM2M (f : M2MLike)
  | backwardM2M (f : M2MLike)
deriving DecidableEq, Repr

def Rel.type : Rel → RelType
  | .forward _ => .forward
  | .backward _ => .backward
  | .forwardM2M _ => .forwardM2M
  | .backwardM2M _ => .backwardM2M

inductive ResolveErr where
  | ambiguous (n : Nat)
  | noRelation
deriving DecidableEq, Repr

/-- The candidate list of `DependOnRelated.resolved_model` (dependencies.py:71-81). -/
def candidates (this other : Model) (fkName : Option String) (type : Option RelType) : List Rel :=
  let both := decide (other ≠ this) || type.isSome
  let cs := (findFks this other fkName).map .forward
  let cs := cs ++ (if both then (findFks other this fkName).map .backward else [])
  let cs := cs ++ (findM2Ms this other fkName).map .forwardM2M
  let cs := cs ++ (if both then (findM2Ms other this fkName).map .backwardM2M else [])
  cs.filter fun x => match type with
    | none => true
    | some t => decide (t = x.type)

/-- `DependOnRelated.resolved_model` (dependencies.py:64-92). -/
def resolvedModel (this other : Model) (fkName : Option String) (type : Option RelType) : Except ResolveErr Rel :=
  match candidates this other fkName type with
  | [] => .error .noRelation
  | [c] => .ok c
  | cs => .error (.ambiguous cs.length)

end Denorm
