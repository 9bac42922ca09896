import Verif.Sql.Db
/-!
# Model metadata

The part of Django's `_meta` that django-denorm reads.
-/
namespace Denorm

/-- An entry of `Model._meta.fields`. `target` is the `repr` of the model a ForeignKey/OneToOneField points to. -/
structure Field where
  name : String
  attname : String
  column : Col
  /-- declared on this model, not inherited from a multi-table parent (`f.model == model`, base.py:58) -/
  isLocal : Bool := true
  /-- `some r` for a ForeignKey or OneToOneField to the model with `repr` r (helpers.py:6-13, 21) -/
  target : Option String := none
deriving DecidableEq, Repr

/-- A ManyToManyField (its `attname` is its name). -/
structure M2M where
  attname : String
  target : String
  /-- `m2m_db_table()` -/
  through : TableName
  /-- `m2m_column_name()`: column pointing to the model holding the field -/
  colName : Col
  /-- `m2m_reverse_name()`: column pointing to the target model -/
  revName : Col
deriving DecidableEq, Repr

/-- An entry of `_meta.private_fields`: a GenericRelation, or (target `none`) a GenericForeignKey. -/
structure GenericRel where
  attname : String
  target : Option String
  /-- `object_id_field_name` -/
  objectIdField : Col
  /-- `content_type_field_name` -/
  ctFieldName : String
  /-- `remote_field.model._meta.db_table` -/
  remoteTable : TableName
  /-- `remote_field.model._meta.pk.column` -/
  remotePk : Col
  /-- local forward fields of the remote model, by attname (base.py:97) -/
  remoteFields : List Col
deriving DecidableEq, Repr

/-- A Django model class. `repr` identifies it. -/
structure Model where
  repr : String
  appLabel : String
  name : String
  /-- `_meta.db_table` -/
  table : TableName
  /-- `_meta.pk.model._meta.db_table` -/
  pkTable : TableName
  /-- `_meta.pk.get_attname_column()[1]` -/
  pk : Col
  /-- `ContentType.objects.get_for_model(model).pk` -/
  ct : Nat
  fields : List Field
  m2ms : List M2M := []
  privates : List GenericRel := []
  /-- class attribute `denorm_always_skip` (default `()`) -/
  alwaysSkip : List String := []
  proxy : Bool := false
  swapped : Bool := false
deriving DecidableEq, Repr

/-- `str.lower()`; only used to compare two `repr`s. -/
def lower (s : String) : String := String.ofList (s.toList.map Char.toLower)

end Denorm
