import Verif.Code.Databases
import Verif.Spec.Flush
/-!
# Which database is behind a setting
-/
namespace Denorm

/-- The database engines that come with Django (1.8 to 2.1) for the three kinds of databases that django-denorm supports. -/
def djangoEngines : List (String × Backend) :=
  [("django.db.backends.sqlite3", .sqlite), ("django.db.backends.mysql", .mysql), ("django.db.backends.postgresql", .postgresql),
   ("django.db.backends.postgresql_psycopg2", .postgresql), ("django.contrib.gis.db.backends.spatialite", .sqlite),
   ("django.contrib.gis.db.backends.mysql", .mysql), ("django.contrib.gis.db.backends.postgis", .postgresql)]

/-- The setting names an engine of Django's for the kind of database `b`. -/
def DbSettings.Is (s : DbSettings) (b : Backend) : Prop := (s.engine, b) ∈ djangoEngines

instance (s : DbSettings) (b : Backend) : Decidable (s.Is b) := by unfold DbSettings.Is; infer_instance

/-- The names at the end of an engine's path that tell what kind of database it is. -/
def engineNames : List (String × Backend) :=
  [("sqlite3", .sqlite), ("mysql", .mysql), ("postgresql", .postgresql), ("postgresql_psycopg2", .postgresql), ("postgis", .postgresql)]

end Denorm
