import Verif.Code.Install
/-!
# Triggers in a database over time
-/
namespace Denorm

/-- The trigger was created by django-denorm. -/
def CatTrigger.own (t : CatTrigger) : Bool :=
  match t.body with
  | .denorm _ => true
  | .other _ => false

/-- What the databases of a project can look like after any sequence of `install_triggers()` and `drop_triggers()` calls, with any declarations,
failing anywhere, on any of the databases, with anything other users of the databases do in between, short of creating triggers with
django-denorm's own bodies. -/
inductive Administered (b : Backend) : Server → Prop
  | start {s : Server} : (∀ a, ∀ t ∈ s a, t.own = false) → Administered b s
  | others {s s' : Server} : Administered b s → (∀ a, ∀ t ∈ s' a, t.own = true → t ∈ s a) → Administered b s'
  | install {s : Server} (hash : String → String) (draws : Nat → String) (fails : Nat → Bool) (using_ : String) (D : List Denorm) :
    Administered b s → Administered b (installTriggers b hash draws fails using_ D s).1
  | drop {s : Server} (fails : Nat → Bool) (using_ : String) : Administered b s → Administered b (dropTriggers b fails using_ s).1

/-- A name that django-denorm takes for its own: `denorm` and at least one more character, whatever the case in sqlite; in MySQL `denorm_`. -/
def Reserved (b : Backend) (name : String) : Prop :=
  match b with
  | .sqlite => "denorm".toList <+: name.toList.map Char.toLower ∧ 7 ≤ name.length
  | .postgresql => "denorm".toList <+: name.toList ∧ 7 ≤ name.length
  | .mysql => "denorm_".toList <+: name.toList

/-- The triggers that `install_triggers()` should create: one for each entry of the trigger set. -/
def expectedTriggers (b : Backend) (hash : String → String) (draws : Nat → String) : Nat → TriggerSet → Catalog
  | _, [] => []
  | n, p :: ts => createdTrigger b hash (draws n) p :: expectedTriggers b hash draws (n + 1) ts

/-- The django-denorm triggers of a catalogue. -/
def Catalog.denormTriggers (c : Catalog) : List DbTrigger :=
  c.filterMap fun t => match t.body with
    | .denorm d => some d
    | .other _ => none

/-- The database with the django-denorm triggers of a catalogue. -/
def Catalog.engine (c : Catalog) (b : Backend) (rand : Nat → Int) : Engine := ⟨b, c.denormTriggers, rand⟩

end Denorm
