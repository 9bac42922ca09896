import Verif.Props.Flush
/-!
# Where flush() leaves stale values (C01, C45)

flush() saves an instance and then deletes its markers. Markers that the save itself creates for the same instance are deleted too,
although that save changed what the callbacks look at.
-/
namespace Denorm

/-- C45, when what is read is computed first. Two callback fields of one model, the second of which reads the first: after flush() both
are right. (`Flushable` includes that the field which is read is declared before the one that reads it.) -/
theorem C45_same_instance_partial {A : App} {D : List Denorm} {om : OrmModel} {cb1 cb2 : Callback} {db db' : Db}
    (h1 : Flushable A D om cb1 db) (h2 : Flushable A D om cb2 db) (_hreads : cb1.field ∈ cb2.own) (hu : KeysUnique A db)
    (hK1 : KeysOk cb1 db) (hK2 : KeysOk cb2 db) (hS1 : StaleMarked cb1 db) (hS2 : StaleMarked cb2 db)
    {n : Nat} (h : A.flush n db = .ok (some db')) :
    ∀ r ∈ db'.rows om.model.table, r cb1.field = cb1.value db' r ∧ r cb2.field = cb2.value db' r := fun r hr =>
  ⟨(C01_flush_partial h1 hu hK1 hS1 h).2 r (h1.model ▸ hr), (C01_flush_partial h2 hu hK2 hS2 h).2 r (h2.model ▸ hr)⟩

namespace Order
open Demo (fld fkf row)
set_option maxRecDepth 100000

/-- Doc(title, upper, label): `upper` is computed from `title`, `label` from `upper`. -/
def doc : Model :=
  { repr := "<class 'app.Doc'>", appLabel := "app", name := "Doc", table := "doc", pkTable := "doc", pk := "id", ct := 21,
    fields := [fld "id", fld "title", fld "upper", fld "label"] }
def same : List Val → List (List (List Val)) → Val
  | [v], _ => v
  | _, _ => .null
def upper : Callback := { model := doc, field := "upper", own := ["title"], deps := [], fn := same }
def label : Callback := { model := doc, field := "label", own := ["upper"], deps := [], fn := same }
def decls : List Denorm := [upper.denorm, label.denorm]
def engine (b : Backend) : Engine := ⟨b, installedTriggers b decls, fun _ => 0⟩
def goodOrm : OrmModel := ⟨doc, [⟨"title", .plain⟩, ⟨"upper", .callback upper⟩, ⟨"label", .callback label⟩]⟩
/-- The same model with the two fields declared the other way round. -/
def badOrm : OrmModel := ⟨doc, [⟨"title", .plain⟩, ⟨"label", .callback label⟩, ⟨"upper", .callback upper⟩]⟩
def app (b : Backend) (om : OrmModel) : App := ⟨engine b, [om], fun l => l, fun db _ _ => db.draws, 100⟩
def drow (id : Int) (t u l : String) : Row := row [("id", .int id), ("title", .text t), ("upper", .text u), ("label", .text l)]
/-- The title has just been changed to Z. -/
def db : Db := ⟨fun t => if t = "doc" then [drow 1 "Z" "A" "A"] else [], [⟨21, .int 1⟩], 0⟩

theorem agree : ∀ b, AgreeOnWatch b decls
  | .sqlite => by decide
  | .mysql => by decide
  | .postgresql => by decide

theorem noUpdates (b : Backend) : ∀ tr ∈ (engine b).triggers, tr.updates = [] := by cases b <;> decide

theorem noReentry (b : Backend) : NoReentry (engine b) :=
  noReentry_of (fun _ => 0) (fun tr htr u hu => by simp [noUpdates b tr htr] at hu)

theorem not_reached (b : Backend) {om : OrmModel} {t : TableName} {c : Col} : ¬ Reached (engine b) om t c := by
  intro h
  cases h with
  | direct htr _ _ _ hu => have := DbTrigger.mem_updates.2 hu; simp [noUpdates b _ htr] at this
  | next _ htr _ _ _ hu => have := DbTrigger.mem_updates.2 hu; simp [noUpdates b _ htr] at this

theorem wd_upper (b : Backend) : WellDeclared b decls upper where
  declared := by simp [decls]
  agree := fun _ hg => covered_of_agree (agree b) (List.mem_flatMap.2 ⟨_, by decide, hg⟩)
  table := by decide
  own := by decide
  this := by decide
  watched := by decide
  keys := by decide
  links := by decide

theorem wd_label (b : Backend) : WellDeclared b decls label where
  declared := by simp [decls]
  agree := fun _ hg => covered_of_agree (agree b) (List.mem_flatMap.2 ⟨_, by decide, hg⟩)
  table := by decide
  own := by decide
  this := by decide
  watched := by decide
  keys := by decide
  links := by decide

theorem keysSafe (b : Backend) {om : OrmModel} (h : om = goodOrm ∨ om = badOrm) : KeysSafe (app b om) where
  kept := by rcases h with rfl | rfl <;> cases b <;> decide
  free := fun _ _ _ _ h => not_reached b h

theorem flushable_upper (b : Backend) (db : Db) : Flushable (app b goodOrm) decls goodOrm upper db where
  installed := rfl
  declared := wd_upper b
  noReentry := noReentry b
  found := by cases b <;> rfl
  model := rfl
  cols := by decide
  order := ⟨[⟨"title", .plain⟩], _, rfl, by decide⟩
  own := fun _ _ h => not_reached b h
  deps := by intro d hd; simp [upper] at hd
  pks := by cases b <;> decide
  safe := keysSafe b (.inl rfl)

theorem flushable_label (b : Backend) (db : Db) : Flushable (app b goodOrm) decls goodOrm label db where
  installed := rfl
  declared := wd_label b
  noReentry := noReentry b
  found := by cases b <;> rfl
  model := rfl
  cols := by decide
  order := ⟨[⟨"title", .plain⟩, ⟨"upper", .callback upper⟩], [], rfl, by decide⟩
  own := fun _ _ h => not_reached b h
  deps := by intro d hd; simp [label] at hd
  pks := by cases b <;> decide
  safe := keysSafe b (.inl rfl)

/-- C45 in the right order. -/
example (b : Backend) : ∃ db', (app b goodOrm).flush 1 db = .ok (some db') ∧ (db'.rows "doc").map (fun r => r "label") = [.text "Z"] ∧
    ∀ r ∈ db'.rows "doc", r "upper" = upper.value db' r ∧ r "label" = label.value db' r := by
  obtain ⟨db', h, h1⟩ : ∃ db', (app b goodOrm).flush 1 db = .ok (some db') ∧ (db'.rows "doc").map (fun r => r "label") = [.text "Z"] :=
    flush_of (by cases b <;> decide +kernel)
  exact ⟨db', h, h1, C45_same_instance_partial (flushable_upper b _) (flushable_label b _) (by decide)
    (by unfold KeysUnique; cases b <;> decide) (by unfold KeysOk; decide) (by unfold KeysOk; decide) (by unfold StaleMarked; decide)
    (by unfold StaleMarked; decide) h⟩

end Order

set_option maxRecDepth 100000

/-- What a user may assume before flush(): the triggers of the declarations are installed, the field is declared well, its model saves
it, keys are unique, and every out-of-date value is marked. -/
structure Ready (b : Backend) (A : App) (D : List Denorm) (cb : Callback) (db : Db) : Prop where
  backend : A.engine.backend = b
  installed : Installed A.engine D
  declared : WellDeclared b D cb
  noReentry : NoReentry A.engine
  saved : ∃ om ∈ A.models, om.model = cb.model ∧ ∃ f ∈ om.saved, f.col = cb.field ∧ f.kind = .callback cb
  safe : KeysSafe A
  keys : KeysUnique A db
  keysOk : KeysOk cb db
  stale : StaleMarked cb db

/-- **C45 (and with it C01) is violated** on every backend when a field is computed from one that is declared after it: flush() returns
and the field is out of date. The fields are a direct translation of two `@denormalized` methods, each reading only its own row. -/
theorem C45_violated_by_order (b : Backend) : ∃ (A : App) (D : List Denorm) (cb1 cb2 : Callback) (db db' : Db),
    Ready b A D cb1 db ∧ Ready b A D cb2 db ∧ cb1.model = cb2.model ∧ cb1.field ∈ cb2.own ∧ cb1.deps = [] ∧ cb2.deps = [] ∧
    A.flush 1 db = .ok (some db') ∧ ∃ r ∈ db'.rows cb2.model.table, r cb2.field ≠ cb2.value db' r := by
  have h : ∃ db', (Order.app b Order.badOrm).flush 1 Order.db = .ok (some db') ∧
      ∃ r ∈ db'.rows "doc", r "label" ≠ Order.label.value db' r := flush_of (by cases b <;> decide +kernel)
  obtain ⟨db', h1, h2⟩ := h
  have hu : KeysUnique (Order.app b Order.badOrm) Order.db := by unfold KeysUnique; cases b <;> decide
  refine ⟨Order.app b Order.badOrm, Order.decls, Order.upper, Order.label, Order.db, db', ?_, ?_, rfl, by decide, rfl, rfl, h1, h2⟩
  · exact ⟨rfl, rfl, Order.wd_upper b, Order.noReentry b, ⟨_, List.mem_singleton.2 rfl, rfl, ⟨"upper", .callback Order.upper⟩,
      by simp [Order.badOrm], rfl, rfl⟩, Order.keysSafe b (.inr rfl), hu, by unfold KeysOk; decide, by unfold StaleMarked; decide⟩
  · exact ⟨rfl, rfl, Order.wd_label b, Order.noReentry b, ⟨_, List.mem_singleton.2 rfl, rfl, ⟨"label", .callback Order.label⟩,
      by simp [Order.badOrm], rfl, rfl⟩, Order.keysSafe b (.inr rfl), hu, by unfold KeysOk; decide, by unfold StaleMarked; decide⟩

/-! ## An instance that refers to itself -/

namespace Nodes
open Demo (fld fkf row)
set_option maxRecDepth 100000

def parent : Field := fkf "parent" "<class 'app.Node'>"
/-- Node(parent, depth), where `depth` is one more than the parent's. -/
def node : Model :=
  { repr := "<class 'app.Node'>", appLabel := "app", name := "Node", table := "node", pkTable := "node", pk := "id", ct := 31,
    fields := [fld "id", parent, fld "depth"] }
def depthFn (_ : List Val) : List (List (List Val)) → Val
  | [[[.int n]]] => .int (n + 1)
  | _ => .int 0
def depthDep : DepRead := ⟨⟨node, node, .forward parent, []⟩, ["depth"]⟩
def depth : Callback := { model := node, field := "depth", own := [], deps := [depthDep], fn := depthFn }
def decls : List Denorm := [depth.denorm]
def engine (b : Backend) : Engine := ⟨b, installedTriggers b decls, fun _ => 0⟩
def nodeOrm : OrmModel := ⟨node, [⟨"parent_id", .plain⟩, ⟨"depth", .callback depth⟩]⟩
def app (b : Backend) (arrange : List Mark → List Mark := fun l => l) : App := ⟨engine b, [nodeOrm], arrange, fun db _ _ => db.draws, 100⟩
def nrow (id : Int) (p : Val) (d : Int) : Row := row [("id", .int id), ("parent_id", p), ("depth", .int d)]

theorem agree : ∀ b, AgreeOnWatch b decls
  | .sqlite => by decide
  | .mysql => by decide
  | .postgresql => by decide

theorem noUpdates (b : Backend) : ∀ tr ∈ (engine b).triggers, tr.updates = [] := by cases b <;> decide

theorem noReentry (b : Backend) : NoReentry (engine b) :=
  noReentry_of (fun _ => 0) (fun tr htr u hu => by simp [noUpdates b tr htr] at hu)

theorem not_reached (b : Backend) {om : OrmModel} {t : TableName} {c : Col} : ¬ Reached (engine b) om t c := by
  intro h
  cases h with
  | direct htr _ _ _ hu => have := DbTrigger.mem_updates.2 hu; simp [noUpdates b _ htr] at this
  | next _ htr _ _ _ hu => have := DbTrigger.mem_updates.2 hu; simp [noUpdates b _ htr] at this

theorem wd_depth (b : Backend) : WellDeclared b decls depth where
  declared := by simp [decls]
  agree := fun _ hg => covered_of_agree (agree b) (List.mem_flatMap.2 ⟨_, by decide, hg⟩)
  table := by decide
  own := by decide
  this := by decide
  watched := by decide
  keys := by decide
  links := by decide

theorem keysSafe (b : Backend) (arr : List Mark → List Mark) : KeysSafe (app b arr) where
  kept := by cases b <;> simp only [app] <;> decide
  free := fun _ _ _ _ h => not_reached b h

/-- A node whose parent is itself. -/
def selfDb : Db := ⟨fun t => if t = "node" then [nrow 1 (.int 1) 0] else [], [⟨31, .int 1⟩], 0⟩

/-- Without such nodes the field is `Flushable`: a tree of any shape. -/
theorem flushable (b : Backend) (arr : List Mark → List Mark) {db : Db} (hno : NoSelfRelation node depthDep.dep db) :
    Flushable (app b arr) decls nodeOrm depth db where
  installed := rfl
  declared := wd_depth b
  noReentry := noReentry b
  found := by cases b <;> rfl
  model := rfl
  cols := by decide
  order := ⟨[⟨"parent_id", .plain⟩], [], rfl, by decide⟩
  own := fun _ _ h => not_reached b h
  deps := by
    intro d hd
    simp only [depth, List.mem_singleton] at hd
    subst hd
    have ht : ∀ c, c ≠ "depth" → ¬ Touched (app b arr) "node" c := by
      rintro c hc ⟨om, hom, h | h⟩
      · have : om = nodeOrm := by simpa [app] using hom
        subst this
        have := h.2
        simp [OrmModel.denormCols, nodeOrm, Kind.computed] at this
        exact hc this
      · exact not_reached b h
    refine ⟨fun _ _ h => not_reached b h, .inr ⟨rfl, hno, ?_, ?_⟩⟩
    · intro p hp
      simp only [depthDep, Dep.looks, List.mem_singleton] at hp
      subst hp
      exact ht _ (by decide)
    · intro c hc
      simp only [depthDep, Dep.ownKeys, List.mem_singleton] at hc
      subst hc
      exact ht _ (by decide)
  pks := by cases b <;> simp only [app] <;> decide
  safe := keysSafe b arr

end Nodes

/-- **C01 is violated** on every backend by an instance that is related to itself: flush() returns although the value is out of date
(it can never be right). -/
theorem C01_violated_self_reference (b : Backend) : ∃ (A : App) (D : List Denorm) (cb : Callback) (db db' : Db),
    Ready b A D cb db ∧ A.flush 1 db = .ok (some db') ∧ ∃ r ∈ db'.rows cb.model.table, r cb.field ≠ cb.value db' r := by
  have h : ∃ db', (Nodes.app b).flush 1 Nodes.selfDb = .ok (some db') ∧
      ∃ r ∈ db'.rows "node", r "depth" ≠ Nodes.depth.value db' r := flush_of (by cases b <;> decide +kernel)
  obtain ⟨db', h1, h2⟩ := h
  exact ⟨Nodes.app b, Nodes.decls, Nodes.depth, Nodes.selfDb, db', ⟨rfl, rfl, Nodes.wd_depth b, Nodes.noReentry b,
    ⟨Nodes.nodeOrm, by simp [Nodes.app], rfl, ⟨"depth", .callback Nodes.depth⟩, by simp [Nodes.nodeOrm], rfl, rfl⟩, Nodes.keysSafe b _,
    by unfold KeysUnique; cases b <;> decide, by unfold KeysOk; decide, by unfold StaleMarked; decide⟩, h1, h2⟩

/-! ## An aggregate in between -/

namespace Team
open Demo (fld fkf row)
set_option maxRecDepth 100000

/-- Team(total), where `total = SumField('player_set', field='score')`. -/
def team : Model :=
  { repr := "<class 'app.Team'>", appLabel := "app", name := "Team", table := "team", pkTable := "team", pk := "id", ct := 41,
    fields := [fld "id", fld "total"] }
def playerTeam : Field := fkf "team" "<class 'app.Team'>"
/-- Player(team, base, score, share): `score` is computed from `base`, `share` from the team's total. No instance depends on itself, and
no cycle of fields exists: base → score → total → share. -/
def player : Model :=
  { repr := "<class 'app.Player'>", appLabel := "app", name := "Player", table := "player", pkTable := "player", pk := "id", ct := 42,
    fields := [fld "id", playerTeam, fld "base", fld "score", fld "share"] }
def total : AggDenorm := { model := team, fieldname := "total", related := player, fk := playerTeam, agg := .sum "score" }
def scoreFn : List Val → List (List (List Val)) → Val
  | [.int n], _ => .int (2 * n)
  | _, _ => .int 0
def shareFn (_ : List Val) : List (List (List Val)) → Val
  | [[[v]]] => v
  | _ => .int 0
def score : Callback := { model := player, field := "score", own := ["base"], deps := [], fn := scoreFn }
def share : Callback := { model := player, field := "share", own := [], deps := [⟨⟨player, team, .forward playerTeam, []⟩, ["total"]⟩], fn := shareFn }
def decls : List Denorm := [.aggregate total, score.denorm, share.denorm]
def engine (b : Backend) : Engine := ⟨b, installedTriggers b decls, fun _ => 0⟩
def teamOrm : OrmModel := ⟨team, [⟨"total", .aggregate⟩]⟩
def playerOrm : OrmModel := ⟨player, [⟨"team_id", .plain⟩, ⟨"base", .plain⟩, ⟨"score", .callback score⟩, ⟨"share", .callback share⟩]⟩
def app (b : Backend) : App := ⟨engine b, [teamOrm, playerOrm], fun l => l, fun db _ _ => db.draws, 100⟩
def trow (id t : Int) : Row := row [("id", .int id), ("total", .int t)]
def prow (id team base score share : Int) : Row :=
  row [("id", .int id), ("team_id", .int team), ("base", .int base), ("score", .int score), ("share", .int share)]
/-- The player's base has just been raised from 0 to 5. -/
def db : Db := ⟨fun t => if t = "team" then [trow 1 0] else if t = "player" then [prow 1 1 5 0 0] else [], [⟨42, .int 1⟩], 0⟩

theorem agree : ∀ b, AgreeOnWatch b decls
  | .sqlite => by decide
  | .mysql => by decide
  | .postgresql => by decide

theorem noReentry (b : Backend) : NoReentry (engine b) := by
  apply noReentry_of (fun n => if n = "denorm_after_row_update_on_team" then 0 else 1)
  cases b <;> decide

theorem wd_share (b : Backend) : WellDeclared b decls share where
  declared := by simp [decls]
  agree := fun _ hg => covered_of_agree (agree b) (List.mem_flatMap.2 ⟨_, by decide, hg⟩)
  table := by decide
  own := by decide
  this := by decide
  watched := by decide
  keys := by decide
  links := by decide

theorem reached (b : Backend) : ∀ om ∈ (app b).models, ∀ t c, Reached (engine b) om t c → (t, c) ∈ [("team", "total")] := by
  intro om hom t c hr
  refine reached_within _ ?_ hr
  simp only [app, List.mem_cons, List.not_mem_nil, or_false] at hom
  rcases hom with rfl | rfl <;> cases b <;> decide

theorem keysSafe (b : Backend) : KeysSafe (app b) where
  kept := by cases b <;> decide
  free := by
    intro om hom om' hom' hr
    have := reached b om' hom' _ _ hr
    clear hr; revert om
    cases b <;> decide

end Team

/-- **C01 is violated** on every backend by fields that depend on each other through an aggregate, although no instance is related to
itself and the fields form no cycle: saving the player changes their score, the triggers change the team's total and mark the player
again, and flush() deletes that marker together with the one it has just handled. -/
theorem C01_violated_through_aggregate (b : Backend) : ∃ (A : App) (D : List Denorm) (cb : Callback) (db db' : Db),
    Ready b A D cb db ∧ (∀ d ∈ cb.deps, d.dep.otherTable ≠ cb.model.table) ∧
    A.flush 1 db = .ok (some db') ∧ ∃ r ∈ db'.rows cb.model.table, r cb.field ≠ cb.value db' r := by
  have h : ∃ db', (Team.app b).flush 1 Team.db = .ok (some db') ∧
      ∃ r ∈ db'.rows "player", r "share" ≠ Team.share.value db' r := flush_of (by cases b <;> decide +kernel)
  obtain ⟨db', h1, h2⟩ := h
  exact ⟨Team.app b, Team.decls, Team.share, Team.db, db', ⟨rfl, rfl, Team.wd_share b, Team.noReentry b,
    ⟨Team.playerOrm, by simp [Team.app], rfl, ⟨"share", .callback Team.share⟩, by simp [Team.playerOrm], rfl, rfl⟩, Team.keysSafe b,
    by unfold KeysUnique; cases b <;> decide, by unfold KeysOk; decide, by unfold StaleMarked; decide⟩, by decide, h1, h2⟩

end Denorm
