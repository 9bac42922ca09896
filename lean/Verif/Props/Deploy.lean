import Verif.Lemmas.Deploy
import Verif.Lemmas.Inherited
import Verif.Props.Rebuild
import Verif.DemoApp
/-!
# Putting a new version of a project into production (C71)
-/
namespace Denorm

section
variable {b : Backend} {hash : String → String} {draws : Nat → String} {fails fails' : Nat → Bool} {rand : Nat → Int} {tables : List TableName} {change : Db → Db}
  {A : App} {D : List Denorm} {n : Nat} {p p' : Production}

/-- The steps of a deployment that succeeds. -/
theorem deploy_steps (h : p.deploy b hash draws fails fails' rand tables change A D n = some p') : ∃ s1 s2,
    dropTriggers b fails defaultAlias p.server = (s1, true) ∧
    installTriggers b hash draws fails' defaultAlias D (s1.set defaultAlias (remake b tables (s1 defaultAlias))) = (s2, true) ∧ p'.server = s2 ∧
    App.rebuildall { A with engine := (s2 defaultAlias).engine b rand } D none none n (change p.db) = .ok (some p'.db) := by
  unfold Production.deploy at h
  obtain ⟨p1, h1, h⟩ := Option.bind_eq_some_iff.1 h
  obtain ⟨p2, h2, h⟩ := Option.bind_eq_some_iff.1 h
  unfold Production.drop at h1
  split at h1
  · rename_i s1 hd
    cases h1
    unfold Production.init at h2
    split at h2
    · rename_i s2 hi
      cases h2
      unfold Production.rebuild at h
      split at h
      · rename_i db hr
        cases h
        exact ⟨s1, s2, hd, hi, rfl, hr⟩
      · cases h
    · cases h2
  · cases h1

theorem installed_after_drop (hs : Administered b p.server) {s1 s2 : Server} (h1 : dropTriggers b fails defaultAlias p.server = (s1, true))
    (h2 : installTriggers b hash draws fails' defaultAlias D (s1.set defaultAlias (remake b tables (s1 defaultAlias))) = (s2, true)) (fuel : Nat) (st : Stmt) (db : Db) :
    ((s2 defaultAlias).engine b rand).exec fuel st db = Engine.exec ⟨b, installedTriggers b D, rand⟩ fuel st db := by
  have hn := denormTriggers_none (c := remake b tables (s1 defaultAlias)) (by
    intro t ht
    refine C32_none_left hs h1 t ?_
    cases b with
    | sqlite => exact (List.mem_filter.1 ht).1
    | postgresql => exact ht
    | mysql => exact ht)
  have h4 : (s2 defaultAlias).denormTriggers = Catalog.denormTriggers (expectedTriggers b hash draws 0 (buildTriggerset b D)) := by
    rw [C33_installed h2, Server.set_same, Server.set_same, Catalog.denormTriggers, List.filterMap_append]
    simp only [Catalog.denormTriggers] at hn
    rw [hn]
    rfl
  unfold Catalog.engine
  rw [h4]
  exact exec_expected fuel st db

theorem rebuild_same {s : Server} (he : ∀ fuel st db, ((s defaultAlias).engine b rand).exec fuel st db = Engine.exec ⟨b, installedTriggers b D, rand⟩ fuel st db) (db : Db) :
    App.rebuildall { A with engine := (s defaultAlias).engine b rand } D none none n db =
      App.rebuildall { A with engine := ⟨b, installedTriggers b D, rand⟩ } D none none n db := by
  unfold App.rebuildall
  exact deploy_flush_same (A := { A with engine := ⟨b, installedTriggers b D, rand⟩ }) (A' := { A with engine := (s defaultAlias).engine b rand })
    (fun s db => he A.fuel s db) rfl rfl rfl rfl _ _

/-- A deployment succeeds when its steps do; for `denorm_rebuild` this can be seen from the new declarations. -/
theorem deploy_succeeds (hs : Administered b p.server) (h1 : (dropTriggers b fails defaultAlias p.server).2 = true)
    (h2 : (installTriggers b hash draws fails' defaultAlias D ((dropTriggers b fails defaultAlias p.server).1.set defaultAlias
      (remake b tables ((dropTriggers b fails defaultAlias p.server).1 defaultAlias)))).2 = true) {db : Db}
    (h3 : App.rebuildall { A with engine := ⟨b, installedTriggers b D, rand⟩ } D none none n (change p.db) = .ok (some db)) :
    ∃ p', p.deploy b hash draws fails fails' rand tables change A D n = some p' ∧ p'.db = db := by
  obtain ⟨s1, e1⟩ : ∃ s1, dropTriggers b fails defaultAlias p.server = (s1, true) := ⟨_, Prod.ext rfl h1⟩
  rw [e1] at h2
  obtain ⟨s2, e2⟩ : ∃ s2, installTriggers b hash draws fails' defaultAlias D (s1.set defaultAlias (remake b tables (s1 defaultAlias))) = (s2, true) := ⟨_, Prod.ext rfl h2⟩
  refine ⟨⟨s2, db⟩, ?_, rfl⟩
  unfold Production.deploy Production.drop
  rw [e1]
  simp only [Option.bind_some, Production.migrate, Production.init, e2, Production.rebuild, Production.engine]
  rw [rebuild_same (installed_after_drop hs e1 e2), h3]

/-- C71, the triggers: whatever was installed before, after a deployment every statement has exactly the effects that the new declarations ask for; the triggers
of removed declarations are gone. -/
theorem C71_triggers (hs : Administered b p.server) (h : p.deploy b hash draws fails fails' rand tables change A D n = some p') (fuel : Nat) (st : Stmt) (db : Db) :
    (p'.engine b rand).exec fuel st db = Engine.exec ⟨b, installedTriggers b D, rand⟩ fuel st db := by
  obtain ⟨s1, s2, h1, h2, h3, -⟩ := deploy_steps h
  unfold Production.engine
  rw [h3]
  exact installed_after_drop hs h1 h2 fuel st db

/-- C71, `@denormalized` fields that one save makes right (`Flushable`): whatever the database contains after the migration (say, the default of a new column in every row) and whatever
was installed before, after a deployment every row holds what the callback returns, and after every history of statements that follows it is right or marked. Missing: CountField and SumField, see
`C71_violated_count`. -/
theorem C71_values_partial (hs : Administered b p.server) (h : p.deploy b hash draws fails fails' rand tables change A D n = some p')
    {om : OrmModel} {cb : Callback} (hF : Flushable { A with engine := ⟨b, installedTriggers b D, rand⟩ } D om cb (change p.db))
    (hu : KeysUnique { A with engine := ⟨b, installedTriggers b D, rand⟩ } (change p.db)) (hK : KeysOk cb (change p.db)) :
    p'.db.dirty = [] ∧ (∀ r ∈ p'.db.rows cb.model.table, r cb.field = cb.value p'.db r) ∧
    ∀ fuel ss, LegalRun ⟨b, installedTriggers b D, rand⟩ cb fuel ss p'.db → ∀ r ∈ ((p'.engine b rand).run fuel ss p'.db).rows cb.model.table,
      r cb.field = cb.value ((p'.engine b rand).run fuel ss p'.db) r ∨ Marked cb.model ((p'.engine b rand).run fuel ss p'.db) r := by
  have he := fun fuel st db => C71_triggers hs h fuel st db
  obtain ⟨s1, s2, -, -, h3, h4⟩ := deploy_steps h
  have hr : App.rebuildall { A with engine := ⟨b, installedTriggers b D, rand⟩ } D none none n (change p.db) = .ok (some p'.db) := by
    rw [← h4, rebuild_same]
    intro fuel st db
    have := he fuel st db
    unfold Production.engine at this
    rw [h3] at this
    exact this
  have hdn : cb.denorm ∈ D := hF.declared.declared
  have hG0 : Good { A with engine := ⟨b, installedTriggers b D, rand⟩ } D om cb ((change p.db).addMarks (rebuildMarks (rebuildModels D none none) (change p.db))) :=
    ⟨flushable_rows (db := change p.db) rfl hF, hu, hK, fun r hr _ =>
      List.mem_append_right _ (mem_rebuildMarks.2 ⟨cb.denorm, hdn, ⟨.inl rfl, .inl rfl⟩, r, hr, rfl⟩)⟩
  obtain ⟨hG, hd⟩ := good_flush n hG0 hr
  have hw : ∀ r ∈ p'.db.rows cb.model.table, r cb.field = cb.value p'.db r := by
    intro r hr
    refine Classical.byContradiction fun hne => ?_
    have := hG.stale r hr hne
    simp [Marked, hd] at this
  refine ⟨hd, hw, fun fuel ss hL r hr' => ?_⟩
  rw [deploy_run_same (fun s db => he fuel s db)] at hr' ⊢
  exact ((track_run (tracks_of_installed (E := ⟨b, installedTriggers b D, rand⟩) rfl hF.declared) hF.noReentry (freshTracked cb) ss p'.db hL hG.keysOk
    (fun r hr => .inr (hw r hr))).2 r hr').symm
end

/-! ## What is not as a user expects -/

section
variable {b : Backend} {hash : String → String} {draws : Nat → String} {fails : Nat → Bool} {rand : Nat → Int} {tables : List TableName} {change : Db → Db}
  {D : List Denorm} {p : Production}

/-- C71 is violated in sqlite by every migration that changes a table without `denorm_init` after it: from then on no statement on that table changes a marker, or
any row of another table, whatever the declarations are. The same in a deployment, between `migrate` and `denorm_init`. -/
theorem C71_violated_migration {t : TableName} (ht : t ∈ tables) (hs : Administered .sqlite p.server) {st : Stmt} (hst : st.table = t) {fuel : Nat} {db db' : Db}
    (h : ((p.migrate .sqlite tables change).engine .sqlite rand).exec fuel st db = .ok db') : db'.dirty = db.dirty ∧ ∀ t', t' ≠ t → db'.rows t' = db.rows t' := by
  refine exec_blind ?_ hst h
  intro tr htr e
  obtain ⟨c, hc, hd⟩ := List.mem_filterMap.1 htr
  simp only [Production.migrate, Server.set_same, remake] at hc
  obtain ⟨hc, hn⟩ := List.mem_filter.1 hc
  split at hd
  · rename_i d hb
    cases hd
    rw [← administered_table hs _ c hc _ hb, e] at hn
    simp [ht] at hn
  · cases hd

/-- C71 depends on `denorm_drop`: when one trigger is left that has the name of a new one, `denorm_init` raises; in PostgreSQL and sqlite it changes nothing, so the triggers stay the old ones. -/
theorem C71_init_without_drop {t : CatTrigger} (ht : t ∈ p.server defaultAlias)
    (h : ∃ x ∈ expectedTriggers b hash draws 0 (buildTriggerset b D), t.named b x.name x.table = true) :
    p.init b hash draws fails D = none ∧ (b ≠ .mysql → ∀ a, (installTriggers b hash draws fails defaultAlias D p.server).1 a = p.server a) := by
  have hf := creates_fail (fails := fails) (n := 0) ht h
  unfold Production.init installTriggers transact
  simp only [hf]
  constructor
  · cases b <;> rfl
  · intro hb a
    have hroll : ∀ (c : Catalog) a, ((p.server.set defaultAlias c).set defaultAlias (p.server defaultAlias)) a = p.server a := by
      intro c a
      by_cases h : a = defaultAlias
      · simp [Server.set, h]
      · simp [Server.set, h]
    cases b with
    | mysql => exact absurd rfl hb
    | sqlite => exact hroll _ a
    | postgresql => exact hroll _ a
end

namespace Chain
set_option maxRecDepth 100000

def md5 (_ : String) : String := "00aa"
def chars (n : Nat) : String := if n % 2 = 0 then "AAAAA" else "BBBBB"
def fine (_ : Nat) : Bool := false

/-- The trigger of someone else. -/
def audit : Server := fun _ => [⟨"audit_blog", "blog", .other "..."⟩]

/-- In production: the triggers of a version that has `Comment.path` only, and the trigger of someone else. -/
def inProduction (b : Backend) : Production := ⟨(installTriggers b md5 chars fine "default" [path.denorm] audit).1, db⟩

/-- The migration adds `Entry.label`, with its default. -/
def addColumn (db : Db) : Db :=
  { db with rows := fun t => if t = "entry" then (db.rows t).map fun r c => if c = "label" then .text "" else r c else db.rows t }

theorem administered (b : Backend) : Administered b (inProduction b).server := by
  have h : Administered b audit := .start fun a t ht => by
    cases List.mem_singleton.1 ht
    rfl
  exact .install md5 chars fine "default" [path.denorm] h

/-- C71_triggers, C71_values_partial, for every backend: the deployment succeeds, and the hypotheses of the theorem about `Entry.label` are met;
after the migration it is wrong, after the deployment it is right. -/
example (b : Backend) : (∃ p, (inProduction b).deploy b md5 chars fine fine (fun _ => 0) ["entry"] addColumn (app b) decls 10 = some p ∧
      (p.db.rows "entry").map (fun r => r "label") = [.text "A"]) ∧
    Administered b (inProduction b).server ∧ (inProduction b).db = db ∧
    Flushable { app b with engine := ⟨b, installedTriggers b decls, fun _ => 0⟩ } decls entryOrm label (addColumn db) ∧
    KeysUnique { app b with engine := ⟨b, installedTriggers b decls, fun _ => 0⟩ } (addColumn db) ∧ KeysOk label (addColumn db) ∧
    ∃ r ∈ (addColumn db).rows "entry", r "label" ≠ label.value (addColumn db) r := by
  refine ⟨?_, administered b, rfl, flushable_label b (fun l => l) _, ?_, by unfold KeysOk; decide, by decide⟩
  · obtain ⟨db', h3, hP⟩ : ∃ db', (app b).rebuildall decls none none 10 (addColumn db) = .ok (some db') ∧ (db'.rows "entry").map (fun r => r "label") = [.text "A"] :=
      flush_of (by cases b <;> decide +kernel)
    obtain ⟨p, hp, rfl⟩ := deploy_succeeds (p := inProduction b) (A := app b) (D := decls) (rand := fun _ => 0) (n := 10) (hash := md5) (draws := chars) (fails := fine) (fails' := fine)
      (tables := ["entry"]) (change := addColumn) (administered b) (by cases b <;> decide +kernel) (by cases b <;> decide +kernel) h3
    exact ⟨p, hp, hP⟩
  · have : KeysUnique (app b) (addColumn db) := by unfold KeysUnique; cases b <;> decide
    exact this

/-- C71_violated_migration, C71_init_without_drop: the hypotheses are met. After a migration of `entry` the change of an entry's label is lost; `denorm_init` raises. -/
example : Administered .sqlite (inProduction .sqlite).server ∧
    (∃ db', (((inProduction .sqlite).migrate .sqlite ["entry"] id).engine .sqlite (fun _ => 0)).exec 50
        (.update "entry" (fun _ => true) (fun _ r c => if c = "label" then .text "new" else r c)) db = .ok db' ∧
      db'.dirty = [] ∧ ∃ r ∈ db'.rows "comment", r "path" ≠ path.value db' r) ∧
    (((inProduction .sqlite).migrate .sqlite ["entry"] id).init .sqlite md5 chars fine decls).isSome = false ∧
    ∃ t ∈ ((inProduction .sqlite).migrate .sqlite ["entry"] id).server defaultAlias, ∃ x ∈ expectedTriggers .sqlite md5 chars 0 (buildTriggerset .sqlite decls), t.named .sqlite x.name x.table = true := by
  refine ⟨administered _, ok_of (by decide +kernel), by decide +kernel, by decide +kernel⟩

end Chain

namespace Team
set_option maxRecDepth 100000

/-- The migration adds `Team.total`, with its default. -/
def addTotal (db : Db) : Db :=
  { db with rows := fun t => if t = "team" then (db.rows t).map fun r c => if c = "total" then .int 0 else r c else db.rows t }

/-- The first version with django-denorm: nothing is installed yet. -/
def fresh : Production := ⟨fun _ => [], wrongDb⟩

end Team

/-- C71 is violated for CountFields and SumFields: the deployment of a version with a new SumField succeeds, with `denorm_rebuild` as its last step, nothing is marked, and the sum is the default 0, although
there is a row to be added. -/
theorem C71_violated_aggregate (b : Backend) : ∃ p,
    Team.fresh.deploy b Chain.md5 Chain.chars Chain.fine Chain.fine (Team.app b).engine.rand ["team"] Team.addTotal (Team.app b) Team.decls 10 = some p ∧ p.db.dirty = [] ∧
    (p.db.rows "team").map (fun r => r "total") = [.int 0] ∧ ¬ AggOk Team.total p.db := by
  obtain ⟨db', h3, hP⟩ : ∃ db', (Team.app b).rebuildall Team.decls none none 10 (Team.addTotal Team.wrongDb) = .ok (some db') ∧ db'.dirty = [] ∧
      (db'.rows "team").map (fun r => r "total") = [.int 0] ∧ ¬ ∀ r ∈ db'.rows "team", r "total" = .int (Team.total.total db' (r "id")) :=
    flush_of (by cases b <;> decide +kernel)
  obtain ⟨p, hp, rfl⟩ := deploy_succeeds (b := b) (p := Team.fresh) (A := Team.app b) (D := Team.decls) (rand := (Team.app b).engine.rand) (n := 10) (hash := Chain.md5) (draws := Chain.chars) (fails := Chain.fine)
    (fails' := Chain.fine) (tables := ["team"]) (change := Team.addTotal) (.start fun a t ht => by cases ht) (by cases b <;> decide +kernel) (by cases b <;> decide +kernel) h3
  exact ⟨p, hp, hP⟩

end Denorm
