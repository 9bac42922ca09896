import Verif.Lemmas.BulkUnsafe
import Verif.Props.Calls
/-!
# C38 over whole programs: DENORM_BULK_UNSAFE_TRIGGERS

`C38_only_self_marks_missing` (Props/TriggerSet) compares single row changes. Here: a program that writes the declaring model with save() and create(), and everything
else as it likes, loses nothing.
-/
namespace Denorm

variable {A : App} {D : List Denorm} {cb : Callback} {om : OrmModel} {db db' : Db}

/-- C38, SQL of any kind: statements that do not insert instances of the declaring model nor overwrite what the callback reads of its own row keep every value right or
its instance marked. -/
theorem C38_statements_partial (hE : Installed A.engine D) (hD : DeclaredUnsafe A.engine.backend D cb) (hN : NoReentry A.engine) {s : Stmt}
    (hs : SparesOwn cb s) (hL : LegalStmt A.engine cb db s) (hK : KeysOk cb db) (hS : StaleMarked cb db) (h : A.engine.exec A.fuel s db = .ok db') :
    KeysOk cb db' ∧ ∀ r ∈ db'.rows cb.model.table, r cb.field = cb.value db' r ∨ Marked cb.model db' r := by
  obtain ⟨h1, h2⟩ := spared_exec (follows_of_unsafe hE hD) (own_not_managed hE hD) hN hs h hL hK hS
  exact ⟨h1, fun r hr => (staleMarked_iff.1 h2 r hr).symm⟩

/-- C38, programs: with the setting on, a program that writes the declaring model's own columns only by save() and create() has, after any number of calls, every value
right or its instance marked. Related models may be written in any way, including bulk_create(), update() and SQL. -/
theorem C38_calls_partial (hE : Installed A.engine D) (hD : DeclaredUnsafe A.engine.backend D cb) (hN : NoReentry A.engine)
    (hpk : ∀ om ∈ A.models, om.model.pk ∉ om.cols) (hp : ∀ om ∈ A.models, ∀ p ∈ cb.pks, p.1 = om.model.table → p.2 ∉ om.cols) :
    ∀ (cs : List OrmCall) (db : Db), LegalCalls A cb cs db → AllOneByOne A cb cs db → KeysOk cb db → StaleMarked cb db → KeysOk cb (A.calls cs db) ∧
      ∀ r ∈ (A.calls cs db).rows cb.model.table, r cb.field = cb.value (A.calls cs db) r ∨ Marked cb.model (A.calls cs db) r
  | [], db, _, _, hK, hS => ⟨hK, fun r hr => (staleMarked_iff.1 hS r hr).symm⟩
  | c :: cs, db, hL, hO, hK, hS => by
    obtain ⟨hL1, hL2⟩ := hL
    obtain ⟨hO1, hO2⟩ := hO
    simp only [App.calls]
    cases hc : A.call db c with
    | error e =>
      rw [hc] at hL2 hO2
      exact C38_calls_partial hE hD hN hpk hp cs db hL2 hO2 hK hS
    | ok db' =>
      rw [hc] at hL2 hO2
      obtain ⟨hK', hS'⟩ := one_call hE hD hN hpk hp hL1 hO1 hK hS hc
      exact C38_calls_partial hE hD hN hpk hp cs db' hL2 hO2 hK' hS'

/-- C38, flush(): with the setting on, too, a flush() that returns leaves no marker and every value right. -/
theorem C38_flush_partial (hE : Installed A.engine D) (hD : DeclaredUnsafe A.engine.backend D cb) (hN : NoReentry A.engine) (hF : Savable A om cb db)
    (ho : ∀ om' ∈ A.models, om'.model.table = cb.model.table → om' = om) (hu : KeysUnique A db) (hK : KeysOk cb db) (hS : StaleMarked cb db)
    {n : Nat} (h : A.flush n db = .ok (some db')) :
    db'.dirty = [] ∧ ∀ r ∈ db'.rows cb.model.table, r cb.field = cb.value db' r := by
  obtain ⟨hG, hd⟩ := goodUnsafe_flush n ⟨hE, hD, hN, hF, ho, hu, hK, hS⟩ h
  refine ⟨hd, fun r hr => ?_⟩
  rcases staleMarked_iff.1 hG.stale r hr with h1 | h1
  · rw [Marked, hd] at h1
    simp at h1
  · exact h1

/-! ## The hypotheses are met -/

namespace Chain
set_option maxRecDepth 100000

theorem unsafe_noUpdates (b : Backend) : ∀ tr ∈ (unsafeApp b).engine.triggers, tr.updates = [] := by cases b <;> decide

theorem unsafe_not_reached (b : Backend) {om : OrmModel} {t : TableName} {c : Col} (h : Reached (unsafeApp b).engine om t c) : False := by
  cases h with
  | direct htr _ _ _ hu => have := DbTrigger.mem_updates.2 hu; simp [unsafe_noUpdates b _ htr] at this
  | next _ htr _ _ _ hu => have := DbTrigger.mem_updates.2 hu; simp [unsafe_noUpdates b _ htr] at this

theorem agreeUnsafe (b : Backend) : AgreeOnWatch b (decls.map Denorm.bulkUnsafe) := by unfold AgreeOnWatch; cases b <;> decide

theorem declaredUnsafe (b : Backend) : DeclaredUnsafe b (decls.map Denorm.bulkUnsafe) label where
  declared := by simp [decls, Denorm.bulkUnsafe, Callback.denorm]
  agree := fun _ hg => covered_of_agree (agreeUnsafe b) (List.mem_flatMap.2 ⟨_, by decide, hg⟩)
  table := by decide
  this := by decide
  watched := by decide
  keys := by decide
  links := by decide
  own := by decide

theorem noReentryUnsafe (b : Backend) : NoReentry (unsafeApp b).engine := noReentry_of (fun _ => 0) (by cases b <;> decide)

theorem savableUnsafe (b : Backend) (db : Db) : Savable (unsafeApp b) entryOrm label db where
  this := by decide
  oneWay := by intro d hd g; simp only [label, List.mem_singleton] at hd; subst hd; simp [labelDep]
  found := by cases b <;> rfl
  model := rfl
  cols := by decide
  order := ⟨[⟨"blog_id", .plain⟩], [], rfl, by decide⟩
  own := fun _ _ h => unsafe_not_reached b h
  deps := by
    intro d hd
    simp only [label, List.mem_singleton] at hd
    subst hd
    exact ⟨fun _ _ h => unsafe_not_reached b h, .inl (by decide)⟩
  pks := by cases b <;> simp only [unsafeApp, app] <;> decide
  safe := { kept := by cases b <;> simp only [unsafeApp, app] <;> decide, free := fun _ _ _ _ h => unsafe_not_reached b h }

theorem computes : Computes entryOrm label where
  model := rfl
  pk := by decide
  saved := by decide
  cols := by decide
  order := ⟨[⟨"blog_id", .plain⟩], [], rfl, fun c hc => ⟨by revert c; decide, fun _ h => absurd h List.not_mem_nil⟩⟩

/-- Blogs are made with bulk_create; an entry is created and moved with save(); a blog is renamed by an UPDATE. -/
def unsafeProgram : List OrmCall :=
  [.bulkCreate blogOrm [(blrow 0 "A", .int 1), (blrow 0 "B", .int 2)], .create entryOrm (Demo.row [("blog_id", .int 1)]) (.int 1),
    .save entryOrm (erow 1 2 "?"), .stmt (.update "blog" (fun r => decide (r "id" = .int 2)) fun _ r => r.set "title" (.text "C"))]

theorem unsafeProgram_legal (b : Backend) : LegalCalls (unsafeApp b) label unsafeProgram emptyDb := by
  have hn : ∀ db {om : OrmModel}, om ∈ (app b).models → ∀ {k : Val}, k ≠ .null → NewKey (unsafeApp b).engine label db om k := by
    intro db om hom k hk r hr x hx
    exact newKey_label b db hom hk r hr x hx
  have l1 : ∀ db, LegalCall (unsafeApp b) label db (.bulkCreate blogOrm [(blrow 0 "A", .int 1), (blrow 0 "B", .int 2)]) := by
    intro db o ho
    exact hn db (by simp [app]) (by simp at ho; rcases ho with rfl | rfl <;> decide)
  have l2 : ∀ db, LegalCall (unsafeApp b) label db (.create entryOrm (Demo.row [("blog_id", .int 1)]) (.int 1)) := fun db => hn db (by simp [app]) (by decide)
  have l3 : ∀ db, LegalCall (unsafeApp b) label db (.save entryOrm (erow 1 2 "?")) := fun db => ⟨by simp [unsafeApp, app], fun _ => hn db (by simp [app]) (by decide)⟩
  have l4 : ∀ db, LegalCall (unsafeApp b) label db (.stmt (.update "blog" (fun r => decide (r "id" = .int 2)) fun _ r => r.set "title" (.text "C"))) := by
    intro db p hp _ x r
    simp only [label, Callback.pks, List.map_cons, List.map_nil, List.mem_cons, List.not_mem_nil, or_false] at hp
    rcases hp with rfl | rfl <;> exact if_neg (by decide)
  refine ⟨l1 _, ?_⟩
  split <;> refine ⟨l2 _, ?_⟩ <;> split <;> refine ⟨l3 _, ?_⟩ <;> split <;> refine ⟨l4 _, ?_⟩ <;> split <;> trivial

theorem unsafeProgram_oneByOne (b : Backend) : AllOneByOne (unsafeApp b) label unsafeProgram emptyDb := by
  have hk : ∀ d ∈ label.deps, d.dep.ownKeys ≠ [] := by decide
  have l4 : ∀ db, OneByOne label db (.stmt (.update "blog" (fun r => decide (r "id" = .int 2)) fun _ r => r.set "title" (.text "C"))) :=
    fun db h => absurd h (by decide)
  have l2 : ∀ db, OneByOne label db (.create entryOrm (Demo.row [("blog_id", .int 1)]) (.int 1)) :=
    fun db _ => ⟨computes, rfl, by decide, fun d hd h => absurd h (hk d hd)⟩
  refine ⟨show blogOrm.model.table ≠ label.model.table by decide, ?_⟩
  obtain ⟨db1, h1, h1'⟩ : ∃ db1, (unsafeApp b).call emptyDb (.bulkCreate blogOrm [(blrow 0 "A", .int 1), (blrow 0 "B", .int 2)]) = .ok db1 ∧
      ∃ db2, (unsafeApp b).call db1 (.create entryOrm (Demo.row [("blog_id", .int 1)]) (.int 1)) = .ok db2 ∧ entryOrm.Unique db2 := by
    cases b <;> exact ⟨_, rfl, _, rfl, by decide +kernel⟩
  obtain ⟨db2, h2, hu⟩ := h1'
  rw [h1]
  refine ⟨l2 _, ?_⟩
  rw [h2]
  refine ⟨fun _ => ⟨computes, hu⟩, ?_⟩
  split <;> refine ⟨l4 _, ?_⟩ <;> split <;> trivial

/-- C38 applies to the program and to flush() after it: the entry was right after create() and save(), and marked by the UPDATE of its blog. -/
example (b : Backend) : (((unsafeApp b).calls unsafeProgram emptyDb).rows "entry").map (fun r => r "label") = [.text "B"] ∧
    ((unsafeApp b).calls unsafeProgram emptyDb).dirty = [⟨12, .int 1⟩] ∧
    ∃ db', (unsafeApp b).flush 3 ((unsafeApp b).calls unsafeProgram emptyDb) = .ok (some db') ∧
    (db'.rows "entry").map (fun r => r "label") = [.text "C"] ∧ ∀ r ∈ db'.rows "entry", r "label" = label.value db' r := by
  refine ⟨by cases b <;> decide +kernel, by cases b <;> decide +kernel, ?_⟩
  obtain ⟨db', h, h1⟩ : ∃ db', (unsafeApp b).flush 3 ((unsafeApp b).calls unsafeProgram emptyDb) = .ok (some db') ∧
      (db'.rows "entry").map (fun r => r "label") = [.text "C"] := flush_of (by cases b <;> decide +kernel)
  have hF := savableUnsafe b ((unsafeApp b).calls unsafeProgram emptyDb)
  obtain ⟨hK, hS⟩ := C38_calls_partial (A := unsafeApp b) rfl (declaredUnsafe b) (noReentryUnsafe b) (fun om h => hF.safe.kept om h om h rfl) hF.pks
    unsafeProgram emptyDb (unsafeProgram_legal b) (unsafeProgram_oneByOne b) (by unfold KeysOk; decide) (by unfold StaleMarked; decide)
  have hu : KeysUnique (unsafeApp b) ((unsafeApp b).calls unsafeProgram emptyDb) := by unfold KeysUnique; cases b <;> decide +kernel
  exact ⟨db', h, h1, (C38_flush_partial (A := unsafeApp b) rfl (declaredUnsafe b) (noReentryUnsafe b) hF (by cases b <;> simp [unsafeApp, app, label, entry, blog, comment, blogOrm, entryOrm, commentOrm]) hu hK
    (staleMarked_iff.2 fun r hr => (hS r hr).symm) h).2⟩

end Chain

namespace Demo
set_option maxRecDepth 100000

/-- `@denormalized` method of Forum that shows the number of posts, which is a CountField of the same model. -/
def badge : Callback := { model := forum, field := "titles", own := ["post_count"], deps := [], fn := fun vs _ => vs.headD .null }

/-- **C38 is violated** when the callback reads a CountField of its own model: a post is added, the count becomes 1; without the setting the forum is marked (C40), with it the
computed value is out of date and not marked, although a related model was changed and the declaring model was written by nobody but a trigger. -/
theorem C38_violated_aggregate (b : Backend) :
    ∃ (D : List Denorm) (E E' : Engine) (db : Db) (s : Stmt) (db1 db2 : Db), E.backend = b ∧ E'.backend = b ∧ Installed E D ∧ Installed E' (D.map Denorm.bulkUnsafe) ∧
    s.table ≠ badge.model.table ∧ (∀ r ∈ db.rows badge.model.table, r badge.field = badge.value db r) ∧
    E.exec 10 s db = .ok db1 ∧ E'.exec 10 s db = .ok db2 ∧
    (∃ r ∈ db1.rows badge.model.table, r badge.field ≠ badge.value db1 r ∧ Marked badge.model db1 r) ∧
    ∃ r ∈ db2.rows badge.model.table, r badge.field ≠ badge.value db2 r ∧ ¬ Marked badge.model db2 r := by
  let D : List Denorm := [.aggregate postCount, badge.denorm]
  let db : Db := ⟨fun t => if t = "forum" then [row [("id", .int 1), ("post_count", .int 0), ("titles", .int 0)]] else [], [], 0⟩
  obtain ⟨db1, h1, h1'⟩ : ∃ db1, (⟨b, installedTriggers b D, fun _ => 0⟩ : Engine).exec 10 (.insert "post" [prow 1 1 "x" "F" 0]) db = .ok db1 ∧
      ∃ r ∈ db1.rows badge.model.table, r badge.field ≠ badge.value db1 r ∧ Marked badge.model db1 r := ok_of (by cases b <;> decide +kernel)
  obtain ⟨db2, h2, h2'⟩ : ∃ db2, (⟨b, installedTriggers b (D.map Denorm.bulkUnsafe), fun _ => 0⟩ : Engine).exec 10 (.insert "post" [prow 1 1 "x" "F" 0]) db = .ok db2 ∧
      ∃ r ∈ db2.rows badge.model.table, r badge.field ≠ badge.value db2 r ∧ ¬ Marked badge.model db2 r := ok_of (by cases b <;> decide +kernel)
  exact ⟨D, ⟨b, installedTriggers b D, fun _ => 0⟩, ⟨b, installedTriggers b (D.map Denorm.bulkUnsafe), fun _ => 0⟩, db, _, db1, db2, rfl, rfl, rfl, rfl, by decide, by decide, h1, h2, h1', h2'⟩

end Demo
end Denorm
