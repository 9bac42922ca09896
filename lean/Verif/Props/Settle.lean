import Verif.Lemmas.NoError
import Verif.DemoChain
import Verif.Props.FlushViolations
/-!
# flush() terminates on acyclic dependencies (C18)
-/
namespace Denorm

section
variable {A : App} {D : List Denorm} {rank : Nat → Val → Nat} {L : Nat} {db : Db}

/-- C18: if the instances can be arranged in `L` layers so that everything an instance depends on lies below it, flush() does not go
through more than `L + 1` passes: after that it has returned (or an error has left it). -/
theorem C18_terminates (hP : Project A D) (hp : ∀ l, (A.arrange l).Perm l) (hu : KeysUnique A db) (hL : Layered A D rank L db) :
    (∃ db', A.flush (L + 1) db = .ok (some db') ∧ db'.dirty = []) ∨ ∃ e, A.flush (L + 1) db = .error e := by
  have h := flush_layers hP hp L 0 (by omega) hu hL fun _ _ _ => Nat.zero_le _
  cases hf : A.flush (L + 1) db with
  | error e => exact .inr ⟨e, rfl⟩
  | ok o =>
    cases o with
    | none => exact absurd hf h
    | some db' => exact .inl ⟨db', rfl, flush_clean _ hf⟩

/-- C18, with the layers constructed: if no instance depends on itself, directly or through others, flush() needs at most one pass more
than there are instances. -/
theorem C18_terminates_acyclic (hP : Project A D) (hp : ∀ l, (A.arrange l).Perm l) (hu : KeysUnique A db) (ha : Acyclic A D db) :
    (∃ db', A.flush ((A.instances db).length + 1) db = .ok (some db') ∧ db'.dirty = []) ∨
      ∃ e, A.flush ((A.instances db).length + 1) db = .error e :=
  C18_terminates hP hp hu (layered_of_acyclic ha)

/-- C18, projects with `@denormalized` fields only: no error either. -/
theorem C18_returns (hP : Project A D) (hC : Calm A D) (hp : ∀ l, (A.arrange l).Perm l) (hu : KeysUnique A db) (hm : MarksKnown A db)
    (ha : Acyclic A D db) : ∃ db', A.flush ((A.instances db).length + 1) db = .ok (some db') ∧ db'.dirty = [] := by
  rcases C18_terminates_acyclic hP hp hu ha with h | ⟨e, h⟩
  · exact h
  · obtain ⟨o, ho⟩ := flush_ok hC hp ((A.instances db).length + 1) hu hm
    rw [ho] at h
    simp at h

/-- C18, backends with DISTINCT ON: no instance is saved more often than its layer number says, no matter for how long flush() is
observed. -/
theorem C18_saves_bounded (hP : Project A D) (hp : ∀ l, (A.arrange l).Perm l) (hb : A.engine.backend = .postgresql)
    (hu : KeysUnique A db) (hL : Layered A D rank L db) (n : Nat) (m : Mark) : (A.flushSaves n db).count m ≤ rank m.ct m.oid + 1 :=
  flushSaves_layers hP hp hb n 0 hu hL (fun _ _ _ => Nat.zero_le _) m

end

/-! ## The hypotheses are met -/

namespace Chain
set_option maxRecDepth 100000

theorem untouched (b : Backend) (arr : List Mark → List Mark) {t : TableName} {c : Col} (h : (t, c) ≠ ("entry", "label"))
    (h' : (t, c) ≠ ("comment", "path")) : ¬ Touched (app b arr) t c := by
  rintro ⟨om, hom, ⟨rfl, hc⟩ | hr⟩
  · simp only [app, List.mem_cons, List.not_mem_nil, or_false] at hom
    rcases hom with rfl | rfl | rfl
    · simp [OrmModel.denormCols, blogOrm, Kind.computed] at hc
    · simp [OrmModel.denormCols, entryOrm, Kind.computed] at hc
      subst hc; exact h rfl
    · simp [OrmModel.denormCols, commentOrm, Kind.computed] at hc
      subst hc; exact h' rfl
  · exact not_reached b hr

theorem project (b : Backend) (arr : List Mark → List Mark) : Project (app b arr) decls where
  installed := rfl
  agree := agree b
  safe := keysSafe b arr
  cts := by
    intro om hom om' hom'
    simp only [app, List.mem_cons, List.not_mem_nil, or_false] at hom hom'
    rcases hom with rfl | rfl | rfl <;> rcases hom' with rfl | rfl | rfl <;> first | (intro; rfl) | (intro h; exact absurd h (by decide))
  tables := by
    intro om hom om' hom'
    simp only [app, List.mem_cons, List.not_mem_nil, or_false] at hom hom'
    rcases hom with rfl | rfl | rfl <;> rcases hom' with rfl | rfl | rfl <;> first | (intro; rfl) | (intro h; exact absurd h (by decide))
  known := by
    intro dn hdn
    simp only [decls, List.mem_cons, List.not_mem_nil, or_false] at hdn
    rcases hdn with rfl | rfl
    · exact ⟨entryOrm, by simp [app], rfl⟩
    · exact ⟨commentOrm, by simp [app], rfl⟩
  this := by decide
  pkTable := by decide
  others := by cases b <;> simp only [app] <;> decide
  generic := by
    intro dn hdn d hd g
    simp only [decls, List.mem_cons, List.not_mem_nil, or_false] at hdn
    rcases hdn with rfl | rfl <;> simp only [Callback.denorm, Denorm.deps, label, path, List.map_cons, List.map_nil, List.mem_singleton] at hd <;>
      subst hd <;> simp [labelDep, pathDep]
  through := by cases b <;> simp only [app] <;> decide
  fixed := by
    intro dn hdn d hd
    simp only [decls, List.mem_cons, List.not_mem_nil, or_false] at hdn
    rcases hdn with rfl | rfl <;> simp only [Callback.denorm, Denorm.deps, label, path, List.map_cons, List.map_nil, List.mem_singleton] at hd <;>
      subst hd <;> simp only [labelDep, pathDep, Dep.looks, Dep.ownKeys, List.mem_singleton, forall_eq] <;>
      exact ⟨untouched b arr (by decide) (by decide), untouched b arr (by decide) (by decide)⟩
  fixedFk := by intro a ha; simp [decls, Callback.denorm] at ha

theorem calm (b : Backend) (arr : List Mark → List Mark) : Calm (app b arr) decls where
  installed := rfl
  callbacks := by
    intro dn hdn
    simp only [decls, List.mem_cons, List.not_mem_nil, or_false] at hdn
    rcases hdn with rfl | rfl <;> exact ⟨_, _, _, _, _, rfl⟩
  this := (project b arr).this
  known := (project b arr).known
  safe := keysSafe b arr
  fuel := by cases b <;> simp only [FuelEnough, app] <;> decide

/-- Blogs lie below entries, entries below comments: three layers, for every content of the tables. -/
def rank (ct : Nat) (_ : Val) : Nat := ct - 11

theorem layered (b : Backend) (arr : List Mark → List Mark) (db : Db) : Layered (app b arr) decls rank 3 db where
  up := by
    intro dn hdn om hom o _ x _ hf
    simp only [decls, List.mem_cons, List.not_mem_nil, or_false] at hdn
    simp only [app, List.mem_cons, List.not_mem_nil, or_false] at hom
    rcases hf with ⟨d, hd, ht, _⟩ | ⟨a, ha, _⟩
    · rcases hdn with rfl | rfl <;> rcases hom with rfl | rfl | rfl <;>
        simp only [Callback.denorm, Denorm.deps, label, path, List.map_cons, List.map_nil, List.mem_singleton] at hd <;>
        subst hd <;> first | (exact absurd ht (by decide)) | (simp only [rank]; decide)
    · rcases hdn with rfl | rfl <;> simp [Callback.denorm] at ha
  bound := by
    intro om hom o _
    simp only [app, List.mem_cons, List.not_mem_nil, or_false] at hom
    rcases hom with rfl | rfl | rfl <;> simp [rank, blogOrm, blog, entryOrm, entry, commentOrm, comment]

/-- C18 applies to the chain with any content of the tables: at most four passes, without errors. -/
example (b : Backend) (arr : List Mark → List Mark) (hp : ∀ l, (arr l).Perm l) (db : Db) (hu : KeysUnique (app b arr) db)
    (hm : MarksKnown (app b arr) db) : ∃ db', (app b arr).flush 4 db = .ok (some db') ∧ db'.dirty = [] := by
  rcases C18_terminates (A := app b arr) (project b arr) hp hu (layered b arr db) with h | ⟨e, h⟩
  · exact h
  · obtain ⟨o, ho⟩ := flush_ok (A := app b arr) (calm b arr) hp 4 hu hm
    rw [ho] at h
    simp at h
/-- And its databases are acyclic. -/
example (b : Backend) (db : Db) : Acyclic (app b) decls db := by
  have h : ∀ p q, DependsOn (app b) decls db p q → rank p.1 p.2 < rank q.1 q.2 := by
    intro p q h
    induction h with
    | direct h1 h2 h3 h4 h5 => exact (layered b _ db).up _ h1 _ h2 _ h3 _ h4 h5
    | trans _ _ h1 h2 => exact Nat.lt_trans h1 h2
  intro p hpp
  exact Nat.lt_irrefl _ (h p p hpp)
/-- The comment, in the third layer, is saved up to three times; here once. -/
example : ((app .postgresql).flushSaves 5 staleDb).count ⟨13, .int 1⟩ = 1 ∧ ((app .postgresql).flushSaves 5 staleDb).count ⟨12, .int 1⟩ = 1 := by
  decide +kernel

end Chain

/-! ## Cycles -/

namespace Nodes
set_option maxRecDepth 100000

/-- Two nodes, each the parent of the other. -/
def cycleDb : Db := ⟨fun t => if t = "node" then [nrow 1 (.int 2) 0, nrow 2 (.int 1) 1] else [], [⟨31, .int 1⟩], 0⟩

theorem calm (b : Backend) (arr : List Mark → List Mark) : Calm (app b arr) decls where
  installed := rfl
  callbacks := by
    intro dn hdn
    simp only [decls, List.mem_singleton] at hdn
    subst hdn
    exact ⟨_, _, _, _, _, rfl⟩
  this := by decide
  known := by
    intro dn hdn
    simp only [decls, List.mem_singleton] at hdn
    subst hdn
    exact ⟨nodeOrm, by simp [app], rfl⟩
  safe := keysSafe b arr
  fuel := by cases b <;> simp only [FuelEnough, app] <;> decide

theorem untouched (b : Backend) (arr : List Mark → List Mark) {c : Col} (hc : c ≠ "depth") : ¬ Touched (app b arr) "node" c := by
  rintro ⟨om, hom, h | h⟩
  · have : om = nodeOrm := by simpa [app] using hom
    subst this
    have := h.2
    simp [OrmModel.denormCols, nodeOrm, Kind.computed] at this
    exact hc this
  · exact not_reached b h

/-- No values make both nodes right. -/
theorem no_depths (u v : Val) (h1 : u = depthFn [] [[[v]]]) (h2 : v = depthFn [] [[[u]]]) : False := by
  cases u <;> cases v <;> simp [depthFn] at h1 h2
  omega

end Nodes

/-- **C18 is violated** by cyclic dependencies, on every backend and for every order in which markers come back: two instances that
depend on each other keep flush() busy for ever, though the field is of the kind for which C01 holds. -/
theorem C18_violated_cycle (b : Backend) (arr : List Mark → List Mark) (hp : ∀ l, (arr l).Perm l) :
    ∃ (A : App) (D : List Denorm) (db : Db), A.engine.backend = b ∧ A.arrange = arr ∧ Calm A D ∧ KeysUnique A db ∧ MarksKnown A db ∧
      ∀ n, A.flush n db = .ok none := by
  have hu : KeysUnique (Nodes.app b arr) Nodes.cycleDb := by unfold KeysUnique; simp only [Nodes.app]; decide
  have hm : MarksKnown (Nodes.app b arr) Nodes.cycleDb := by unfold MarksKnown; simp only [Nodes.app]; decide
  refine ⟨Nodes.app b arr, Nodes.decls, Nodes.cycleDb, rfl, rfl, Nodes.calm b arr, hu, hm, fun n => ?_⟩
  obtain ⟨o, ho⟩ := flush_ok (A := Nodes.app b arr) (Nodes.calm b arr) hp n hu hm
  cases o with
  | none => exact ho
  | some db' =>
    exfalso
    have hF : Flushable (Nodes.app b arr) Nodes.decls Nodes.nodeOrm Nodes.depth Nodes.cycleDb :=
      Nodes.flushable b arr (by unfold NoSelfRelation; decide)
    obtain ⟨_, hfresh⟩ := C01_flush_partial hF hu (by unfold KeysOk; decide) (by unfold StaleMarked; decide) ho
    have hsame := flush_same (Nodes.keysSafe b arr) n hu ho "node"
    have h0 : Nodes.cycleDb.rows "node" = [Nodes.nrow 1 (.int 2) 0, Nodes.nrow 2 (.int 1) 1] := rfl
    rw [h0] at hsame
    match hrows : db'.rows "node", hsame with
    | [r1, r2], .cons e1 (.cons e2 .nil) =>
      have i1 := e1 "id" (Nodes.untouched b arr (by decide))
      have p1 := e1 "parent_id" (Nodes.untouched b arr (by decide))
      have i2 := e2 "id" (Nodes.untouched b arr (by decide))
      have p2 := e2 "parent_id" (Nodes.untouched b arr (by decide))
      have f1 := hfresh r1 (by rw [show Nodes.depth.model.table = "node" from rfl, hrows]; simp)
      have f2 := hfresh r2 (by rw [show Nodes.depth.model.table = "node" from rfl, hrows]; simp)
      have i1 : r1 "id" = .int 1 := i1.trans (by decide)
      have p1 : r1 "parent_id" = .int 2 := p1.trans (by decide)
      have i2 : r2 "id" = .int 2 := i2.trans (by decide)
      have p2 : r2 "parent_id" = .int 1 := p2.trans (by decide)
      have hrel1 : relatedRows Nodes.depthDep.dep db' r1 = [r2] := by
        show (db'.rows "node").filter (fun o => Val.sqlEq (o "id") (r1 "parent_id")) = [r2]
        rw [hrows]
        have e1 : Val.sqlEq (.int 1) (.int 1) = true := by decide
        have e2 : Val.sqlEq (.int 2) (.int 2) = true := by decide
        have e3 : Val.sqlEq (.int 1) (.int 2) = false := by decide
        have e4 : Val.sqlEq (.int 2) (.int 1) = false := by decide
        simp only [List.filter_cons, List.filter_nil, i1, i2, p1, e2, e3, if_true, if_false, Bool.false_eq_true]
      have hrel2 : relatedRows Nodes.depthDep.dep db' r2 = [r1] := by
        show (db'.rows "node").filter (fun o => Val.sqlEq (o "id") (r2 "parent_id")) = [r1]
        rw [hrows]
        have e1 : Val.sqlEq (.int 1) (.int 1) = true := by decide
        have e2 : Val.sqlEq (.int 2) (.int 2) = true := by decide
        have e3 : Val.sqlEq (.int 1) (.int 2) = false := by decide
        have e4 : Val.sqlEq (.int 2) (.int 1) = false := by decide
        simp only [List.filter_cons, List.filter_nil, i1, i2, p2, e1, e4, if_true, if_false, Bool.false_eq_true]
      refine Nodes.no_depths (r1 "depth") (r2 "depth") ?_ ?_
      · have : Nodes.depth.value db' r1 = Nodes.depthFn [] [seen ["depth"] (relatedRows Nodes.depthDep.dep db' r1)] := rfl
        rw [this, hrel1] at f1
        exact f1
      · have : Nodes.depth.value db' r2 = Nodes.depthFn [] [seen ["depth"] (relatedRows Nodes.depthDep.dep db' r2)] := rfl
        rw [this, hrel2] at f2
        exact f2

end Denorm
