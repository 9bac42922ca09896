import Verif.Lemmas.Confluent
import Verif.Props.Settle
import Verif.Props.Rebuild
/-!
# The result of flush() does not depend on the markers (C19)
-/
namespace Denorm

section
variable {A A' : App} {D : List Denorm} {cbs : List Callback} {db db' e e' : Db} {n n' : Nat}

/-- C19. The same declarations and models, the same rows, but markers in another order or number, and perhaps another backend (`A'`, `db'`):
if dependencies between instances are acyclic and both flushes return, then every field has the same value in every instance. -/
theorem C19_same_values_partial (hP : Project A D) (hP' : Project A' D) (hm : A'.models = A.models) (hrows : db'.rows = db.rows)
    (hu : KeysUnique A db) (hc : FlushedTogether A D cbs db) (hc' : FlushedTogether A' D cbs db') (ha : Acyclic A D db)
    (h : A.flush n db = .ok (some e)) (h' : A'.flush n' db' = .ok (some e')) : ∀ cb ∈ cbs, cb.column e' = cb.column e := by
  intro cb hcb
  have hs := (solved_of_flush hP hP' hm hrows hu hc hc' (layered_of_acyclic ha) h h').same cb.model.table
  obtain ⟨om, hF, -, -⟩ := hc.each cb hcb
  refine (hs.map_eq fun a b hab => ?_).symm
  have hom := List.mem_of_find?_eq_some hF.found
  have h1 := pk_untouched hP.safe hom
  have h2 := pk_untouched hP'.safe (hm ▸ hom)
  rw [hF.model] at h1 h2
  rw [hab.2 cb hcb rfl, hab.1 _ h1 h2]

/-- C19, when flushing changes nothing but these fields: all tables are the same. -/
theorem C19_same_rows_partial (hP : Project A D) (hP' : Project A' D) (hm : A'.models = A.models) (hrows : db'.rows = db.rows)
    (hu : KeysUnique A db) (hc : FlushedTogether A D cbs db) (hc' : FlushedTogether A' D cbs db') (ha : Acyclic A D db)
    (hall : ∀ t c, Touched A t c ∨ Touched A' t c → ∃ cb ∈ cbs, cb.model.table = t ∧ cb.field = c)
    (h : A.flush n db = .ok (some e)) (h' : A'.flush n' db' = .ok (some e')) : e'.rows = e.rows := by
  funext t
  have hs := (solved_of_flush hP hP' hm hrows hu hc hc' (layered_of_acyclic ha) h h').same t
  have := hs.map_eq (f := fun r => r) (g := fun r => r) fun a b hab => funext fun c => ?_
  · simpa using this.symm
  · by_cases ht : Touched A t c ∨ Touched A' t c
    · obtain ⟨cb, hcb, h1, rfl⟩ := hall t c ht
      exact (hab.2 cb hcb h1).symm
    · exact (hab.1 c (fun h => ht (.inl h)) (fun h => ht (.inr h))).symm

/-- C19 with C18: a project with `@denormalized` fields only. Both flushes return, with the same rows and no markers left. -/
theorem C19_returns_partial (hP : Project A D) (hP' : Project A' D) (hC : Calm A D) (hC' : Calm A' D) (hm : A'.models = A.models)
    (hp : ∀ l, (A.arrange l).Perm l) (hp' : ∀ l, (A'.arrange l).Perm l) (hrows : db'.rows = db.rows) (hu : KeysUnique A db)
    (hk : MarksKnown A db) (hk' : MarksKnown A' db') (hc : FlushedTogether A D cbs db) (hc' : FlushedTogether A' D cbs db')
    (ha : Acyclic A D db) (hall : ∀ t c, Touched A t c ∨ Touched A' t c → ∃ cb ∈ cbs, cb.model.table = t ∧ cb.field = c) :
    ∃ e e', A.flush ((A.instances db).length + 1) db = .ok (some e) ∧ A'.flush ((A.instances db).length + 1) db' = .ok (some e') ∧
      e'.rows = e.rows ∧ e.dirty = [] ∧ e'.dirty = [] := by
  obtain ⟨e, h1, h2⟩ := C18_returns hP hC hp hu hk ha
  have hd : ∀ p q, DependsOn A' D db' p q → DependsOn A D db p q := by
    intro p q h
    induction h with
    | direct k1 k2 k3 k4 k5 =>
      rw [hm] at k2
      rw [hrows] at k3 k4
      refine .direct k1 k2 k3 k4 ?_
      rcases k5 with ⟨d, k6, k7, k8⟩ | k5
      · refine .inl ⟨d, k6, k7, ?_⟩
        unfold Dep.relatedTo at k8 ⊢
        rwa [hrows] at k8
      · exact .inr k5
    | trans _ _ k1 k2 => exact .trans k1 k2
  have hu' : KeysUnique A' db' := by unfold KeysUnique; rw [hm, hrows]; exact hu
  obtain ⟨e', h3, h4⟩ := C18_returns hP' hC' hp' hu' hk' (fun p hpp => ha p (hd p p hpp))
  have hi : A'.instances db' = A.instances db := by unfold App.instances; rw [hm, hrows]
  rw [hi] at h3
  exact ⟨e, e', h1, h3, C19_same_rows_partial hP hP' hm hrows hu hc hc' ha hall h1 h3, h2, h4⟩

end

/-! ## The hypotheses are met -/

namespace Chain
set_option maxRecDepth 100000

theorem together (b : Backend) (arr : List Mark → List Mark) (db : Db) (h1 : KeysOk label db) (h2 : KeysOk path db)
    (h3 : StaleMarked label db) (h4 : StaleMarked path db) : FlushedTogether (app b arr) decls [label, path] db where
  each := by
    intro cb hcb
    simp only [List.mem_cons, List.not_mem_nil, or_false] at hcb
    rcases hcb with rfl | rfl
    · exact ⟨_, flushable_label b arr db, h1, h3⟩
    · exact ⟨_, flushable_path b arr db, h2, h4⟩
  own := by
    intro cb hcb
    simp only [List.mem_cons, List.not_mem_nil, or_false] at hcb
    rcases hcb with rfl | rfl <;> simp [label, path]
  reads := by
    intro cb hcb d hd c hc ht
    simp only [List.mem_cons, List.not_mem_nil, or_false] at hcb
    rcases hcb with rfl | rfl
    · simp only [label, List.mem_singleton] at hd
      subst hd
      simp only [labelDep, List.mem_singleton] at hc
      subst hc
      exact absurd ht (untouched b arr (by decide) (by decide))
    · simp only [path, List.mem_singleton] at hd
      subst hd
      simp only [pathDep, List.mem_singleton] at hc
      subst hc
      exact ⟨label, by simp, rfl, rfl⟩

theorem acyclic_any (b : Backend) (arr : List Mark → List Mark) (db : Db) : Acyclic (app b arr) decls db := by
  have h : ∀ p q, DependsOn (app b arr) decls db p q → rank p.1 p.2 < rank q.1 q.2 := by
    intro p q h
    induction h with
    | direct h1 h2 h3 h4 h5 => exact (layered b _ db).up _ h1 _ h2 _ h3 _ h4 h5
    | trans _ _ h1 h2 => exact Nat.lt_trans h1 h2
  intro p hpp
  exact Nat.lt_irrefl _ (h p p hpp)

/-- The chain, with every content of the tables, every two backends and marker orders and any markers that include the out-of-date
instances. -/
example (b b' : Backend) (arr arr' : List Mark → List Mark) (hp : ∀ l, (arr l).Perm l) (hp' : ∀ l, (arr' l).Perm l) (db : Db)
    (ms : List Mark) (hu : KeysUnique (app b arr) db) (h1 : KeysOk label db) (h2 : KeysOk path db)
    (h3 : StaleMarked label db) (h4 : StaleMarked path db) (h5 : StaleMarked label { db with dirty := ms })
    (h6 : StaleMarked path { db with dirty := ms }) (hk : MarksKnown (app b arr) db) (hk' : MarksKnown (app b arr) { db with dirty := ms }) :
    ∃ e e', (app b arr).flush ((app b arr).instances db).length.succ db = .ok (some e) ∧
      (app b' arr').flush ((app b arr).instances db).length.succ { db with dirty := ms } = .ok (some e') ∧
      e'.rows = e.rows ∧ e.dirty = [] ∧ e'.dirty = [] := by
  refine C19_returns_partial (cbs := [label, path]) (project b arr) (project b' arr') (calm b arr) (calm b' arr') rfl hp hp' rfl hu hk hk'
    (together b arr db h1 h2 h3 h4) (together b' arr' _ h1 h2 h5 h6) (acyclic_any b arr db) ?_
  intro t c ht
  by_cases h : (t, c) = ("entry", "label")
  · simp only [Prod.mk.injEq] at h
    exact ⟨label, by simp, h.1.symm, h.2.symm⟩
  · by_cases h' : (t, c) = ("comment", "path")
    · simp only [Prod.mk.injEq] at h'
      exact ⟨path, by simp, h'.1.symm, h'.2.symm⟩
    · rcases ht with ht | ht
      · exact absurd ht (untouched b arr h h')
      · exact absurd ht (untouched b' arr' h h')

/-- One such database; the same markers the other way round and three times each. -/
example (b : Backend) (arr : List Mark → List Mark) : KeysUnique (app b arr) staleDb ∧ KeysOk label staleDb ∧ KeysOk path staleDb ∧ StaleMarked label staleDb ∧
    StaleMarked path staleDb ∧ ¬ StaleMarked label { staleDb with dirty := [] } ∧
    StaleMarked label { staleDb with dirty := staleDb.dirty.reverse ++ staleDb.dirty ++ staleDb.dirty } ∧
    StaleMarked path { staleDb with dirty := staleDb.dirty.reverse ++ staleDb.dirty ++ staleDb.dirty } ∧ MarksKnown (app b arr) staleDb := by
  refine ⟨stale_unique b arr, ?_⟩
  unfold KeysOk StaleMarked MarksKnown
  cases b <;> simp only [app] <;> decide

end Chain

/-! ## Where the number of markers matters -/

/-- **C19 is violated** by the fields of C45, on backends without DISTINCT ON: no instance depends on any other, every out-of-date value is
marked, and yet flush() gives another result when the same instance is marked twice. -/
theorem C19_violated_multiplicity (b : Backend) (hb : b ≠ .postgresql) : ∃ (A : App) (D : List Denorm) (cb1 cb2 : Callback) (m : Mark)
    (rows : TableName → List Row) (e e' : Db),
    Acyclic A D ⟨rows, [m], 0⟩ ∧ Ready b A D cb1 ⟨rows, [m], 0⟩ ∧ Ready b A D cb2 ⟨rows, [m], 0⟩ ∧
    A.flush 1 ⟨rows, [m], 0⟩ = .ok (some e) ∧ A.flush 1 ⟨rows, [m, m], 0⟩ = .ok (some e') ∧ cb2.column e ≠ cb2.column e' := by
  have h1 : ∃ e, (Order.app b Order.badOrm).flush 1 Order.db = .ok (some e) ∧ Order.label.column e = [(.int 1, .text "A")] :=
    flush_of (by cases b <;> decide +kernel)
  have h2 : ∃ e, (Order.app b Order.badOrm).flush 1 { Order.db with dirty := [⟨21, .int 1⟩, ⟨21, .int 1⟩] } = .ok (some e) ∧
      Order.label.column e = [(.int 1, .text "Z")] :=
    flush_of (by cases b <;> first | exact absurd rfl hb | decide +kernel)
  obtain ⟨e, h1, h3⟩ := h1
  obtain ⟨e', h2, h4⟩ := h2
  have hu : KeysUnique (Order.app b Order.badOrm) Order.db := by unfold KeysUnique; cases b <;> decide
  refine ⟨Order.app b Order.badOrm, Order.decls, Order.upper, Order.label, ⟨21, .int 1⟩, Order.db.rows, e, e', ?_, ?_, ?_, h1, h2,
    by rw [h3, h4]; decide⟩
  · intro p hp
    have : ∀ p q, DependsOn (Order.app b Order.badOrm) Order.decls Order.db p q → False := by
      intro p q h
      induction h with
      | direct k1 k2 k3 k4 k5 =>
        simp only [Order.decls, List.mem_cons, List.not_mem_nil, or_false] at k1
        rcases k1 with rfl | rfl <;> rcases k5 with ⟨d, k6, -⟩ | ⟨a, k6, -⟩ <;>
          simp [Callback.denorm, Denorm.deps, Order.upper, Order.label] at k6
      | trans _ _ k1 _ => exact k1
    exact this p p hp
  · exact ⟨rfl, rfl, Order.wd_upper b, Order.noReentry b, ⟨_, List.mem_singleton.2 rfl, rfl, ⟨"upper", .callback Order.upper⟩,
      by simp [Order.badOrm], rfl, rfl⟩, Order.keysSafe b (.inr rfl), hu, by unfold KeysOk; decide, by unfold StaleMarked; decide⟩
  · exact ⟨rfl, rfl, Order.wd_label b, Order.noReentry b, ⟨_, List.mem_singleton.2 rfl, rfl, ⟨"label", .callback Order.label⟩,
      by simp [Order.badOrm], rfl, rfl⟩, Order.keysSafe b (.inr rfl), hu, by unfold KeysOk; decide, by unfold StaleMarked; decide⟩

/-- **C19 is violated** between backends with and without DISTINCT ON: the same rows and markers, and different results. -/
theorem C19_violated_distinct (b : Backend) (hb : b ≠ .postgresql) : ∃ (A A' : App) (D : List Denorm) (cb1 cb2 : Callback)
    (db e e' : Db), A.models = A'.models ∧ Acyclic A D db ∧ Ready .postgresql A D cb1 db ∧ Ready .postgresql A D cb2 db ∧
    Ready b A' D cb1 db ∧ Ready b A' D cb2 db ∧
    A.flush 1 db = .ok (some e) ∧ A'.flush 1 db = .ok (some e') ∧ cb2.column e ≠ cb2.column e' := by
  let db : Db := { Order.db with dirty := [⟨21, .int 1⟩, ⟨21, .int 1⟩] }
  have h1 : ∃ e, (Order.app .postgresql Order.badOrm).flush 1 db = .ok (some e) ∧ Order.label.column e = [(.int 1, .text "A")] :=
    flush_of (by decide +kernel)
  have h2 : ∃ e, (Order.app b Order.badOrm).flush 1 db = .ok (some e) ∧ Order.label.column e = [(.int 1, .text "Z")] :=
    flush_of (by cases b <;> first | exact absurd rfl hb | decide +kernel)
  obtain ⟨e, h1, h3⟩ := h1
  obtain ⟨e', h2, h4⟩ := h2
  have hu : ∀ b, KeysUnique (Order.app b Order.badOrm) db := fun b => by unfold KeysUnique; cases b <;> decide
  have hr1 : ∀ b, Ready b (Order.app b Order.badOrm) Order.decls Order.upper db := fun b =>
    ⟨rfl, rfl, Order.wd_upper b, Order.noReentry b, ⟨_, List.mem_singleton.2 rfl, rfl, ⟨"upper", .callback Order.upper⟩,
      by simp [Order.badOrm], rfl, rfl⟩, Order.keysSafe b (.inr rfl), hu b, by unfold KeysOk; decide, by unfold StaleMarked; decide⟩
  have hr2 : ∀ b, Ready b (Order.app b Order.badOrm) Order.decls Order.label db := fun b =>
    ⟨rfl, rfl, Order.wd_label b, Order.noReentry b, ⟨_, List.mem_singleton.2 rfl, rfl, ⟨"label", .callback Order.label⟩,
      by simp [Order.badOrm], rfl, rfl⟩, Order.keysSafe b (.inr rfl), hu b, by unfold KeysOk; decide, by unfold StaleMarked; decide⟩
  refine ⟨Order.app .postgresql Order.badOrm, Order.app b Order.badOrm, Order.decls, Order.upper, Order.label, db, e, e', rfl, ?_, hr1 _, hr2 _,
    hr1 _, hr2 _, h1, h2, by rw [h3, h4]; decide⟩
  intro p hp
  have : ∀ p q, DependsOn (Order.app .postgresql Order.badOrm) Order.decls db p q → False := by
    intro p q h
    induction h with
    | direct k1 k2 k3 k4 k5 =>
      simp only [Order.decls, List.mem_cons, List.not_mem_nil, or_false] at k1
      rcases k1 with rfl | rfl <;> rcases k5 with ⟨d, k6, -⟩ | ⟨a, k6, -⟩ <;>
        simp [Callback.denorm, Denorm.deps, Order.upper, Order.label] at k6
    | trans _ _ k1 _ => exact k1
  exact this p p hp

end Denorm
