import Verif.Lemmas.Evaluations
import Verif.Lemmas.Returns
import Verif.Lemmas.Cached
import Verif.Props.Transparent
import Verif.Props.Finishes
import Verif.Props.Rebuild
/-!
# Saving a new instance with a chosen key inserts it (C46)
-/
namespace Denorm

section
variable {A : App} {D : List Denorm} {om : OrmModel} {db : Db} {mem : Row}

/-- **C46, partial**, what happens instead of an IndexError: save() of a new instance with a chosen key, of a model without aggregates, succeeds.
It adds one row at the end of the model's table, with the chosen key and the values of the ordinary attributes. All other data stays as it was,
apart from the CountFields, SumFields and CacheKeyFields that triggers maintain. (Triggers come to an end: C51. The database's limit on the
work of one statement is high enough.) -/
theorem C46_inserted_partial (hE : Installed A.engine D) (hthis : ∀ dn ∈ D, ∀ d ∈ dn.deps, d.this = dn.model) (hfin : ∀ s db, A.engine.Finishes s db)
    (hP : om.Proper) (hno : ∀ r ∈ db.rows om.model.table, r om.model.pk ≠ mem om.model.pk) (hagg : ∀ f ∈ om.saved, f.kind.isAggregate = false) :
    ∃ db' mem' N, (∀ n, N ≤ n → (A.limit n).save om mem db = .ok (db', mem')) ∧ mem' om.model.pk = mem om.model.pk ∧
      (∀ f ∈ om.saved, f.kind = .plain → mem' f.col = mem f.col) ∧
      SameData (Maintained D) (fun t => if t = om.model.table then db.rows t ++ [mem'] else db.rows t) db'.rows := by
  have hok : ∀ mem : Row, ∃ mem1, preSaveAll A om.model db false om.saved mem = .ok mem1 := by
    intro mem
    obtain ⟨⟨mem1, h, _⟩, _⟩ := preSaveAllR_fst (A := A) (db := db) om.model false om.saved mem hP.pk (by
      intro mem' hm f hf
      have := hagg f hf
      unfold SaveField.preSave
      cases hk : f.kind with
      | aggregate => simp [hk, Kind.isAggregate] at this
      | plain => exact ⟨_, rfl⟩
      | callback cb => exact ⟨_, rfl⟩
      | cacheKey => exact ⟨_, rfl⟩)
    exact ⟨mem1, by rw [← preSaveAllR_snd, h]⟩
  obtain ⟨mem1, h1⟩ := hok mem
  obtain ⟨⟨mem2, h2, _⟩, _⟩ := preSaveAllR_fst (A := A) (db := db) om.model true om.saved mem1 hP.pk (fun _ _ _ _ => preSave_add)
  rw [preSaveAllR_snd] at h2
  obtain ⟨db', N, hN⟩ := hfin (.insert om.model.table [mem2]) db
  have hany : (db.rows om.model.table).any (isRowOf om.model (mem om.model.pk)) = false := by
    rw [List.any_eq_false]
    intro r hr h
    exact hno r hr (Val.sqlEq_iff.1 h).1
  have hpk : ∀ f ∈ om.saved, f.col = om.model.pk → f.kind = .plain :=
    fun f hf h => absurd (List.mem_map.2 ⟨f, hf, h⟩) hP.pk
  have huniq : ∀ f ∈ om.saved, f.kind = .plain → ∀ g ∈ om.saved, g.col = f.col → g.kind = .plain := by
    intro f hf hk g hg he
    have : g = f := by
      have hn : (om.saved.map SaveField.col).Nodup := hP.cols
      exact col_inj hn hg hf he
    rw [this, hk]
  refine ⟨db', mem2, N, fun n hn => ?_, ?_, fun f hf hk => ?_, ?_⟩
  · have hx : (A.limit n).exec (.insert om.model.table [mem2]) db = .ok db' := by
      have := hN n hn
      simp only [App.exec, App.limit, this]
    simp only [App.save, preSaveAll_limit, h1, hany, h2, hx, Bool.false_eq_true, if_false]
  · rw [preSaveAll_keeps h2 _ hpk, preSaveAll_keeps h1 _ hpk]
  · rw [preSaveAll_keeps h2 _ (huniq f hf hk), preSaveAll_keeps h1 _ (huniq f hf hk)]
  · exact C50_data hE hthis (s := .insert om.model.table [mem2]) trivial (hN N (Nat.le_refl _))

end

/-! ## The hypotheses are met -/

namespace Notes
set_option maxRecDepth 100000

theorem finishes (b : Backend) (s : Stmt) (db : Db) : (app b).engine.Finishes s db := by
  have key : ∀ tr ∈ (engine b).triggers, ∀ u, Action.update u ∉ tr.actions := by
    intro tr htr u hu
    have := DbTrigger.mem_updates.2 hu
    simp [noUpdates b _ htr] at this
  refine col_finishes (fun _ t c h => ?_) (fun p h => ?_) s db
  · generalize (t, c) = q at h
    induction h with
    | direct h1 _ h3 => exact key _ h1 _ h3
    | next _ _ h => exact h
  · generalize hq : p = q at h
    have : ∀ {p q}, ¬ Leads (engine b) p q := by
      intro p q h
      induction h with
      | direct h1 _ _ h3 => exact key _ h1 _ h3
      | trans _ _ h _ => exact h
    exact this (hq ▸ h)

/-- Note 3 does not exist. -/
example (b : Backend) : ∃ db' mem' N, (∀ n, N ≤ n → ((app b).limit n).save noteOrm (nrow 3 "z" "" "") db = .ok (db', mem')) ∧ mem' "id" = .int 3 ∧
    (∀ f ∈ noteOrm.saved, f.kind = .plain → mem' f.col = nrow 3 "z" "" "" f.col) ∧
    SameData (Maintained decls) (fun t => if t = "note" then db.rows t ++ [mem'] else db.rows t) db'.rows :=
  C46_inserted_partial (A := app b) (D := decls) (om := noteOrm) rfl (project b).this
    (finishes b)
    ⟨by decide, by decide⟩ (by decide) (by decide)

end Notes

end Denorm
