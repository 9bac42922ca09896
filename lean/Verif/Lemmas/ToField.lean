import Verif.Spec.ToField
import Verif.Lemmas.Inherited
import Verif.Props.TriggerSet
/-!
# Statements whose triggers find nothing
-/
namespace Denorm

section
variable {E : Engine} {D : List Denorm} {t : TableName} {P : Row → Prop} {M : Mark → Prop} {base : Db}

/-- Where names do not clash, the actions of an installed trigger come from triggers generated for its own table. -/
theorem installed_home {b : Backend} (hN : b = .mysql ∨ ∀ g ∈ generated D, ∀ g' ∈ generated D, ¬ Clash g g') {tr : DbTrigger}
    (h : tr ∈ installedTriggers b D) {a : Action} (ha : a ∈ tr.actions) : ∃ g ∈ generated D, g.table = tr.table ∧ a ∈ g.actions := by
  obtain ⟨g, hg, h1, h2, -⟩ := installed_head h
  obtain ⟨g', hg', h1', h2'⟩ := installed_origin h ha
  have := (C34_names_partial b g' g (hN.imp id fun h => ⟨h _ hg' _ hg, h _ hg _ hg'⟩)).1 (h1'.trans h1.symm)
  refine ⟨g', hg', ?_, h2'⟩
  simp only [PyTrigger.about, Prod.mk.injEq] at this
  rw [h2, this.1]

/-- What an action does for a change: it updates no row, and the markers it adds satisfy `M`. -/
def Mute (M : Mark → Prop) (ch : Change) (db : Db) : Action → Prop
  | .markValues ct s c _ => M ⟨ct, ch.side s c⟩
  | .markSelect ct sel t k s c _ => ∀ r ∈ db.rows t, Val.sqlEq (r k) (ch.side s c) = true → M ⟨ct, r sel⟩
  | .update u => ∀ r ∈ db.rows u.table, u.where_ ch db r = false

theorem targetsOf_nil {rows : List Row} {w : Row → Bool} (h : ∀ r ∈ rows, w r = false) : targetsOf rows w = [] := by
  unfold targetsOf
  rw [List.filter_eq_nil_iff]
  intro i _
  cases hi : rows[i]? with
  | none => simp
  | some r => simp [h r (List.mem_of_getElem? hi)]

/-- The rest of the database is as before, and the rows of table `t` satisfy `P`. -/
structure Quiet (t : TableName) (P : Row → Prop) (M : Mark → Prop) (base db : Db) : Prop where
  rows : ∀ t', t' ≠ t → db.rows t' = base.rows t'
  dirty : ∃ ms, db.dirty = base.dirty ++ ms ∧ ∀ m ∈ ms, M m
  here : ∀ r ∈ db.rows t, P r

def RowOp.Keeps (P : Row → Prop) : RowOp → Prop
  | .ins r => P r
  | .upd _ σ => ∀ x r, P r → P (σ x r)
  | .del _ => True

theorem Quiet.addMarks {db : Db} (h : Quiet t P M base db) {ms : List Mark} (hm : ∀ m ∈ ms, M m) : Quiet t P M base (db.addMarks ms) := by
  obtain ⟨ms', h1, h2⟩ := h.dirty
  refine ⟨h.rows, ⟨ms' ++ ms, by simp [Db.addMarks, h1], ?_⟩, h.here⟩
  intro m hm'
  rcases List.mem_append.1 hm' with hm' | hm'
  · exact h2 m hm'
  · exact hm m hm'

theorem still_applyOp {db : Db} (h : Quiet t P M base db) {op : RowOp} (ho : op.Keeps P) :
    Quiet t P M base (applyOp E t op db).1 ∧ ∀ ch ∈ (applyOp E t op db).2, ch.table = t ∧ P ch.old ∧ P ch.new := by
  obtain ⟨x, hx, hc, hu, hi, hd⟩ := applyOp_effect E t op db
  have hdirty : (applyOp E t op db).1.dirty = db.dirty := applyOp_dirty E t op db
  rw [hc]
  suffices hs : (∀ r ∈ (applyOp E t op db).1.rows t, P r) ∧ ∀ ch ∈ effectChange t x, ch.table = t ∧ P ch.old ∧ P ch.new by
    exact ⟨⟨fun t' ht => (applyOp_rows_other E op db ht).trans (h.rows t' ht), by rw [hdirty]; exact h.dirty, hs.1⟩, hs.2⟩
  have hh := h.here
  generalize (applyOp E t op db).1.rows t = rs' at hx
  cases hx with
  | none => exact ⟨hh, by simp [effectChange]⟩
  | ins r =>
    have := hi r r rfl
    subst this
    refine ⟨fun r' hr' => ?_, by simpa [effectChange, RowOp.Keeps] using ho⟩
    rcases List.mem_append.1 hr' with hr' | hr'
    · exact hh r' hr'
    · rw [List.mem_singleton.1 hr']; exact ho
  | upd l1 l2 old new he =>
    obtain ⟨i, σ, rfl, hn⟩ := hu old new rfl
    rw [he] at hh
    have hold : P old := hh old (by simp)
    have hnew : P new := hn ▸ ho _ _ hold
    refine ⟨fun r' hr' => ?_, by simp [effectChange, hold, hnew]⟩
    rcases List.mem_append.1 hr' with hr' | hr'
    · exact hh r' (by simp [hr'])
    · rcases List.mem_cons.1 hr' with rfl | hr'
      · exact hnew
      · exact hh r' (by simp [hr'])
  | del l1 l2 old he =>
    rw [he] at hh
    refine ⟨fun r' hr' => hh r' ?_, by simp [effectChange, hh old (by simp)]⟩
    rcases List.mem_append.1 hr' with hr' | hr' <;> simp [hr']

theorem still_applyOps : ∀ (ops : List RowOp) {db : Db}, Quiet t P M base db → (∀ op ∈ ops, op.Keeps P) →
    Quiet t P M base (applyOps E t ops db).1 ∧ ∀ ch ∈ (applyOps E t ops db).2, ch.table = t ∧ P ch.old ∧ P ch.new
  | [], _, h, _ => ⟨h, by simp [applyOps]⟩
  | op :: ops, db, h, ho => by
    obtain ⟨h1, h2⟩ := still_applyOp (E := E) h (ho op (List.mem_cons_self ..))
    obtain ⟨h3, h4⟩ := still_applyOps ops h1 fun op hop => ho op (List.mem_cons_of_mem _ hop)
    simp only [applyOps]
    refine ⟨h3, fun ch hch => ?_⟩
    rcases List.mem_append.1 hch with hch | hch
    · exact h2 ch hch
    · exact h4 ch hch

/-- The work that is left is harmless: writes to `t` that keep `P`, writes of nothing, and actions of triggers on `t`. -/
def Harmless (E : Engine) (t : TableName) (P : Row → Prop) : Item → Prop
  | .write _ t' ops => (t' = t ∧ ∀ op ∈ ops, op.Keeps P) ∨ ops = []
  | .act _ ch a => P ch.old ∧ P ch.new ∧ ∃ tr ∈ E.triggers, tr.table = t ∧ a ∈ tr.actions

theorem still_reach (hT : ∀ tr ∈ E.triggers, tr.table = t → ∀ a ∈ tr.actions, ∀ ch db, P ch.old → P ch.new → Quiet t P M base db → Mute M ch db a)
    {W W' : List Item} {db db' : Db} (hr : E.Reach W db W' db') (hW : ∀ it ∈ W, Harmless E t P it) (h : Quiet t P M base db) : Quiet t P M base db' := by
  induction hr with
  | refl => exact h
  | @step it W new db db1 W2 db2 hs hr ih =>
    have hit := hW it (List.mem_cons_self ..)
    have hrest : ∀ it ∈ W, Harmless E t P it := fun it hit => hW it (List.mem_cons_of_mem _ hit)
    suffices hk : (∀ it ∈ new, Harmless E t P it) ∧ Quiet t P M base db1 by
      refine ih (fun it hit => ?_) hk.2
      rcases List.mem_append.1 hit with hit | hit
      · exact hk.1 it hit
      · exact hrest it hit
    cases it with
    | write fr t' ops =>
      simp only [Engine.step, Except.ok.injEq, Prod.mk.injEq] at hs
      obtain ⟨rfl, rfl⟩ := hs
      rcases hit with ⟨rfl, ho⟩ | rfl
      · obtain ⟨h1, h2⟩ := still_applyOps (E := E) ops h ho
        refine ⟨fun it hit => ?_, h1⟩
        obtain ⟨ch, hch, hit⟩ := List.mem_flatMap.1 hit
        obtain ⟨tr, htr, hen, a, ha, rfl⟩ := mem_fired.1 hit
        obtain ⟨c1, c2, c3⟩ := h2 ch hch
        refine ⟨c2, c3, tr, htr, ?_, ha⟩
        simp only [Engine.enters, Bool.and_eq_true, decide_eq_true_eq] at hen
        rw [hen.1.1.1, c1]
      · exact ⟨by simp [applyOps], h⟩
    | act fr ch a =>
      obtain ⟨h1, h2, tr, htr, ht, ha⟩ := hit
      have hm := hT tr htr ht a ha ch db h1 h2 h
      cases a with
      | markValues ct s c q =>
        simp only [Engine.step, Except.ok.injEq, Prod.mk.injEq] at hs
        obtain ⟨rfl, rfl⟩ := hs
        exact ⟨by simp, h.addMarks (by simpa [Mute] using hm)⟩
      | markSelect ct sel t' k s c q =>
        simp only [Engine.step, Except.ok.injEq, Prod.mk.injEq] at hs
        obtain ⟨rfl, rfl⟩ := hs
        refine ⟨by simp, h.addMarks fun m hm' => ?_⟩
        obtain ⟨r, hr, rfl⟩ := List.mem_map.1 (mem_dedup.1 hm')
        obtain ⟨hr1, hr2⟩ := List.mem_filter.1 hr
        exact hm r hr1 hr2
      | update u =>
        simp only [Engine.step] at hs
        split at hs
        · simp at hs
        · simp only [Except.ok.injEq, Prod.mk.injEq] at hs
          obtain ⟨rfl, rfl⟩ := hs
          refine ⟨fun it hit => ?_, h⟩
          obtain ⟨l, rfl, hl⟩ := mem_writes hit
          right
          have : u.ops ch db = [] := by simp [UpdAction.ops, targetsOf_nil hm]
          rw [this] at hl
          exact List.eq_nil_iff_forall_not_mem.2 fun op hop => by simpa using hl op hop

theorem stmt_ops_keeps {s : Stmt} (hs : s.Keeps P) (db : Db) : ∀ op ∈ s.ops db, op.Keeps P := by
  intro op hop
  cases s with
  | insert t rs => obtain ⟨r, hr, rfl⟩ := List.mem_map.1 hop; exact hs r hr
  | update t w σ => obtain ⟨i, _, rfl⟩ := List.mem_map.1 hop; exact hs
  | delete t w => obtain ⟨i, _, rfl⟩ := List.mem_map.1 hop; trivial

/-- A statement whose triggers find no row to update and mark nothing but `M`. -/
theorem exec_still (hT : ∀ tr ∈ E.triggers, tr.table = t → ∀ a ∈ tr.actions, ∀ ch db, P ch.old → P ch.new → Quiet t P M base db → Mute M ch db a)
    {s : Stmt} (hs : s.table = t) (hk : s.Keeps P) (hb : ∀ r ∈ base.rows t, P r) {fuel : Nat} {db' : Db} (he : E.exec fuel s base = .ok db') :
    Quiet t P M base db' := by
  refine still_reach hT (Engine.reach_of_drain _ _ _ _ he) (fun it hit => ?_) ⟨fun _ _ => rfl, ⟨[], by simp⟩, hb⟩
  obtain ⟨l, rfl, hl⟩ := mem_writes hit
  exact .inl ⟨hs, fun op hop => stmt_ops_keeps hk base op (hl op hop)⟩

/-- The same, for one declaration that has triggers on the table. -/
theorem exec_still_of {dn : Denorm} (hE : Installed E D) (hN : E.backend = .mysql ∨ ∀ g ∈ generated D, ∀ g' ∈ generated D, ¬ Clash g g')
    (hD : ∀ dn' ∈ D, dn' = dn ∨ ∀ g ∈ dn'.triggers, g.table ≠ t)
    (hT : ∀ g ∈ dn.triggers, g.table = t → ∀ a ∈ g.actions, ∀ ch db, P ch.old → P ch.new → Quiet t P M base db → Mute M ch db a)
    {s : Stmt} (hs : s.table = t) (hk : s.Keeps P) (hb : ∀ r ∈ base.rows t, P r) {fuel : Nat} {db' : Db} (he : E.exec fuel s base = .ok db') :
    Quiet t P M base db' := by
  refine exec_still (fun tr htr ht a ha => ?_) hs hk hb he
  rw [hE] at htr
  obtain ⟨g, hg, h1, h2⟩ := installed_home hN htr ha
  obtain ⟨dn', hdn', hg'⟩ := List.mem_flatMap.1 hg
  rcases hD dn' hdn' with rfl | h
  · exact hT g hg' (h1.trans ht) a h2
  · exact absurd (h1.trans ht) (h g hg')

end

section
variable {v : Aimed} {db : Db}

theorem sqlEq_comm (a b : Val) : Val.sqlEq a b = Val.sqlEq b a := by
  rw [Bool.eq_iff_iff, Val.sqlEq_iff, Val.sqlEq_iff]
  exact ⟨fun h => ⟨h.1.symm, h.1 ▸ h.2⟩, fun h => ⟨h.1.symm, h.1 ▸ h.2⟩⟩

/-- Where the column mirrors the primary key, the two readings of the ForeignKey agree. -/
theorem aimed_value (h : Mirrors v.target v.to db) {r : Row} (hr : r ∈ db.rows v.model.table) : v.callback.value db r = v.value db r := by
  simp only [Aimed.value, Callback.value, Aimed.callback, List.map_cons, List.map_nil, List.headD_cons]
  congr 2
  unfold Aimed.related Aimed.dep relatedRows
  unfold Mirrors Aimed.target at h
  cases hb : v.backward
  · simp only [hb, Bool.false_eq_true, if_false] at h ⊢
    exact List.filter_congr fun o ho => by rw [h o ho]
  · simp only [hb, if_true] at h ⊢
    rw [h r hr]

theorem aimed_staleMarked (h : Mirrors v.target v.to db) : StaleMarked v.callback db ↔ v.StaleMarked db := by
  unfold StaleMarked Aimed.StaleMarked Callback.Fresh Aimed.Fresh
  constructor <;> intro hs r hr hf
  · exact hs r hr (by rw [aimed_value h hr]; exact hf)
  · exact hs r hr (by rw [← aimed_value h hr]; exact hf)

end
end Denorm
