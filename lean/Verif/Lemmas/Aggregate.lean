import Verif.Lemmas.AggRuns
import Verif.Lemmas.Phases
/-!
# The aggregate invariant

While a statement runs, the stored number of an instance differs from the right one by exactly what the work left will add.
-/
namespace Denorm

structure AggCtx (E : Engine) (D : List Denorm) (a : AggDenorm) (S : List (TableName × Col)) (rank : String → Nat) : Prop where
  inst : Installed E D
  decl : AggDeclared E.backend D a
  ranked : Ranked E rank
  closed : IntClosed E.backend D S
  mem : (a.model.table, a.fieldname) ∈ S

def ChangeInt (S : List (TableName × Col)) (ch : Change) : Prop := IntRow S ch.table ch.old ∧ IntRow S ch.table ch.new

/-- Pending work of triggers, with its origin. -/
def AggItem (E : Engine) (rank : String → Nat) (S : List (TableName × Col)) (it : Item) : Prop :=
  ItemOk E rank (.insert "" []) it ∧
  match it with
  | .write _ t ops => ∀ op ∈ ops, ∃ i u ch db, op = .upd i (u.set ch db) ∧ u.table = t ∧ ChangeInt S ch ∧
      ∃ tr ∈ E.triggers, .update u ∈ tr.actions ∧ tr.table = ch.table
  | .act _ ch x => ChangeInt S ch ∧ ∃ tr ∈ E.triggers, x ∈ tr.actions ∧ tr.table = ch.table

theorem aggItem_fired {E : Engine} {rank : String → Nat} {S : List (TableName × Col)} {s : Stmt} {fr : Frame} {t : TableName} {op : RowOp}
    {ops : List RowOp} {db : Db} (h : ItemOk E rank s (.write fr t (op :: ops))) (hI : ∀ ch ∈ (applyOp E t op db).2, ChangeInt S ch) :
    ∀ it ∈ (applyOp E t op db).2.flatMap (E.fired fr), AggItem E rank S it := by
  intro it hit
  have h1 := itemOk_fired (db := db) h it hit
  obtain ⟨ch, hch, hit⟩ := List.mem_flatMap.1 hit
  obtain ⟨tr, htr, hen, x, hx, rfl⟩ := mem_fired.1 hit
  refine ⟨h1, hI ch hch, tr, htr, hx, ?_⟩
  simp only [Engine.enters, Bool.and_eq_true, decide_eq_true_eq] at hen
  exact hen.1.1.1

theorem aggItem_update {E : Engine} {rank : String → Nat} {S : List (TableName × Col)} (hR : Ranked E rank) {fr : Frame} {ch : Change}
    {u : UpdAction} {db : Db} (h : AggItem E rank S (.act fr ch (.update u))) :
    ∀ it ∈ writes E.backend fr u.table (u.ops ch db), AggItem E rank S it := by
  intro it hit
  have h1 := itemOk_update (db := db) hR h.1 it hit
  obtain ⟨l, rfl, hl⟩ := mem_writes hit
  refine ⟨h1, fun op ho => ?_⟩
  obtain ⟨i, _, rfl⟩ := List.mem_map.1 (hl op ho)
  obtain ⟨tr, htr, hx, ht⟩ := h.2.2
  exact ⟨i, u, ch, db, rfl, rfl, h.2.1, tr, htr, hx, ht⟩

/-- An UPDATE action of a trigger that writes the aggregate's column is one of the aggregate's own. -/
theorem agg_own {E : Engine} {D : List Denorm} {a : AggDenorm} (hE : Installed E D) (hD : AggDeclared E.backend D a) {tr : DbTrigger}
    (htr : tr ∈ E.triggers) {u : UpdAction} (hu : .update u ∈ tr.actions) (ht : u.table = a.model.table) (hc : u.col = a.fieldname) :
    Action.update u = a.increment ∨ Action.update u = a.decrement := by
  rw [hE] at htr
  obtain ⟨g, hg, _, h2⟩ := installed_origin htr hu
  obtain ⟨dn, hdn, hg⟩ := List.mem_flatMap.1 hg
  have hw : (u.table, u.col) ∈ dn.writes := by
    cases dn with
    | callback bu m f sk ds =>
      simp only [Denorm.triggers, List.mem_append] at hg
      rcases hg with hg | hg
      · split at hg
        · simp at hg
        · simp only [selfTriggers, List.mem_cons, List.not_mem_nil, or_false] at hg
          rcases hg with rfl | rfl <;> simp [mkTrigger_actions] at h2
      · obtain ⟨d, _, hg⟩ := List.mem_flatMap.1 hg
        exact absurd h2 (callback_no_update hg)
    | cacheKey m f ds =>
      obtain ⟨d, hd, hg⟩ := List.mem_flatMap.1 hg
      obtain ⟨h1, h2, _⟩ := cacheKey_update hg h2
      exact List.mem_map.2 ⟨d, hd, by rw [h1, h2]⟩
    | aggregate a =>
      rcases aggregate_update hg h2 with h | h <;> simp only [AggDenorm.increment, AggDenorm.decrement, Action.update.injEq] at h <;>
        subst h <;> simp [Denorm.writes]
  rw [ht, hc] at hw
  have := hD.only dn hdn hw
  subst this
  exact aggregate_update hg h2

/-- What triggers write into integer columns are integers. -/
theorem set_int {E : Engine} {D : List Denorm} {S : List (TableName × Col)} (hE : Installed E D) (hS : IntClosed E.backend D S)
    {tr : DbTrigger} (htr : tr ∈ E.triggers) {u : UpdAction} (hu : .update u ∈ tr.actions) {ch : Change} (hch : ChangeInt S ch)
    (ht : tr.table = ch.table) (db : Db) (x : Int) {r : Row} (hr : IntRow S u.table r) : IntRow S u.table (u.set ch db x r) := by
  intro c hc
  by_cases hcc : c = u.col
  · subst hcc
    obtain ⟨i, hi⟩ := hr _ hc
    simp only [UpdAction.set, Row.set, if_true, hi]
    by_cases hx : u.expr = .random
    · exact ⟨x, by rw [hx]; rfl⟩
    · rw [hE] at htr
      obtain ⟨g, hg, hn, h2⟩ := installed_origin htr hu
      obtain ⟨a', h3, h4⟩ := agg_origin hx g hg h2
      have hu' := aggregate_update h4 h2
      have hsame : u.table = a'.model.table ∧ u.col = a'.fieldname := by
        rcases hu' with h | h <;> simp only [AggDenorm.increment, AggDenorm.decrement, Action.update.injEq] at h <;> simp [h]
      obtain ⟨hcov, hsum⟩ := hS a' h3 (by rw [← hsame.1, ← hsame.2]; exact hc)
      have htab : ch.table = a'.related.table := by
        obtain ⟨g', k1, k2, _⟩ := installed_first htr
        have hC := hcov g h4
        rw [← hn, firstNamed] at k1
        simp only [Covered, k1] at hC
        obtain ⟨ev, rfl⟩ := AggDenorm.mem_triggers.1 h4
        rw [← ht, k2, hC.1]; rfl
      cases hagg : a'.agg with
      | count =>
        rcases hu' with h | h <;> simp only [AggDenorm.increment, AggDenorm.decrement, Action.update.injEq, hagg, Agg.incr, Agg.decr] at h <;>
          subst h
        · exact ⟨i + 1, rfl⟩
        · exact ⟨i - 1, rfl⟩
      | sum f =>
        have hf := hsum f hagg
        rw [← htab] at hf
        obtain ⟨j, hj⟩ := hch.1 f hf
        obtain ⟨j', hj'⟩ := hch.2 f hf
        rcases hu' with h | h <;> simp only [AggDenorm.increment, AggDenorm.decrement, Action.update.injEq, hagg, Agg.incr, Agg.decr] at h <;>
          subst h
        · exact ⟨i + j', by simp [SetExpr.eval, Term.eval, Change.side, hj', Val.add]⟩
        · exact ⟨i - j, by simp [SetExpr.eval, Term.eval, Change.side, hj, Val.sub]⟩
  · rw [UpdAction.set_other _ _ _ _ _ _ hcc]
    exact hr c hc

/-! ## What the work left will add -/

/-- What a pending row write adds to column `f` of the row at position `i`. -/
def opDelta (f : Col) (i : Nat) : RowOp → Int
  | .upd j σ => if j = i then (σ 0 (fun _ => .int 0) f).toInt else 0
  | _ => 0

def AggDenorm.eff (a : AggDenorm) (i : Nat) (k : Val) : Item → Int
  | .write _ t ops => if t = a.model.table then (ops.map (opDelta a.fieldname i)).sum else 0
  | .act _ ch x => a.actEff ch k x

def AggDenorm.effs (a : AggDenorm) (i : Nat) (k : Val) (W : List Item) : Int := (W.map (a.eff i k)).sum

theorem sum_perm {l l' : List Int} (h : l.Perm l') : l.sum = l'.sum := by
  induction h with
  | nil => rfl
  | cons x _ ih => simp [ih]
  | swap x y l => simp only [List.sum_cons]; omega
  | trans _ _ ih1 ih2 => exact ih1.trans ih2

theorem effs_perm (a : AggDenorm) (i : Nat) (k : Val) {W W' : List Item} (h : W.Perm W') : a.effs i k W = a.effs i k W' :=
  sum_perm (h.map _)

theorem effs_append (a : AggDenorm) (i : Nat) (k : Val) (W W' : List Item) : a.effs i k (W ++ W') = a.effs i k W + a.effs i k W' := by
  simp [AggDenorm.effs]

theorem effs_cons (a : AggDenorm) (i : Nat) (k : Val) (it : Item) (W : List Item) : a.effs i k (it :: W) = a.eff i k it + a.effs i k W := by
  simp [AggDenorm.effs]

theorem effs_writes (a : AggDenorm) (i : Nat) (k : Val) (b : Backend) (fr : Frame) (t : TableName) (ops : List RowOp) :
    a.effs i k (writes b fr t ops) = if t = a.model.table then (ops.map (opDelta a.fieldname i)).sum else 0 := by
  have hm : a.effs i k (ops.map fun op => .write fr t [op]) = if t = a.model.table then (ops.map (opDelta a.fieldname i)).sum else 0 := by
    unfold AggDenorm.effs
    induction ops with
    | nil => simp
    | cons op ops ih =>
      simp only [List.map_cons, List.sum_cons, ih, AggDenorm.eff]
      split <;> simp
  cases b
  · exact hm
  · exact hm
  · simp [writes, AggDenorm.effs, AggDenorm.eff]

theorem effs_fired {E : Engine} {D : List Denorm} {a : AggDenorm} (hE : Installed E D) (hD : AggDeclared E.backend D a) {fr : Frame}
    {ch : Change} (hb : NotBlocked E fr ch) (i : Nat) (k : Val) : a.effs i k (E.fired fr ch) = a.shift ch k := by
  rw [← fired_shift hE hD hb k]
  have : ∀ l : List Item, (∀ it ∈ l, ∃ fr' x, it = .act fr' ch x) → a.effs i k l = ((l.filterMap Item.action).map (a.actEff ch k)).sum := by
    intro l
    induction l with
    | nil => intro _; rfl
    | cons it l ih =>
      intro h
      obtain ⟨fr', x, rfl⟩ := h it (List.mem_cons_self ..)
      rw [effs_cons, ih (fun it hit => h it (List.mem_cons_of_mem _ hit))]
      simp [List.filterMap_cons, Item.action, AggDenorm.eff]
  apply this
  intro it hit
  obtain ⟨tr, _, _, x, _, rfl⟩ := mem_fired.1 hit
  exact ⟨_, x, rfl⟩

theorem effs_acts (a : AggDenorm) (i j : Nat) (k : Val) : ∀ {W : List Item}, (∀ it ∈ W, it.isAct) → a.effs i k W = a.effs j k W
  | [], _ => rfl
  | it :: W, h => by
    rw [effs_cons, effs_cons, effs_acts a i j k fun it hit => h it (List.mem_cons_of_mem _ hit)]
    cases it with
    | write => exact absurd (h _ (List.mem_cons_self ..)) (by simp [Item.isAct])
    | act => rfl

/-- What one row operation changes about the right number. -/
theorem total_apply (E : Engine) (a : AggDenorm) (t : TableName) (op : RowOp) (db : Db) (k : Val) :
    a.total (applyOp E t op db).1 k = a.total db k + ((applyOp E t op db).2.map fun ch => a.shift ch k).sum := by
  obtain ⟨x, heff, hch, _⟩ := applyOp_effect E t op db
  rw [hch, total_eq, total_eq]
  by_cases ht : a.related.table = t
  · subst ht
    generalize db.rows a.related.table = rs at heff
    generalize (applyOp E a.related.table op db).1.rows a.related.table = rs' at heff
    cases heff with
    | none => simp [effectChange]
    | ins r => simp [effectChange, AggDenorm.shift]
    | upd l1 l2 old new he => subst he; simp [effectChange, AggDenorm.shift]; omega
    | del l1 l2 old he => subst he; simp [effectChange, AggDenorm.shift]; omega
  · rw [applyOp_rows_other E op db ht]
    rcases x with _ | ⟨e, o, n⟩
    · simp [effectChange]
    · simp [effectChange, AggDenorm.shift, Ne.symm ht]

/-- What a target of the aggregate's own UPDATE gets. -/
theorem own_delta {E : Engine} {D : List Denorm} {a : AggDenorm} {S : List (TableName × Col)} {rank : String → Nat}
    (hC : AggCtx E D a S rank) {tr : DbTrigger} (htr : tr ∈ E.triggers) {u : UpdAction} (hu : .update u ∈ tr.actions) {ch : Change}
    (hch : ChangeInt S ch) (ht : tr.table = ch.table) (db : Db) (x : Int) {r : Row} {v : Int} (hv : r a.fieldname = .int v)
    (hut : u.table = a.model.table) :
    u.set ch db x r a.fieldname = .int (v + (u.set ch db 0 (fun _ => .int 0) a.fieldname).toInt) := by
  by_cases hc : u.col = a.fieldname
  · have hown := agg_own hC.inst hC.decl htr hu hut hc
    obtain ⟨w, hw⟩ := set_int (S := S) hC.inst hC.closed htr hu hch ht db 0 (r := fun _ => .int 0) (fun _ _ => ⟨0, rfl⟩) a.fieldname (hut ▸ hC.mem)
    have : ∃ w', u.expr.eval (.int 0) 0 ch db = .int w' ∧ ∀ v, u.expr.eval (.int v) x ch db = .int (v + w') := by
      simp only [UpdAction.set, Row.set, hc, if_true] at hw
      refine ⟨w, hw, fun v => ?_⟩
      have key : ∀ tm : Term, (Val.add (.int 0) (tm.eval ch db) = .int w → Val.add (.int v) (tm.eval ch db) = .int (v + w)) ∧
          (Val.sub (.int 0) (tm.eval ch db) = .int w → Val.sub (.int v) (tm.eval ch db) = .int (v + w)) := by
        intro tm
        constructor
        · cases tm.eval ch db <;> simp only [Val.add, reduceCtorEq, false_implies, Val.int.injEq]
          intro h; omega
        · cases tm.eval ch db <;> simp only [Val.sub, reduceCtorEq, false_implies, Val.int.injEq]
          intro h; omega
      cases he : u.expr with
      | plus tm => rw [he] at hw; exact (key tm).1 hw
      | minus tm => rw [he] at hw; exact (key tm).2 hw
      | random =>
        obtain ⟨r1, r2⟩ := incr_not_random a
        rcases hown with h | h <;> simp only [AggDenorm.increment, AggDenorm.decrement, Action.update.injEq] at h <;> rw [h] at he
        · exact absurd he r1
        · exact absurd he r2
    obtain ⟨w', h1, h2⟩ := this
    simp only [UpdAction.set, Row.set, hc, if_true, hv, h1, h2, Val.toInt]
  · rw [UpdAction.set_other _ _ _ _ _ _ (Ne.symm hc), UpdAction.set_other _ _ _ _ _ _ (Ne.symm hc), hv]
    simp [Val.toInt]

theorem sum_targets (f : Col) (σ : Int → Row → Row) (i : Nat) : ∀ {l : List Nat}, l.Nodup →
    ((l.map fun j => RowOp.upd j σ).map (opDelta f i)).sum = if i ∈ l then (σ 0 (fun _ => .int 0) f).toInt else 0
  | [], _ => by simp
  | j :: l, h => by
    simp only [List.nodup_cons] at h
    have ih := sum_targets f σ i h.2
    simp only [List.map_cons, List.sum_cons, ih, opDelta, List.mem_cons]
    by_cases hj : j = i
    · subst hj; simp [h.1]
    · have : i ≠ j := Ne.symm hj
      simp [hj, this]

/-- An UPDATE action turned into row writes: what is added to the row at position `i` stays the same. -/
theorem effs_update {E : Engine} {D : List Denorm} {a : AggDenorm} {S : List (TableName × Col)} {rank : String → Nat}
    (hC : AggCtx E D a S rank) {fr : Frame} {ch : Change} {u : UpdAction} {db : Db} (h : AggItem E rank S (.act fr ch (.update u)))
    {i : Nat} {r : Row} (hr : (db.rows a.model.table)[i]? = some r) :
    a.effs i (r a.model.pk) (writes E.backend fr u.table (u.ops ch db)) = a.eff i (r a.model.pk) (.act fr ch (.update u)) := by
  obtain ⟨hch, tr, htr, hu, ht⟩ := h.2
  rw [effs_writes]
  simp only [AggDenorm.eff]
  by_cases hut : u.table = a.model.table
  · rw [if_pos hut, UpdAction.ops, sum_targets _ _ _ (nodup_targetsOf _ _)]
    by_cases hc : u.col = a.fieldname
    · have hmem : i ∈ targetsOf (db.rows u.table) (u.where_ ch db) ↔ u.where_ ch db r = true := by
        rw [mem_targetsOf, hut]
        constructor
        · rintro ⟨r', h1, h2⟩
          rw [hr] at h1
          simp only [Option.some.injEq] at h1
          exact h1 ▸ h2
        · exact fun h => ⟨r, hr, h⟩
      rcases agg_own hC.inst hC.decl htr hu hut hc with ho | ho
      · have hw : u.where_ ch db r = true ↔ a.Selects (r a.model.pk) ch.new := by
          simp only [AggDenorm.increment, Action.update.injEq] at ho
          rw [ho]
          exact where_iff hC.decl.conds hC.decl.fkcol .new _ _ _ ch db r
        simp only [hmem, hw, AggDenorm.actEff, if_pos ho, AggDenorm.share]
        split
        · simp only [AggDenorm.increment, Action.update.injEq] at ho
          rw [ho]
          simp only [UpdAction.set, Row.set, if_true, AggDenorm.amount]
          cases hagg : a.agg with
          | count => rfl
          | sum f =>
            simp only [Agg.incr, SetExpr.eval, Term.eval, Change.side]
            cases ch.new f <;> simp [Val.add, Val.toInt]
        · rfl
      · have hw : u.where_ ch db r = true ↔ a.Selects (r a.model.pk) ch.old := by
          simp only [AggDenorm.decrement, Action.update.injEq] at ho
          rw [ho]
          exact where_iff hC.decl.conds hC.decl.fkcol .old _ _ _ ch db r
        have hne : Action.update u ≠ a.increment := fun h => a.incr_ne_decr (h.symm.trans ho)
        simp only [hmem, hw, AggDenorm.actEff, if_neg hne, if_pos ho, AggDenorm.share]
        split
        · simp only [AggDenorm.decrement, Action.update.injEq] at ho
          rw [ho]
          simp only [UpdAction.set, Row.set, if_true, AggDenorm.amount]
          cases hagg : a.agg with
          | count => rfl
          | sum f =>
            simp only [Agg.decr, SetExpr.eval, Term.eval, Change.side]
            cases ch.old f <;> simp [Val.sub, Val.toInt]
        · rfl
    · have h0 : (u.set ch db 0 (fun _ => .int 0) a.fieldname).toInt = 0 := by
        rw [UpdAction.set_other _ _ _ _ _ _ (Ne.symm hc)]; rfl
      have n1 : Action.update u ≠ a.increment := by
        intro h; simp only [AggDenorm.increment, Action.update.injEq] at h; exact hc (by rw [h])
      have n2 : Action.update u ≠ a.decrement := by
        intro h; simp only [AggDenorm.decrement, Action.update.injEq] at h; exact hc (by rw [h])
      simp [h0, AggDenorm.actEff, n1, n2]
  · have n1 : Action.update u ≠ a.increment := by
      intro h; simp only [AggDenorm.increment, Action.update.injEq] at h; exact hut (by rw [h])
    have n2 : Action.update u ≠ a.decrement := by
      intro h; simp only [AggDenorm.decrement, Action.update.injEq] at h; exact hut (by rw [h])
    simp [hut, AggDenorm.actEff, n1, n2]

end Denorm
