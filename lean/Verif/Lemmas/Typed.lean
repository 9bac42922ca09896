import Verif.Spec.Typed
import Verif.Lemmas.Works
/-!
# Columns that change what they store
-/
namespace Denorm

section
variable {τ : ColumnTypes} {E : Engine} {db db' : Db}

/-- A row that is stored as it is. -/
def ColumnTypes.Keeps (τ : ColumnTypes) (t : TableName) (r : Row) : Prop := ∀ c, τ t c (r c) = r c

/-- The same write: of values as they are given, and of values as they are stored. -/
inductive OpSim (τ : ColumnTypes) (t : TableName) : RowOp → RowOp → Prop where
  | ins {r r'} : r' = τ.row t r → OpSim τ t (.ins r) (.ins r')
  | upd {i σ σ'} : (∀ x r, τ.Keeps t r → σ' x r = τ.row t (σ x r)) → OpSim τ t (.upd i σ) (.upd i σ')
  | del {w} : OpSim τ t (.del w) (.del w)

inductive OpsSim (τ : ColumnTypes) (t : TableName) : List RowOp → List RowOp → Prop where
  | nil : OpsSim τ t [] []
  | cons {op op' ops ops'} : OpSim τ t op op' → OpsSim τ t ops ops' → OpsSim τ t (op :: ops) (op' :: ops')

inductive ItemSim (τ : ColumnTypes) : Item → Item → Prop where
  | write {fr t ops ops'} : OpsSim τ t ops ops' → ItemSim τ (.write fr t ops) (.write fr t ops')
  | act {fr ch a} : (∀ u, a = .update u → ∀ v, τ u.table u.col v = v) → ItemSim τ (.act fr ch a) (.act fr ch a)

inductive ItemsSim (τ : ColumnTypes) : List Item → List Item → Prop where
  | nil : ItemsSim τ [] []
  | cons {it it' W W'} : ItemSim τ it it' → ItemsSim τ W W' → ItemsSim τ (it :: W) (it' :: W')

theorem ItemsSim.append {W1 W1' W2 W2' : List Item} (h : ItemsSim τ W1 W1') (h2 : ItemsSim τ W2 W2') : ItemsSim τ (W1 ++ W2) (W1' ++ W2') := by
  induction h with
  | nil => exact h2
  | cons h _ ih => exact .cons h ih

theorem itemsSim_self : ∀ {W : List Item}, (∀ it ∈ W, ItemSim τ it it) → ItemsSim τ W W
  | [], _ => .nil
  | it :: W, h => .cons (h it (List.mem_cons_self ..)) (itemsSim_self fun x hx => h x (List.mem_cons_of_mem _ hx))

theorem keeps_row (h2 : ∀ t c v, τ t c (τ t c v) = τ t c v) (t : TableName) (r : Row) : τ.Keeps t (τ.row t r) := fun c => h2 t c (r c)

theorem stored_setRows (hdb : db.Stored τ) {t : TableName} {l : List Row} (h : ∀ r ∈ l, τ.Keeps t r) : (db.setRows t l).Stored τ := by
  intro t' r hr
  by_cases ht : t' = t
  · subst ht
    simp only [Db.setRows, if_true] at hr
    exact h r hr
  · simp only [Db.setRows, if_neg ht] at hr
    exact hdb t' r hr

theorem op_sim (h2 : ∀ t c v, τ t c (τ t c v) = τ t c v) (hdb : db.Stored τ) {t : TableName} {op op' : RowOp} (h : OpSim τ t op op') :
    applyOpStored E τ.store t op db = some (applyOp E t op' db) ∧ (applyOp E t op' db).1.Stored τ := by
  cases h with
  | @ins r r' e =>
    subst e
    refine ⟨rfl, stored_setRows hdb fun x hx => ?_⟩
    rcases List.mem_append.1 hx with h | h
    · exact hdb t x h
    · rw [List.mem_singleton.1 h]
      exact keeps_row h2 t r
  | @upd i σ σ' hσ =>
    simp only [applyOpStored, applyOp]
    cases hi : (db.rows t)[i]? with
    | none => exact ⟨rfl, hdb⟩
    | some old =>
      have hold : τ.Keeps t old := hdb t old (List.mem_of_getElem? hi)
      simp only [ColumnTypes.store, Option.map_some]
      rw [← hσ (E.rand db.draws) old hold]
      refine ⟨rfl, fun t' r hr => ?_⟩
      refine stored_setRows hdb (l := (db.rows t).set i (σ' (E.rand db.draws) old)) (t := t) (fun x hx => ?_) t' r hr
      rcases List.mem_or_eq_of_mem_set hx with h | h
      · exact hdb t x h
      · rw [h, hσ _ _ hold]
        exact keeps_row h2 t _
  | @del w =>
    simp only [applyOpStored, applyOp]
    cases hf : (db.rows t).find? w with
    | none => exact ⟨rfl, hdb⟩
    | some old => exact ⟨rfl, stored_setRows hdb fun x hx => hdb t x (List.mem_of_mem_eraseP hx)⟩

theorem ops_sim (h2 : ∀ t c v, τ t c (τ t c v) = τ t c v) {t : TableName} {ops ops' : List RowOp} (h : OpsSim τ t ops ops') : ∀ {db : Db}, db.Stored τ →
    applyOpsStored E τ.store t ops db = some (applyOps E t ops' db) ∧ (applyOps E t ops' db).1.Stored τ := by
  induction h with
  | nil => exact fun hdb => ⟨rfl, hdb⟩
  | cons h _ ih =>
    intro db hdb
    obtain ⟨h1, h3⟩ := op_sim (E := E) h2 hdb h
    obtain ⟨h4, h5⟩ := ih h3
    simp only [applyOpsStored, applyOps, h1, h4, Option.map_some]
    exact ⟨trivial, h5⟩

theorem writes_sim {b : Backend} {fr : Frame} {t : TableName} {ops ops' : List RowOp} (h : OpsSim τ t ops ops') : ItemsSim τ (writes b fr t ops) (writes b fr t ops') := by
  have aux : ItemsSim τ (ops.map fun op => .write fr t [op]) (ops'.map fun op => .write fr t [op]) := by
    induction h with
    | nil => exact .nil
    | cons h _ ih => exact .cons (.write (.cons h .nil)) ih
  cases b with
  | postgresql => exact .cons (.write h) .nil
  | sqlite => exact aux
  | mysql => exact aux

theorem upds_sim {t : TableName} {σ σ' : Int → Row → Row} (h : ∀ x r, τ.Keeps t r → σ' x r = τ.row t (σ x r)) : ∀ (l : List Nat), OpsSim τ t (l.map fun i => .upd i σ) (l.map fun i => .upd i σ')
  | [] => .nil
  | _ :: l => .cons (.upd h) (upds_sim h l)

theorem set_keeps {u : UpdAction} (hu : ∀ v, τ u.table u.col v = v) (ch : Change) (db : Db) (x : Int) (r : Row) (h : τ.Keeps u.table r) : u.set ch db x r = τ.row u.table (u.set ch db x r) := by
  funext c
  simp only [UpdAction.set, ColumnTypes.row, Row.set]
  by_cases hc : c = u.col
  · subst hc
    exact (hu _).symm
  · simp only [hc, if_false]
    exact (h c).symm

theorem step_sim (h2 : ∀ t c v, τ t c (τ t c v) = τ t c v) (hm : ∀ t c, Managed E t c → ∀ v, τ t c v = v) {it it' : Item} (h : ItemSim τ it it') (hdb : db.Stored τ) :
    match E.step it' db with
    | .ok (new, db') => (∃ new0, E.stepStored τ.store it db = .ok (new0, db') ∧ ItemsSim τ new0 new) ∧ db'.Stored τ
    | .error e => E.stepStored τ.store it db = .error (.db e) := by
  cases h with
  | @write fr t ops ops' h =>
    obtain ⟨h1, h3⟩ := ops_sim (E := E) h2 h hdb
    simp only [Engine.step, Engine.stepStored, h1]
    refine ⟨⟨_, rfl, itemsSim_self fun x hx => ?_⟩, h3⟩
    obtain ⟨ch, _, hx⟩ := List.mem_flatMap.1 hx
    simp only [Engine.fired, List.mem_flatMap, List.mem_filter, List.mem_map] at hx
    obtain ⟨tr, ⟨htr, _⟩, a, ha, rfl⟩ := hx
    exact .act fun u e => hm _ _ ⟨tr, htr, u, e ▸ ha, rfl, rfl⟩
  | @act fr ch a h =>
    cases a with
    | markValues ct s c g => exact ⟨⟨_, rfl, .nil⟩, hdb⟩
    | markSelect ct sel t k s c g => exact ⟨⟨_, rfl, .nil⟩, hdb⟩
    | update u =>
      simp only [Engine.step, Engine.stepStored]
      by_cases hb : E.backend = .mysql ∧ u.table ∈ fr.tables
      · rw [if_pos hb, if_pos hb]
      · rw [if_neg hb, if_neg hb]
        exact ⟨⟨_, rfl, writes_sim (upds_sim (fun x r hr => set_keeps (h u rfl) ch db x r hr) _)⟩, hdb⟩

theorem drain_sim (h2 : ∀ t c v, τ t c (τ t c v) = τ t c v) (hm : ∀ t c, Managed E t c → ∀ v, τ t c v = v) : ∀ (n : Nat) {W W' : List Item} {db : Db}, ItemsSim τ W W' → db.Stored τ →
    match E.drain n W' db with
    | .ok db' => E.drainStored τ.store n W db = .ok db' ∧ db'.Stored τ
    | .error e => E.drainStored τ.store n W db = .error (.db e)
  | n, [], _, db, h, hdb => by
    cases h
    simp only [Engine.drain, Engine.drainStored]
    exact ⟨trivial, hdb⟩
  | 0, it :: W, _, db, h, hdb => by
    cases h
    simp only [Engine.drain, Engine.drainStored]
  | n + 1, it :: W, _, db, h, hdb => by
    cases h with
    | @cons _ it' _ W' h hW =>
      have hs := step_sim (E := E) h2 hm h hdb
      simp only [Engine.drain, Engine.drainStored]
      cases he : E.step it' db with
      | error e => rw [he] at hs; simp only [hs]
      | ok p =>
        obtain ⟨new, d⟩ := p
        rw [he] at hs
        obtain ⟨⟨new0, h3, h4⟩, h5⟩ := hs
        simp only [h3]
        exact drain_sim h2 hm n (h4.append hW) h5

/-- A statement under the types of the columns is one without them. -/
theorem exec_sim (h2 : ∀ t c v, τ t c (τ t c v) = τ t c v) (hm : ∀ t c, Managed E t c → ∀ v, τ t c v = v) {s s' : Stmt} (ht : s'.table = s.table) (ho : OpsSim τ s.table (s.ops db) (s'.ops db)) (hdb : db.Stored τ) (fuel : Nat) :
    match E.exec fuel s' db with
    | .ok db' => E.execStored τ.store fuel s db = .ok db' ∧ db'.Stored τ
    | .error e => E.execStored τ.store fuel s db = .error (.db e) :=
  drain_sim h2 hm fuel (by unfold Engine.start; rw [ht]; exact writes_sim ho) hdb

theorem inss_sim {t : TableName} : ∀ (rs : List Row), OpsSim τ t (rs.map .ins) ((rs.map (τ.row t)).map .ins)
  | [] => .nil
  | _ :: rs => .cons (.ins rfl) (inss_sim rs)

theorem dels_sim {t : TableName} {w : Row → Bool} : ∀ (l : List Nat), OpsSim τ t (l.map fun _ => .del w) (l.map fun _ => .del w)
  | [] => .nil
  | _ :: l => .cons .del (dels_sim l)

theorem typed_sim (s : Stmt) (db : Db) : OpsSim τ s.table (s.ops db) ((s.typed τ).ops db) := by
  cases s with
  | insert t rs => exact inss_sim rs
  | update t w σ => exact upds_sim (fun x r _ => rfl) _
  | delete t w => exact dels_sim _

theorem typed_table (s : Stmt) : (s.typed τ).table = s.table := by cases s <;> rfl

end


/-! ## Saving -/

/-- The callback that returns what its column stores. -/
def Callback.rounded (τ : ColumnTypes) (cb : Callback) : Callback := { cb with fn := fun o d => τ cb.model.table cb.field (cb.fn o d) }

def SaveField.rounded (τ : ColumnTypes) (f : SaveField) : SaveField := ⟨f.col, match f.kind with
  | .callback cb => .callback (cb.rounded τ)
  | k => k⟩

def OrmModel.rounded (τ : ColumnTypes) (om : OrmModel) : OrmModel := ⟨om.model, om.saved.map (SaveField.rounded τ)⟩

/-- The project with callbacks that return what their columns store. -/
def App.rounded (τ : ColumnTypes) (A : App) : App := { A with models := A.models.map (OrmModel.rounded τ) }

section
variable {τ : ColumnTypes} {A : App} {om : OrmModel} {db db' : Db}

/-- The column takes every value, unless it is a plain one. -/
def OrmModel.Safe (τ : ColumnTypes) (om : OrmModel) (c : Col) : Prop := ∀ g ∈ om.saved, g.col = c → ∀ cb, g.kind = .callback cb → ∀ v, τ om.model.table c v = v

/-- A model whose callbacks read safe columns of their own instance. -/
structure OrmModel.Rounds (τ : ColumnTypes) (om : OrmModel) : Prop where
  pk : om.model.pk ∉ om.cols
  noKeys : ∀ f ∈ om.saved, f.kind ≠ .cacheKey
  named : ∀ f ∈ om.saved, ∀ cb, f.kind = .callback cb → cb.model = om.model ∧ cb.field = f.col
  this : ∀ f ∈ om.saved, ∀ cb, f.kind = .callback cb → ∀ d ∈ cb.deps, d.dep.this = cb.model
  oneWay : ∀ f ∈ om.saved, ∀ cb, f.kind = .callback cb → ∀ d ∈ cb.deps, ∀ g, d.dep.rel ≠ .backwardM2M (.generic g)
  own : ∀ f ∈ om.saved, ∀ cb, f.kind = .callback cb → (∀ c ∈ cb.own, om.Safe τ c) ∧ ∀ d ∈ cb.deps, ∀ c ∈ d.dep.ownKeys, om.Safe τ c

theorem rounded_cols : (om.rounded τ).saved.map SaveField.col = om.saved.map SaveField.col := by
  simp [OrmModel.rounded, Function.comp_def, SaveField.rounded]

theorem rounded_value (cb : Callback) (db : Db) (r : Row) : (cb.rounded τ).value db r = cb.stored τ db r := rfl

theorem safe_pk (hR : om.Rounds τ) : om.Safe τ om.model.pk := fun g hg e => absurd (List.mem_map.2 ⟨g, hg, e⟩) hR.pk

theorem rounded_congr (hR : om.Rounds τ) {mem : Row} (hs : ∀ c, om.Safe τ c → τ om.model.table c (mem c) = mem c) {f : SaveField} (hf : f ∈ om.saved) {cb : Callback} (hk : f.kind = .callback cb) :
    cb.value db (τ.row om.model.table mem) = cb.value db mem := by
  obtain ⟨h1, h2⟩ := hR.own f hf cb hk
  obtain ⟨hm, _⟩ := hR.named f hf cb hk
  unfold Callback.value
  congr 1
  · exact List.map_congr_left fun c hc => hs c (h1 c hc)
  · refine List.map_congr_left fun d hd => ?_
    rw [relatedRows_congr (r := τ.row om.model.table mem) (r' := mem) (hR.oneWay f hf cb hk d hd) (by rw [hR.this f hf cb hk d hd, hm]; exact hs _ (safe_pk hR)) fun c hc => hs c (h2 d hd c hc)]

theorem preSave_sim (hR : om.Rounds τ) (hdb : db.Stored τ) {mem : Row} (hs : ∀ c, om.Safe τ c → τ om.model.table c (mem c) = mem c) {f : SaveField} (hf : f ∈ om.saved) :
    match f.preSave A om.model db false mem with
    | .ok v => (f.rounded τ).preSave (A.rounded τ) om.model db false (τ.row om.model.table mem) = .ok (τ om.model.table f.col v) ∧ (om.Safe τ f.col → τ om.model.table f.col v = v)
    | .error e => (f.rounded τ).preSave (A.rounded τ) om.model db false (τ.row om.model.table mem) = .error e := by
  cases hk : f.kind with
  | plain =>
    simp only [SaveField.preSave, SaveField.rounded, hk]
    exact ⟨rfl, fun h => hs _ h⟩
  | callback cb =>
    obtain ⟨hm, hc⟩ := hR.named f hf cb hk
    simp only [SaveField.preSave, SaveField.rounded, hk]
    refine ⟨?_, fun h => h f hf rfl cb hk _⟩
    rw [rounded_value, Callback.stored, rounded_congr hR hs hf hk, hm, hc]
  | aggregate =>
    simp only [SaveField.preSave, SaveField.rounded, hk, Bool.false_eq_true, if_false]
    rw [show τ.row om.model.table mem om.model.pk = mem om.model.pk from hs _ (safe_pk hR)]
    cases hfd : (db.rows om.model.table).find? fun r => Val.sqlEq (r om.model.pk) (mem om.model.pk) with
    | none => rfl
    | some r =>
      have := hdb _ r (List.mem_of_find?_eq_some hfd) f.col
      exact ⟨congrArg _ this.symm, fun _ => this⟩
  | cacheKey => exact absurd hk (hR.noKeys f hf)

theorem row_set {t : TableName} {mem : Row} {c : Col} {v : Val} : τ.row t (mem.set c v) = (τ.row t mem).set c (τ t c v) := by
  funext x
  simp only [ColumnTypes.row, Row.set]
  by_cases h : x = c
  · subst h; simp
  · simp [h]

theorem preSaveAll_sim (hR : om.Rounds τ) (hdb : db.Stored τ) : ∀ (fs : List SaveField) (mem : Row), (∀ f ∈ fs, f ∈ om.saved) → (∀ c, om.Safe τ c → τ om.model.table c (mem c) = mem c) →
    match preSaveAll A om.model db false fs mem with
    | .ok mem1 => preSaveAll (A.rounded τ) om.model db false (fs.map (SaveField.rounded τ)) (τ.row om.model.table mem) = .ok (τ.row om.model.table mem1) ∧
        ∀ c, om.Safe τ c → τ om.model.table c (mem1 c) = mem1 c
    | .error e => preSaveAll (A.rounded τ) om.model db false (fs.map (SaveField.rounded τ)) (τ.row om.model.table mem) = .error e
  | [], mem, _, hs => ⟨rfl, hs⟩
  | f :: fs, mem, hf, hs => by
    have h := preSave_sim (A := A) hR hdb hs (hf f (List.mem_cons_self ..))
    simp only [preSaveAll, List.map_cons]
    cases hv : f.preSave A om.model db false mem with
    | error e =>
      rw [hv] at h
      simp only [h]
    | ok v =>
      rw [hv] at h
      simp only [h.1]
      rw [show (f.rounded τ).col = f.col from rfl, ← row_set]
      refine preSaveAll_sim hR hdb fs _ (fun g hg => hf g (List.mem_cons_of_mem _ hg)) fun c hc => ?_
      simp only [Row.set]
      by_cases hx : c = f.col
      · subst hx
        simpa using h.2 hc
      · simp only [hx, if_false]
        exact hs c hc

/-- save() of an instance as it was loaded. -/
theorem save_sim (h2 : ∀ t c v, τ t c (τ t c v) = τ t c v) (hm : ∀ t c, Managed A.engine t c → ∀ v, τ t c v = v) (hR : om.Rounds τ) (hdb : db.Stored τ) {r : Row} (hr : r ∈ db.rows om.model.table)
    (hn : r om.model.pk ≠ .null) :
    match (A.rounded τ).save (om.rounded τ) r db with
    | .ok p => (∃ mem, A.saveTyped τ om r db = .ok (p.1, mem)) ∧ p.1.Stored τ
    | .error e => A.saveTyped τ om r db = .error (.orm e) := by
  have hrow : τ.row om.model.table r = r := funext fun c => hdb _ r hr c
  have hany : (db.rows om.model.table).any (isRowOf om.model (r om.model.pk)) = true := List.any_eq_true.2 ⟨r, hr, Val.sqlEq_iff.2 ⟨rfl, hn⟩⟩
  have hp := preSaveAll_sim (A := A) hR hdb om.saved r (fun _ h => h) fun c _ => hdb _ r hr c
  rw [hrow] at hp
  unfold App.saveTyped
  cases h1 : preSaveAll A om.model db false om.saved r with
  | error e =>
    rw [h1] at hp
    have : (A.rounded τ).save (om.rounded τ) r db = .error e := by
      unfold App.save
      rw [show preSaveAll (A.rounded τ) (om.rounded τ).model db false (om.rounded τ).saved r = .error e from hp]
    rw [this]
  | ok mem1 =>
    rw [h1] at hp
    have hsv : (A.rounded τ).save (om.rounded τ) r db = match (A.rounded τ).exec (saveUpdate (om.rounded τ) (τ.row om.model.table mem1)) db with
        | .ok db' => .ok (db', τ.row om.model.table mem1)
        | .error e => .error e := by
      unfold App.save
      rw [show preSaveAll (A.rounded τ) (om.rounded τ).model db false (om.rounded τ).saved r = .ok (τ.row om.model.table mem1) from hp.1]
      simp only
      rw [if_pos (show (db.rows (om.rounded τ).model.table).any (isRowOf (om.rounded τ).model (r (om.rounded τ).model.pk)) = true from hany)]
      cases (A.rounded τ).exec (saveUpdate (om.rounded τ) (τ.row om.model.table mem1)) db <;> rfl
    rw [hsv]
    simp only [hany, if_true]
    have hpk : τ.row om.model.table mem1 om.model.pk = mem1 om.model.pk := hp.2 _ (safe_pk hR)
    have hx := exec_sim (E := A.engine) h2 hm (s := saveUpdate om mem1) (s' := saveUpdate (om.rounded τ) (τ.row om.model.table mem1)) (db := db) rfl (by
      unfold saveUpdate
      rw [rounded_cols]
      simp only [Stmt.ops, Stmt.table]
      rw [show (om.rounded τ).model = om.model from rfl, hpk]
      refine upds_sim (fun x r hr => ?_) _
      funext c
      simp only [ColumnTypes.row]
      by_cases hc : c ∈ om.saved.map SaveField.col
      · rw [if_pos hc, if_pos hc]
      · rw [if_neg hc, if_neg hc]
        exact (hr c).symm) hdb A.fuel
    unfold App.exec App.execTyped
    rw [show (A.rounded τ).engine = A.engine from rfl, show (A.rounded τ).fuel = A.fuel from rfl]
    cases he : A.engine.exec A.fuel (saveUpdate (om.rounded τ) (τ.row om.model.table mem1)) db with
    | error e =>
      rw [he] at hx
      simp only [hx]
    | ok d =>
      rw [he] at hx
      simp only [hx.1]
      exact ⟨⟨_, rfl⟩, hx.2⟩

theorem rounded_find (ct : Nat) : (A.rounded τ).models.find? (fun om => om.model.ct == ct) = (A.models.find? fun om => om.model.ct == ct).map (OrmModel.rounded τ) := by
  simp only [App.rounded, List.find?_map]
  rfl

variable (h2 : ∀ t c v, τ t c (τ t c v) = τ t c v) (hm : ∀ t c, Managed A.engine t c → ∀ v, τ t c v = v) (hR : ∀ om ∈ A.models, om.Rounds τ)
include h2 hm hR

theorem flushOne_sim (hdb : db.Stored τ) (m : Mark) :
    match (A.rounded τ).flushOne m db with
    | .ok d => (∃ d0, A.saveObjectTyped τ m db = .ok d0 ∧ d0.dropMarks m = d) ∧ d.Stored τ
    | .error e => A.saveObjectTyped τ m db = .error (.orm e) := by
  unfold App.flushOne App.saveObject App.saveObjectTyped App.contentObject
  rw [rounded_find]
  cases hf : A.models.find? fun om => om.model.ct == m.ct with
  | none => simp only [Option.map_none]
  | some om =>
    have hom := List.mem_of_find?_eq_some hf
    simp only [Option.map_some]
    rw [show (om.rounded τ).model = om.model from rfl]
    cases hr : (db.rows om.model.table).find? (isRowOf om.model m.oid) with
    | none => exact ⟨⟨_, rfl, rfl⟩, hdb⟩
    | some r =>
      have hq : isRowOf om.model m.oid r = true := List.find?_some hr
      have hk := Val.sqlEq_iff.1 hq
      have hs := save_sim (A := A) h2 hm (hR om hom) hdb (List.mem_of_find?_eq_some hr) hk.2
      simp only
      cases he : (A.rounded τ).save (om.rounded τ) r db with
      | error e =>
        rw [he] at hs
        simp only [hs]
      | ok p =>
        rw [he] at hs
        obtain ⟨⟨mem, h3⟩, h4⟩ := hs
        simp only [h3]
        exact ⟨⟨_, rfl, rfl⟩, h4⟩

theorem flushList_sim : ∀ (ms : List Mark) {db : Db}, db.Stored τ →
    match (A.rounded τ).flushList ms db with
    | .ok d => A.flushListTyped τ ms db = .ok d ∧ d.Stored τ
    | .error e => A.flushListTyped τ ms db = .error (.orm e)
  | [], db, hdb => ⟨rfl, hdb⟩
  | m :: ms, db, hdb => by
    have h := flushOne_sim h2 hm hR hdb m
    simp only [App.flushList, App.flushListTyped]
    cases he : (A.rounded τ).flushOne m db with
    | error e =>
      rw [he] at h
      simp only [h]
    | ok d =>
      rw [he] at h
      obtain ⟨⟨d0, h3, rfl⟩, h4⟩ := h
      simp only [h3]
      exact flushList_sim ms h4

/-- flush() under the types of the columns is flush() of callbacks that return what their columns store. -/
theorem flush_sim : ∀ (n : Nat) {db : Db}, db.Stored τ →
    match (A.rounded τ).flush n db with
    | .ok (some d) => A.flushTyped τ n db = .ok (some d) ∧ d.Stored τ
    | .ok none => A.flushTyped τ n db = .ok none
    | .error e => A.flushTyped τ n db = .error (.orm e)
  | n, db, hdb => by
    unfold App.flush App.flushTyped
    by_cases hd : db.dirty = []
    · rw [if_pos hd, if_pos hd]
      exact ⟨rfl, hdb⟩
    · rw [if_neg hd, if_neg hd]
      cases n with
      | zero => rfl
      | succ n =>
        have h := flushList_sim h2 hm hR (A.snapshot db) hdb
        simp only [App.pass]
        rw [show (A.rounded τ).snapshot db = A.snapshot db from rfl]
        cases he : (A.rounded τ).flushList (A.snapshot db) db with
        | error e =>
          rw [he] at h
          simp only [h]
        | ok d =>
          rw [he] at h
          simp only [h.1]
          exact flush_sim n h.2

omit hR in
/-- Statements under the types of the columns are statements that write what is stored. -/
theorem runTyped_sim : ∀ (ss : List Stmt) {db : Db}, db.Stored τ → A.runTyped τ ss db = (A.rounded τ).calls (ss.map fun s => .stmt (s.typed τ)) db ∧ (A.runTyped τ ss db).Stored τ
  | [], _, hdb => ⟨rfl, hdb⟩
  | s :: ss, db, hdb => by
    have h := exec_sim (E := A.engine) h2 hm (typed_table s) (typed_sim s db) hdb A.fuel
    simp only [App.runTyped, List.map_cons, App.calls, App.call, App.execTyped, App.exec]
    rw [show (A.rounded τ).engine = A.engine from rfl, show (A.rounded τ).fuel = A.fuel from rfl]
    cases he : A.engine.exec A.fuel (s.typed τ) db with
    | error e =>
      rw [he] at h
      simp only [h, callErr]
      exact runTyped_sim ss hdb
    | ok d =>
      rw [he] at h
      simp only [h.1, callErr]
      exact runTyped_sim ss h.2

end

end Denorm
