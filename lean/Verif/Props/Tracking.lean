import Verif.Lemmas.Affected
import Verif.DemoFacts
/-!
# Changes of related rows leave a dirty marker (C02, C03, C04, C05, C37, C40)

Two kinds of theorem. The `_marked` theorems look at one statement: whatever row change happens while it runs, made by the statement
or by a trigger, the instances it concerns are marked when the statement ends. The `_never_lost` theorems look at a history of statements:
an instance without a marker sees, after the history, the same related rows as before it.
-/
namespace Denorm

/-- Row `r` is there and its primary key is unique. -/
def Unique (m : Model) (db : Db) (r : Row) : Prop :=
  r ∈ db.rows m.table ∧ ∀ r1 ∈ db.rows m.table, r1 m.pk = r m.pk → r1 = r

section
variable {E : Engine} {D : List Denorm} {cb : Callback} {fuel : Nat}

/-- C02, one statement. Whenever a row of the other model of a ForeignKey dependency is inserted, deleted, or updated in a column
the callback reads, every instance whose ForeignKey holds its primary key is marked when the statement is done. -/
theorem C02_forward_marked (hE : Installed E D) (hD : WellDeclared E.backend D cb) (hN : NoReentry E) {s : Stmt} {db db' : Db}
    (he : E.exec fuel s db = .ok db') (hL : LegalStmt E cb db s) (hK : KeysOk cb db)
    {d : DepRead} (hd : d ∈ cb.deps) {f : Field} (hf : d.dep.rel = .forward f)
    {ch : Change} {db1 : Db} (hch : (ch, db1) ∈ E.changesOf fuel s db) (ht : ch.table = d.dep.other.table)
    (hup : ch.event = .update → ∃ c ∈ d.reads, ch.old c ≠ ch.new c)
    {r : Row} (hr : Unique cb.model db1 r) {o : Row} (ho : o ∈ ch.versions) (hk : r f.column = o d.dep.other.pk)
    (hnn : r f.column ≠ .null) :
    ∀ r' ∈ db'.rows cb.model.table, r' cb.model.pk = r cb.model.pk → Marked cb.model db' r' := by
  refine concerned_marked (tracks_of_installed hE hD) hN he hL hK hd hch (.inl ⟨?_, ⟨o, ho, ?_⟩, ?_⟩) hr.2
  · simpa [Dep.otherTable, hf] using ht
  · simpa [Dep.relatedTo, hf] using Val.sqlEq_iff.2 ⟨hk, hnn⟩
  · simpa [Dep.relCols, hf] using hup

/-- C03, one statement. Whenever a row with a ForeignKey to the declaring model is inserted, deleted, re-pointed, or updated in
a column the callback reads, the instance it pointed to before and the instance it points to afterwards are both marked. -/
theorem C03_backward_marked (hE : Installed E D) (hD : WellDeclared E.backend D cb) (hN : NoReentry E) {s : Stmt} {db db' : Db}
    (he : E.exec fuel s db = .ok db') (hL : LegalStmt E cb db s) (hK : KeysOk cb db)
    {d : DepRead} (hd : d ∈ cb.deps) {f : Field} (hf : d.dep.rel = .backward f)
    {ch : Change} {db1 : Db} (hch : (ch, db1) ∈ E.changesOf fuel s db) (ht : ch.table = d.dep.other.table)
    (hup : ch.event = .update → ∃ c ∈ f.column :: d.reads, ch.old c ≠ ch.new c)
    {r : Row} (hr : Unique cb.model db1 r) {o : Row} (ho : o ∈ ch.versions) (hk : o f.column = r cb.model.pk)
    (hnn : r cb.model.pk ≠ .null) :
    ∀ r' ∈ db'.rows cb.model.table, r' cb.model.pk = r cb.model.pk → Marked cb.model db' r' := by
  refine concerned_marked (tracks_of_installed hE hD) hN he hL hK hd hch (.inl ⟨?_, ⟨o, ho, ?_⟩, ?_⟩) hr.2
  · simpa [Dep.otherTable, hf] using ht
  · simpa [Dep.relatedTo, hf, hD.this d hd] using Val.sqlEq_iff.2 ⟨hk, hk ▸ hnn⟩
  · simpa [Dep.relCols, hf] using hup

/-- C04, one statement, intermediate table. `c` is the intermediate table's column for the declaring model, `k` the one for the other
model; this covers both directions. Whenever a link is added, removed or re-pointed, the instances it links before and afterwards are
marked. -/
theorem C04_m2m_link_marked (hE : Installed E D) (hD : WellDeclared E.backend D cb) (hN : NoReentry E) {s : Stmt} {db db' : Db}
    (he : E.exec fuel s db = .ok db') (hL : LegalStmt E cb db s) (hK : KeysOk cb db)
    {d : DepRead} (hd : d ∈ cb.deps) {tbl : TableName} {c k : Col} (hm : d.dep.m2mTable = some (tbl, c, k))
    {ch : Change} {db1 : Db} (hch : (ch, db1) ∈ E.changesOf fuel s db) (ht : ch.table = tbl)
    (hup : ch.event = .update → ch.old c ≠ ch.new c ∨ ch.old k ≠ ch.new k)
    {r : Row} (hr : Unique cb.model db1 r) {l : Row} (hl : l ∈ ch.versions) (hk : l c = r cb.model.pk)
    (hnn : r cb.model.pk ≠ .null) :
    ∀ r' ∈ db'.rows cb.model.table, r' cb.model.pk = r cb.model.pk → Marked cb.model db' r' := by
  refine concerned_marked (tracks_of_installed hE hD) hN he hL hK hd hch
    (.inr ⟨tbl, c, k, hm, ht, ⟨l, hl, ?_⟩, hup⟩) hr.2
  rw [hD.this d hd]
  exact Val.sqlEq_iff.2 ⟨hk, hk ▸ hnn⟩

/-- C04, one statement, other model. Whenever a row of the other model is updated in a column the callback reads, every instance linked
to it is marked. -/
theorem C04_m2m_other_marked (hE : Installed E D) (hD : WellDeclared E.backend D cb) (hN : NoReentry E) {s : Stmt} {db db' : Db}
    (he : E.exec fuel s db = .ok db') (hL : LegalStmt E cb db s) (hK : KeysOk cb db)
    {d : DepRead} (hd : d ∈ cb.deps) {tbl : TableName} {c k : Col} (hm : d.dep.m2mTable = some (tbl, c, k))
    {ch : Change} {db1 : Db} (hch : (ch, db1) ∈ E.changesOf fuel s db) (ht : ch.table = d.dep.other.table)
    (hup : ch.event = .update → ∃ c ∈ d.reads, ch.old c ≠ ch.new c)
    {r : Row} (hr : Unique cb.model db1 r) {o : Row} (ho : o ∈ ch.versions) {l : Row} (hl : l ∈ db1.rows tbl)
    (hlr : l c = r cb.model.pk) (hlo : l k = o d.dep.other.pk) (hnn : r cb.model.pk ≠ .null) (hno : l k ≠ .null) :
    ∀ r' ∈ db'.rows cb.model.table, r' cb.model.pk = r cb.model.pk → Marked cb.model db' r' := by
  have h1 : Val.sqlEq (l c) (r d.dep.this.pk) = true := by
    rw [hD.this d hd]; exact Val.sqlEq_iff.2 ⟨hlr, hlr ▸ hnn⟩
  have h2 : Val.sqlEq (l k) (o d.dep.other.pk) = true := Val.sqlEq_iff.2 ⟨hlo, hno⟩
  refine concerned_marked (tracks_of_installed hE hD) hN he hL hK hd hch (.inl ?_) hr.2
  unfold Dep.m2mTable at hm
  rcases hf : d.dep.rel with f | f | (m | g) | (m | g) <;> rw [hf] at hm <;>
    simp only [reduceCtorEq, Option.some.injEq, Prod.mk.injEq] at hm
  · obtain ⟨rfl, rfl, rfl⟩ := hm
    exact ⟨by simpa [Dep.otherTable, hf] using ht, ⟨o, ho, by simpa [Dep.relatedTo, hf] using ⟨l, hl, h1, h2⟩⟩,
      by simpa [Dep.relCols, hf] using hup⟩
  · obtain ⟨rfl, rfl, rfl⟩ := hm
    exact ⟨by simpa [Dep.otherTable, hf] using ht, ⟨o, ho, by simpa [Dep.relatedTo, hf] using ⟨l, hl, h1, h2⟩⟩,
      by simpa [Dep.relCols, hf] using hup⟩

/-- C05, one statement. Whenever a row of the target model of a GenericRelation is inserted, deleted, re-pointed to another object
or content type, or updated in a column the callback reads, the instance it belonged to before and the instance it belongs to
afterwards are both marked. -/
theorem C05_generic_marked (hE : Installed E D) (hD : WellDeclared E.backend D cb) (hN : NoReentry E) {s : Stmt} {db db' : Db}
    (he : E.exec fuel s db = .ok db') (hL : LegalStmt E cb db s) (hK : KeysOk cb db)
    {d : DepRead} (hd : d ∈ cb.deps) {g : GenericRel} (hf : d.dep.rel = .forwardM2M (.generic g))
    {ch : Change} {db1 : Db} (hch : (ch, db1) ∈ E.changesOf fuel s db) (ht : ch.table = g.remoteTable)
    (hup : ch.event = .update → ∃ c ∈ (g.ctFieldName ++ "_id") :: g.objectIdField :: d.reads, ch.old c ≠ ch.new c)
    {r : Row} (hr : Unique cb.model db1 r) {o : Row} (ho : o ∈ ch.versions)
    (hct : o (g.ctFieldName ++ "_id") = .int cb.model.ct) (hoid : o g.objectIdField = r cb.model.pk)
    (hnn : r cb.model.pk ≠ .null) :
    ∀ r' ∈ db'.rows cb.model.table, r' cb.model.pk = r cb.model.pk → Marked cb.model db' r' := by
  refine concerned_marked (tracks_of_installed hE hD) hN he hL hK hd hch (.inl ⟨?_, ⟨o, ho, ?_⟩, ?_⟩) hr.2
  · simpa [Dep.otherTable, hf] using ht
  · simp only [Dep.relatedTo, hf, hD.this d hd]
    exact ⟨Val.sqlEq_iff.2 ⟨hct, by simp [hct]⟩, Val.sqlEq_iff.2 ⟨hoid, hoid ▸ hnn⟩⟩
  · simpa [Dep.relCols, hf] using hup

/-- C37, one statement. Whenever a row of the declaring model is inserted, or updated in its denormalized column or in a column
the callback reads, by whatever statement, it is marked when the statement is done. -/
theorem C37_direct_write_marked (hE : Installed E D) (hD : WellDeclared E.backend D cb) (hN : NoReentry E) {s : Stmt}
    {db db' : Db} (he : E.exec fuel s db = .ok db') (hL : LegalStmt E cb db s) (hK : KeysOk cb db)
    {ch : Change} {db1 : Db} (hch : (ch, db1) ∈ E.changesOf fuel s db) (ht : ch.table = cb.model.table)
    (hev : ch.event ≠ .delete) (hup : ch.event = .update → ∃ c ∈ cb.field :: cb.own, ch.old c ≠ ch.new c) :
    ∀ r' ∈ db'.rows cb.model.table, r' cb.model.pk = ch.new cb.model.pk → Marked cb.model db' r' := by
  refine own_marked (tracks_of_installed hE hD) hN he hL hK hch ht hev ?_
  intro h
  obtain ⟨c, hc, hne⟩ := hup h
  exact ⟨c, by simp only [Callback.ownCols, List.cons_append, List.mem_cons, List.mem_append] at hc ⊢
               rcases hc with hc | hc
               · exact .inl hc
               · exact .inr (.inl hc), hne⟩

/-- Nothing the callback can see of row `r` differs from what it could see in `db0`: the row existed, its own columns (its stored
value included) are the same, and following each dependency gives the same rows as far as the callback reads them. -/
def Callback.SeesTheSame (cb : Callback) (db0 db : Db) (r : Row) : Prop :=
  ∃ r0 ∈ db0.rows cb.model.table, r0 cb.model.pk = r cb.model.pk ∧ (∀ c ∈ cb.field :: cb.own, r0 c = r c) ∧
    ∀ d ∈ cb.deps, seen d.reads (relatedRows d.dep db0 r0) = seen d.reads (relatedRows d.dep db r)

/-- All of C02–C05 and C37 over histories. After any history of statements, an instance without a marker sees exactly what it saw before
the history. -/
theorem unmarked_sees_the_same (hE : Installed E D) (hD : WellDeclared E.backend D cb) (hN : NoReentry E) {ss : List Stmt}
    {db0 : Db} (hL : LegalRun E cb fuel ss db0) (hK : KeysOk cb db0) :
    ∀ r ∈ (E.run fuel ss db0).rows cb.model.table, ¬ Marked cb.model (E.run fuel ss db0) r →
      cb.SeesTheSame db0 (E.run fuel ss db0) r := by
  let C : Db → Row → Prop := fun db r => ∃ r0 ∈ db0.rows cb.model.table, r0 cb.model.pk = r cb.model.pk ∧
    (∀ c ∈ cb.ownCols, r0 c = r c) ∧
    ∀ d ∈ cb.deps, seen d.reads (relatedRows d.dep db0 r0) = seen d.reads (relatedRows d.dep db r)
  have hC : TrackedProp cb C := by
    rintro db db' r r' hown hpk hseen ⟨r0, h0, h1, h2, h3⟩
    exact ⟨r0, h0, h1.trans hpk, fun c hc => (h2 c hc).trans (hown c hc), fun d hd => (h3 d hd).trans (hseen d hd)⟩
  have := (track_run (tracks_of_installed hE hD) hN hC ss db0 hL hK
    (fun r hr => .inr ⟨r, hr, rfl, fun _ _ => rfl, fun _ _ => rfl⟩)).2
  intro r hr hnm
  rcases this r hr with h | ⟨r0, h0, h1, h2, h3⟩
  · exact absurd h hnm
  · refine ⟨r0, h0, h1, fun c hc => h2 c ?_, h3⟩
    simp only [Callback.ownCols, List.cons_append, List.mem_cons, List.mem_append] at hc ⊢
    rcases hc with hc | hc
    · exact .inl hc
    · exact .inr (.inl hc)

/-- C02, histories. -/
theorem C02_forward_never_lost (hE : Installed E D) (hD : WellDeclared E.backend D cb) (hN : NoReentry E) {ss : List Stmt}
    {db0 : Db} (hL : LegalRun E cb fuel ss db0) (hK : KeysOk cb db0) {d : DepRead} (hd : d ∈ cb.deps) {f : Field}
    (_ : d.dep.rel = .forward f) :
    ∀ r ∈ (E.run fuel ss db0).rows cb.model.table, ¬ Marked cb.model (E.run fuel ss db0) r →
      ∃ r0 ∈ db0.rows cb.model.table, r0 cb.model.pk = r cb.model.pk ∧
        seen d.reads (relatedRows d.dep db0 r0) = seen d.reads (relatedRows d.dep (E.run fuel ss db0) r) := by
  intro r hr hnm
  obtain ⟨r0, h0, h1, _, h3⟩ := unmarked_sees_the_same hE hD hN hL hK r hr hnm
  exact ⟨r0, h0, h1, h3 d hd⟩

/-- C03, histories. -/
theorem C03_backward_never_lost (hE : Installed E D) (hD : WellDeclared E.backend D cb) (hN : NoReentry E) {ss : List Stmt}
    {db0 : Db} (hL : LegalRun E cb fuel ss db0) (hK : KeysOk cb db0) {d : DepRead} (hd : d ∈ cb.deps) {f : Field}
    (_ : d.dep.rel = .backward f) :
    ∀ r ∈ (E.run fuel ss db0).rows cb.model.table, ¬ Marked cb.model (E.run fuel ss db0) r →
      ∃ r0 ∈ db0.rows cb.model.table, r0 cb.model.pk = r cb.model.pk ∧
        seen d.reads (relatedRows d.dep db0 r0) = seen d.reads (relatedRows d.dep (E.run fuel ss db0) r) := by
  intro r hr hnm
  obtain ⟨r0, h0, h1, _, h3⟩ := unmarked_sees_the_same hE hD hN hL hK r hr hnm
  exact ⟨r0, h0, h1, h3 d hd⟩

/-- C04, histories. -/
theorem C04_m2m_never_lost (hE : Installed E D) (hD : WellDeclared E.backend D cb) (hN : NoReentry E) {ss : List Stmt}
    {db0 : Db} (hL : LegalRun E cb fuel ss db0) (hK : KeysOk cb db0) {d : DepRead} (hd : d ∈ cb.deps)
    {p : TableName × Col × Col} (_ : d.dep.m2mTable = some p) :
    ∀ r ∈ (E.run fuel ss db0).rows cb.model.table, ¬ Marked cb.model (E.run fuel ss db0) r →
      ∃ r0 ∈ db0.rows cb.model.table, r0 cb.model.pk = r cb.model.pk ∧
        seen d.reads (relatedRows d.dep db0 r0) = seen d.reads (relatedRows d.dep (E.run fuel ss db0) r) := by
  intro r hr hnm
  obtain ⟨r0, h0, h1, _, h3⟩ := unmarked_sees_the_same hE hD hN hL hK r hr hnm
  exact ⟨r0, h0, h1, h3 d hd⟩

/-- C05, histories. -/
theorem C05_generic_never_lost (hE : Installed E D) (hD : WellDeclared E.backend D cb) (hN : NoReentry E) {ss : List Stmt}
    {db0 : Db} (hL : LegalRun E cb fuel ss db0) (hK : KeysOk cb db0) {d : DepRead} (hd : d ∈ cb.deps) {g : GenericRel}
    (_ : d.dep.rel = .forwardM2M (.generic g)) :
    ∀ r ∈ (E.run fuel ss db0).rows cb.model.table, ¬ Marked cb.model (E.run fuel ss db0) r →
      ∃ r0 ∈ db0.rows cb.model.table, r0 cb.model.pk = r cb.model.pk ∧
        seen d.reads (relatedRows d.dep db0 r0) = seen d.reads (relatedRows d.dep (E.run fuel ss db0) r) := by
  intro r hr hnm
  obtain ⟨r0, h0, h1, _, h3⟩ := unmarked_sees_the_same hE hD hN hL hK r hr hnm
  exact ⟨r0, h0, h1, h3 d hd⟩

/-- C37, histories: the stored value of an unmarked instance is the one it had before. -/
theorem C37_unmarked_value_unchanged (hE : Installed E D) (hD : WellDeclared E.backend D cb) (hN : NoReentry E) {ss : List Stmt}
    {db0 : Db} (hL : LegalRun E cb fuel ss db0) (hK : KeysOk cb db0) :
    ∀ r ∈ (E.run fuel ss db0).rows cb.model.table, ¬ Marked cb.model (E.run fuel ss db0) r →
      ∃ r0 ∈ db0.rows cb.model.table, r0 cb.model.pk = r cb.model.pk ∧ r0 cb.field = r cb.field := by
  intro r hr hnm
  obtain ⟨r0, h0, h1, h2, _⟩ := unmarked_sees_the_same hE hD hN hL hK r hr hnm
  exact ⟨r0, h0, h1, h2 _ (List.mem_cons_self ..)⟩

/-- The state of affairs flush() starts from: if every out-of-date instance is marked, this stays so through any history of
statements. -/
theorem stale_marked_preserved (hE : Installed E D) (hD : WellDeclared E.backend D cb) (hN : NoReentry E) {ss : List Stmt}
    {db0 : Db} (hL : LegalRun E cb fuel ss db0) (hK : KeysOk cb db0) (h0 : StaleMarked cb db0) :
    StaleMarked cb (E.run fuel ss db0) := by
  have hC : TrackedProp cb (fun db r => cb.Fresh db r) := by
    intro db db' r r' hown hpk hseen h
    unfold Callback.Fresh Callback.value at h ⊢
    rw [← hown cb.field (by simp [Callback.ownCols]), h]
    congr 1
    · apply List.map_congr_left
      intro c hc
      exact hown c (by simp [Callback.ownCols, hc])
    · apply List.map_congr_left
      exact hseen
  have := (track_run (tracks_of_installed hE hD) hN hC ss db0 hL hK (fun r hr => by
    by_cases hf : cb.Fresh db0 r
    · exact .inr hf
    · exact .inl (h0 r hr hf))).2
  intro r hr hns
  rcases this r hr with h | h
  · exact h
  · exact absurd h hns

/-- C40. A change made by a trigger counts like any other: `E.changesOf` contains the row changes of all nested triggers, so the
instances concerned by them are marked. The hypothesis `NoReentry` only matters on sqlite. -/
theorem C40_trigger_changes_tracked_partial (hE : Installed E D) (hD : WellDeclared E.backend D cb)
    (hN : E.backend = .sqlite → NoReentry E) {s : Stmt} {db db' : Db} (he : E.exec fuel s db = .ok db')
    (hL : LegalStmt E cb db s) (hK : KeysOk cb db) {d : DepRead} (hd : d ∈ cb.deps) {ch : Change} {db1 : Db}
    (hch : (ch, db1) ∈ E.changesOf fuel s db) {r : Row} (hr : Unique cb.model db1 r) (hc : d.Concerns db1 ch r) :
    ∀ r' ∈ db'.rows cb.model.table, r' cb.model.pk = r cb.model.pk → Marked cb.model db' r' :=
  concerned_marked (tracks_of_installed hE hD) (fun hb => hN hb hb) he hL hK hd hch hc hr.2
end

/-! ## The hypotheses can be met -/

theorem exists_ok {x : Except DbErr Db} (h : x.toOption.isSome = true) : ∃ db', x = .ok db' := by
  cases x with
  | ok a => exact ⟨a, rfl⟩
  | error e => simp [Except.toOption] at h

/-- Statements that are legal on every database make a legal history. -/
theorem legalRun_of_all {E : Engine} {cb : Callback} {fuel : Nat} : ∀ {ss : List Stmt}, (∀ s ∈ ss, ∀ db, LegalStmt E cb db s) →
    ∀ db, LegalRun E cb fuel ss db
  | [], _, _ => trivial
  | s :: ss, h, db => by
    refine ⟨h s (List.mem_cons_self ..) db, ?_⟩
    have := fun s' hs' => h s' (List.mem_cons_of_mem _ hs')
    split
    · exact legalRun_of_all this _
    · exact legalRun_of_all this _

/-- An UPDATE of a column other than `id` is legal for a callback whose primary keys are called `id`. -/
theorem legal_set {E : Engine} {cb : Callback} {db : Db} {t : TableName} {w : Row → Bool} {c : Col} {v : Val} (hc : "id" ≠ c)
    (h : ∀ p ∈ cb.pks, p.2 = "id") : LegalStmt E cb db (.update t w fun _ r => r.set c v) := by
  intro p hp _ _ r
  rw [h p hp]
  simp [Row.set, hc]

theorem unique_of_nodup {m : Model} {db : Db} {r : Row} (h : ((db.rows m.table).map fun r => r m.pk).Nodup)
    (hr : r ∈ db.rows m.table) : Unique m db r := by
  refine ⟨hr, fun r1 h1 h2 => ?_⟩
  generalize db.rows m.table = l at *
  induction l with
  | nil => simp at hr
  | cons a l ih =>
    rw [List.map_cons, List.nodup_cons] at h
    rcases List.mem_cons.1 h1 with h1' | h1' <;> rcases List.mem_cons.1 hr with hr' | hr'
    · rw [h1', hr']
    · exact absurd (List.mem_map.2 ⟨r, hr', by rw [← h1', h2]⟩) h.1
    · exact absurd (List.mem_map.2 ⟨r1, h1', by rw [← hr', h2]⟩) h.1
    · exact ih h.2 hr' h1'

theorem mem_nth {α : Type _} {l : List α} (i : Nat) (h : l[i]?.isSome = true) : l[i]?.get h ∈ l :=
  List.mem_of_getElem? (Option.some_get h).symm

namespace Demo
set_option maxRecDepth 100000

/-- `Forum.objects.filter(pk=1).update(title='Z')` -/
def retitle : Stmt := .update "forum" (fun r => r "id" == .int 1) (fun _ r => r.set "title" (.text "Z"))

/-- `Post.objects.update(forum=2)`, which also makes the triggers change two forums' `post_count`. -/
def reparent : Stmt := .update "post" (fun _ => true) (fun _ r => r.set "forum_id" (.int 2))

/-- `Post.objects.filter(pk=1).update(title='Z')` -/
def retitlePost : Stmt := .update "post" (fun r => r "id" == .int 1) (fun _ r => r.set "title" (.text "Z"))

/-- `member.bookmarks.remove(post)` -/
def unlink : Stmt := .delete "member_bookmarks" (fun r => r "post_id" == .int 1)

/-- Gives the tag to another forum. -/
def retag : Stmt := .update "tag" (fun _ => true) (fun _ r => r.set "object_id" (.int 2))

/-- Overwrites a denormalized value. -/
def clobber : Stmt := .update "post" (fun r => r "id" == .int 2) (fun _ r => r.set "forum_title" (.text "wrong"))

theorem unique_post {db' : Db} (h : db'.rows "post" = db.rows "post") : Unique post db' (prow 1 1 "x" "A" 0) := by
  have h' : db'.rows post.table = [prow 1 1 "x" "A" 0, prow 2 1 "y" "A" 0] := h
  refine ⟨by rw [h']; exact List.mem_cons_self .., ?_⟩
  intro r1 h1 h2
  rw [h'] at h1
  simp only [List.mem_cons, List.not_mem_nil, or_false] at h1
  rcases h1 with rfl | rfl
  · rfl
  · exact absurd h2 (by decide)

theorem unique_forum {db' : Db} (h : db'.rows "forum" = db.rows "forum") : Unique forum db' (frow 2 "B" "" "" 0) := by
  have h' : db'.rows forum.table = [frow 1 "A" "xy" "t" 2, frow 2 "B" "" "" 0] := h
  refine ⟨by rw [h']; simp, ?_⟩
  intro r1 h1 h2
  rw [h'] at h1
  simp only [List.mem_cons, List.not_mem_nil, or_false] at h1
  rcases h1 with rfl | rfl
  · exact absurd h2 (by decide)
  · rfl

theorem unique_member {db' : Db} (h : db'.rows "member" = db.rows "member") : Unique member db' (mrow 1 "m" "x") := by
  have h' : db'.rows member.table = [mrow 1 "m" "x"] := h
  refine ⟨by rw [h']; simp, ?_⟩
  intro r1 h1 _
  rw [h'] at h1
  exact List.mem_singleton.1 h1

/-- C02: post 1 is marked because its forum got another title. -/
example : ∃ db', (engine .sqlite).exec 100 retitle db = .ok db' ∧
    ∀ r' ∈ db'.rows "post", r' "id" = .int 1 → Marked post db' r' := by
  obtain ⟨db', he⟩ := exists_ok (x := (engine .sqlite).exec 100 retitle db) (by decide)
  exact ⟨db', he, C02_forward_marked (cb := forumTitle) (d := ⟨⟨post, forum, .forward postForum, []⟩, ["title"]⟩) (installed _)
    (wd_forumTitle _) (noReentry _) he (legal_set (by decide) (by decide)) (by unfold KeysOk; decide) (List.mem_singleton.2 rfl) rfl
    (mem_nth (l := (engine .sqlite).changesOf 100 retitle db) 0 (by decide)) (by decide) (by decide)
    (unique_post rfl) (List.mem_cons_self ..) (by decide) (by decide)⟩

/-- C03: forum 2 is marked because it received a post. -/
example : ∃ db', (engine .postgresql).exec 100 reparent db = .ok db' ∧
    ∀ r' ∈ db'.rows "forum", r' "id" = .int 2 → Marked forum db' r' := by
  obtain ⟨db', he⟩ := exists_ok (x := (engine .postgresql).exec 100 reparent db) (by decide)
  exact ⟨db', he, C03_backward_marked (cb := titles) (d := ⟨⟨forum, post, .backward postForum, []⟩, ["title"]⟩) (installed _)
    (wd_titles _) (noReentry _) he (legal_set (by decide) (by decide)) (by unfold KeysOk; decide) (List.mem_singleton.2 rfl) rfl
    (mem_nth (l := (engine .postgresql).changesOf 100 reparent db) 0 (by decide)) (by decide) (by decide)
    (unique_forum rfl) (List.mem_cons_of_mem _ (List.mem_cons_self ..)) (by decide) (by decide)⟩

/-- C04: the member is marked because a bookmark was removed. -/
example : ∃ db', (engine .mysql).exec 100 unlink db = .ok db' ∧
    ∀ r' ∈ db'.rows "member", r' "id" = .int 1 → Marked member db' r' := by
  obtain ⟨db', he⟩ := exists_ok (x := (engine .mysql).exec 100 unlink db) (by decide)
  exact ⟨db', he, C04_m2m_link_marked (cb := bookmarkTitles) (d := ⟨⟨member, post, .forwardM2M (.m2m bookmarks), []⟩, ["title"]⟩)
    (installed _) (wd_bookmarkTitles _) (noReentry _) he
    (by intro d hd hdt; simp only [bookmarkTitles, List.mem_singleton] at hd; subst hd; exact absurd hdt (by decide))
    (by unfold KeysOk; decide) (List.mem_singleton.2 rfl) rfl
    (mem_nth (l := (engine .mysql).changesOf 100 unlink db) 0 (by decide)) (by decide) (by decide)
    (unique_member rfl) (List.mem_cons_self ..) (by decide) (by decide)⟩

/-- C04: the member is marked because the bookmarked post changed. -/
example : ∃ db', (engine .postgresql).exec 100 retitlePost db = .ok db' ∧
    ∀ r' ∈ db'.rows "member", r' "id" = .int 1 → Marked member db' r' := by
  obtain ⟨db', he⟩ := exists_ok (x := (engine .postgresql).exec 100 retitlePost db) (by decide)
  exact ⟨db', he, C04_m2m_other_marked (cb := bookmarkTitles) (d := ⟨⟨member, post, .forwardM2M (.m2m bookmarks), []⟩, ["title"]⟩)
    (installed _) (wd_bookmarkTitles _) (noReentry _) he (legal_set (by decide) (by decide))
    (by unfold KeysOk; decide) (List.mem_singleton.2 rfl) rfl
    (mem_nth (l := (engine .postgresql).changesOf 100 retitlePost db) 0 (by decide)) (by decide) (by decide)
    (unique_member rfl) (List.mem_cons_self ..) (l := brow 1 1 1) (List.mem_cons_self ..) (by decide) (by decide) (by decide) (by decide)⟩

/-- C05: forum 2 is marked because it received a tag. -/
example : ∃ db', (engine .sqlite).exec 100 retag db = .ok db' ∧
    ∀ r' ∈ db'.rows "forum", r' "id" = .int 2 → Marked forum db' r' := by
  obtain ⟨db', he⟩ := exists_ok (x := (engine .sqlite).exec 100 retag db) (by decide)
  exact ⟨db', he, C05_generic_marked (cb := tagsString) (d := ⟨⟨forum, tag, .forwardM2M (.generic tagRel), []⟩, ["name"]⟩)
    (installed _) (wd_tagsString _) (noReentry _) he (legal_set (by decide) (by decide))
    (by unfold KeysOk; decide) (List.mem_singleton.2 rfl) rfl
    (mem_nth (l := (engine .sqlite).changesOf 100 retag db) 0 (by decide)) (by decide) (by decide)
    (unique_forum rfl) (List.mem_cons_of_mem _ (List.mem_cons_self ..)) (by decide) (by decide) (by decide)⟩

/-- C37: overwriting the denormalized value of post 2 marks it. -/
example : ∃ db', (engine .mysql).exec 100 clobber db = .ok db' ∧
    ∀ r' ∈ db'.rows "post", r' "id" = .int 2 → Marked post db' r' := by
  obtain ⟨db', he⟩ := exists_ok (x := (engine .mysql).exec 100 clobber db) (by decide)
  exact ⟨db', he, C37_direct_write_marked (cb := forumTitle) (installed _) (wd_forumTitle _) (noReentry _) he
    (legal_set (by decide) (by decide)) (by unfold KeysOk; decide)
    (mem_nth (l := (engine .mysql).changesOf 100 clobber db) 0 (by decide)) (by decide) (by decide) (by decide)⟩

/-- Histories: a legal one that ends with post 2 marked and the member unmarked. -/
example (b : Backend) : LegalRun (engine b) forumTitle 100 [retitle, reparent, clobber] db ∧ KeysOk forumTitle db ∧
    StaleMarked forumTitle db := by
  refine ⟨legalRun_of_all ?_ _, by unfold KeysOk; decide, ?_⟩
  · intro s hs db
    simp only [List.mem_cons, List.not_mem_nil, or_false] at hs
    rcases hs with rfl | rfl | rfl <;> exact legal_set (by decide) (by decide)
  · show ∀ r ∈ [prow 1 1 "x" "A" 0, prow 2 1 "y" "A" 0], _
    intro r hr h
    simp only [List.mem_cons, List.not_mem_nil, or_false] at hr
    rcases hr with rfl | rfl <;> exact absurd (by decide) h

example : (((engine .sqlite).run 100 [clobber] db).dirty) = [⟨1, .int 1⟩, ⟨1, .int 1⟩, ⟨1, .int 1⟩, ⟨2, .int 1⟩, ⟨2, .int 2⟩,
    ⟨1, .int 1⟩, ⟨2, .int 1⟩, ⟨2, .int 2⟩, ⟨2, .int 2⟩] := by decide

/-- C40: re-parenting posts makes triggers change both forums' `post_count`; a callback on Post that read it would be marked. -/
def forumCount : Callback := { forumTitle with deps := [⟨⟨post, forum, .forward postForum, []⟩, ["title", "post_count"]⟩] }

theorem wd_forumCount (b : Backend) : WellDeclared b decls forumCount where
  declared := by decide
  agree := covered b (by decide)
  table := by decide
  own := by decide
  this := by decide
  watched := by decide
  keys := by decide
  links := by simp [forumCount, Dep.m2mTable]

example : ∃ db', (engine .postgresql).exec 100 reparent db = .ok db' ∧
    ∀ r' ∈ db'.rows "post", r' "id" = .int 1 → Marked post db' r' := by
  obtain ⟨db', he⟩ := exists_ok (x := (engine .postgresql).exec 100 reparent db) (by decide)
  exact ⟨db', he, C40_trigger_changes_tracked_partial (cb := forumCount)
    (d := ⟨⟨post, forum, .forward postForum, []⟩, ["title", "post_count"]⟩) (installed _)
    (wd_forumCount _) (fun _ => noReentry _) he (legal_set (by decide) (by decide)) (by unfold KeysOk; decide)
    (List.mem_singleton.2 rfl) (mem_nth (l := (engine .postgresql).changesOf 100 reparent db) 2 (by decide))
    (unique_of_nodup (by decide) (mem_nth 0 (by decide)))
    (.inl ⟨by decide, ⟨_, List.mem_cons_self .., by decide⟩, by decide⟩)⟩

end Demo

/-! ## C40 is violated on sqlite -/

namespace Tree

def parent : Field := ⟨"parent", "parent_id", "parent_id", true, some "<class 'app.Node'>"⟩

/-- A tree model with `key = CacheKeyField()` depending on its children and a callback `val` that reads the children's keys. -/
def node : Model :=
  { repr := "<class 'app.Node'>", appLabel := "app", name := "Node", table := "node", pkTable := "node", pk := "id", ct := 1,
    fields := [Demo.fld "id", parent, Demo.fld "name", Demo.fld "key", Demo.fld "val"] }

def children : Dep := ⟨node, node, .backward parent, []⟩

def val : Callback :=
  { model := node, field := "val", own := [], deps := [⟨children, ["key"]⟩], fn := Demo.concatFn }

def decls : List Denorm := [.cacheKey node "key" [children], val.denorm]

def engine (b : Backend) : Engine := ⟨b, installedTriggers b decls, fun n => 100 + n⟩

def nrow (id : Int) (parent : Val) : Row :=
  Demo.row [("id", .int id), ("parent_id", parent), ("name", .text ""), ("key", .int 0), ("val", .text "")]

/-- 3 is a child of 2, 2 is a child of 1. -/
def db : Db := ⟨fun t => if t = "node" then [nrow 1 .null, nrow 2 (.int 1), nrow 3 (.int 2)] else [], [], 0⟩

/-- `Node.objects.filter(pk=3).update(name='x')` -/
def rename : Stmt := .update "node" (fun r => r "id" == .int 3) (fun _ r => r.set "name" (.text "x"))

set_option maxRecDepth 100000

theorem wd (b : Backend) : WellDeclared b decls val where
  declared := by simp [decls]
  agree := by cases b <;> decide
  table := by decide
  own := by decide
  this := by decide
  watched := by decide
  keys := by decide
  links := by simp [val, Dep.m2mTable, children]

end Tree

/-- C40 is violated on sqlite. Renaming node 3 gives node 2 a new key (a change made by a trigger), which node 1's callback reads;
node 1 is not marked, because sqlite does not enter the trigger a second time. -/
theorem C40_violated_on_sqlite :
    Installed (Tree.engine .sqlite) Tree.decls ∧ WellDeclared .sqlite Tree.decls Tree.val ∧
    LegalStmt (Tree.engine .sqlite) Tree.val Tree.db Tree.rename ∧ KeysOk Tree.val Tree.db ∧
    ∃ db', (Tree.engine .sqlite).exec 100 Tree.rename Tree.db = .ok db' ∧
      (∃ p ∈ (Tree.engine .sqlite).changesOf 100 Tree.rename Tree.db, p.1.new "id" = .int 2 ∧ p.1.old "key" ≠ p.1.new "key" ∧
        p.1.new "parent_id" = .int 1) ∧
      ∃ r ∈ db'.rows "node", r "id" = .int 1 ∧ ¬ Marked Tree.node db' r := by
  refine ⟨rfl, Tree.wd _, legal_set (by decide) (by decide), by unfold KeysOk; decide, ?_⟩
  have hx : (match (Tree.engine .sqlite).exec 100 Tree.rename Tree.db with
      | .ok db' => decide (∃ r ∈ db'.rows "node", r "id" = .int 1 ∧ ¬ Marked Tree.node db' r)
      | .error _ => false) = true := by decide
  cases he : (Tree.engine .sqlite).exec 100 Tree.rename Tree.db with
  | error e => rw [he] at hx; simp at hx
  | ok db' =>
    rw [he] at hx
    exact ⟨db', rfl, by decide, by simpa using hx⟩

/-- The other backends do mark node 1. -/
example : (match (Tree.engine .postgresql).exec 100 Tree.rename Tree.db with
      | .ok db' => decide (⟨1, .int 1⟩ ∈ db'.dirty)
      | .error _ => false) = true := by decide

end Denorm
