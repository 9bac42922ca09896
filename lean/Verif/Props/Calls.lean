import Verif.Lemmas.Calls
import Verif.Lemmas.SumCalls
import Verif.Lemmas.Transparent
import Verif.Lemmas.SaveStored
import Verif.Lemmas.Cached
import Verif.Lemmas.FlushRun
import Verif.Lemmas.Transactions
import Verif.Props.Save
import Verif.Props.Aggregates
import Verif.Props.Flush
import Verif.Props.TriggerSet
/-!
# The other ways in which Django writes data (C62, C63)
-/
namespace Denorm

section
variable {A : App} {D : List Denorm} {om : OrmModel} {cb : Callback} {db db' : Db} {a : AggDenorm}

/-- C62. A program changes data by any sequence of save(), save(update_fields=..), saves of partly loaded instances, create(), bulk_create(), update(), delete(), loaddata and SQL. Afterwards
each value is right or its instance is marked. -/
theorem C62_marked_partial (hE : Installed A.engine D) (hD : WellDeclared A.engine.backend D cb) (hN : NoReentry A.engine)
    (hpk : ∀ om ∈ A.models, om.model.pk ∉ om.cols) (hp : ∀ om ∈ A.models, ∀ p ∈ cb.pks, p.1 = om.model.table → p.2 ∉ om.cols) :
    ∀ (cs : List OrmCall) (db : Db), LegalCalls A cb cs db → KeysOk cb db → StaleMarked cb db → KeysOk cb (A.calls cs db) ∧
      ∀ r ∈ (A.calls cs db).rows cb.model.table, r cb.field = cb.value (A.calls cs db) r ∨ Marked cb.model (A.calls cs db) r
  | [], db, _, hK, hS => ⟨hK, fun r hr => (staleMarked_iff.1 hS r hr).symm⟩
  | c :: cs, db, hL, hK, hS => by
    obtain ⟨hL1, hL2⟩ := hL
    simp only [App.calls]
    cases hc : A.call db c with
    | error e =>
      rw [hc] at hL2
      exact C62_marked_partial hE hD hN hpk hp cs db hL2 hK hS
    | ok db' =>
      rw [hc] at hL2
      rcases call_legal hpk hp hL1 hc with rfl | ⟨s, hs, he⟩
      · exact C62_marked_partial hE hD hN hpk hp cs _ hL2 hK hS
      · obtain ⟨hK', hg⟩ := track_exec (tracks_of_installed hE hD) hN (freshTracked cb) he hs hK (staleMarked_iff.1 hS)
        exact C62_marked_partial hE hD hN hpk hp cs db' hL2 hK' (staleMarked_iff.2 hg)

/-- C62, the result: whatever calls the program has made, after flush() every value is right. -/
theorem C62_flush_partial {cs : List OrmCall} (hL : LegalCalls A cb cs db) (hK : KeysOk cb db) (hS : StaleMarked cb db)
    (hF : Flushable A D om cb (A.calls cs db)) (hu : KeysUnique A (A.calls cs db)) {n : Nat} (h : A.flush n (A.calls cs db) = .ok (some db')) :
    db'.dirty = [] ∧ ∀ r ∈ db'.rows cb.model.table, r cb.field = cb.value db' r := by
  obtain ⟨hK', hg⟩ := C62_marked_partial hF.installed hF.declared hF.noReentry (fun om h => hF.safe.kept om h om h rfl) hF.pks cs db hL hK hS
  exact C01_flush_partial hF hu hK' (staleMarked_iff.2 fun r hr => (hg r hr).symm) h

/-- C62 for CountField: it is right after every sequence of calls. -/
theorem C62_count_partial (hE : Installed A.engine D) (hD : AggDeclared A.engine.backend D a) (hN : NoReentry A.engine) (hc : a.agg = .count) :
    ∀ (cs : List OrmCall) (db : Db), CountCalls A a cs db → AggOk a db → AggOk a (A.calls cs db)
  | [], _, _, hok => hok
  | c :: cs, db, hL, hok => by
    obtain ⟨hL1, hL2⟩ := hL
    simp only [App.calls]
    cases h : A.call db c with
    | error e =>
      rw [h] at hL2
      exact C62_count_partial hE hD hN hc cs db hL2 hok
    | ok db' =>
      rw [h] at hL2
      exact C62_count_partial hE hD hN hc cs db' hL2 (count_call hE hD hN hc hL1 h hok)

/-- C62 for SumField (and any aggregate): it is right after every sequence of calls that writes numbers where numbers are summed (`S`, as in C12). -/
theorem C62_sum_partial {S : List (TableName × Col)} (hE : Installed A.engine D) (hD : AggDeclared A.engine.backend D a) (hN : NoReentry A.engine) (hS : IntClosed A.engine.backend D S)
    (hm : (a.model.table, a.fieldname) ∈ S) : ∀ (cs : List OrmCall) (db : Db), SumCalls A a S cs db → (∀ t, ∀ r ∈ db.rows t, IntRow S t r) → AggOk a db →
      AggOk a (A.calls cs db) ∧ ∀ t, ∀ r ∈ (A.calls cs db).rows t, IntRow S t r
  | [], _, _, hI, hok => ⟨hok, hI⟩
  | c :: cs, db, hL, hI, hok => by
    obtain ⟨hL1, hL2⟩ := hL
    simp only [App.calls]
    cases h : A.call db c with
    | error e =>
      rw [h] at hL2
      exact C62_sum_partial hE hD hN hS hm cs db hL2 hI hok
    | ok db' =>
      rw [h] at hL2
      obtain ⟨h1, h2⟩ := sum_call hE hD hN hS hm hL1 h hI hok
      exact C62_sum_partial hE hD hN hS hm cs db' hL2 h2 h1

/-- C62, what is stored: save(update_fields=..) writes what `pre_save` of the named fields has returned and leaves the other columns of the row as they are (apart from columns that
triggers write in consequence). -/
theorem C62_fields {cols : List Col} {mem mem' r : Row} (hP : om.Proper) (hu : om.Unique db) (hr : r ∈ db.rows om.model.table) (hk : r om.model.pk = mem om.model.pk)
    (hpk : SaveSafe A.engine (om.restrict cols) om.model.pk) (h : A.saveFields om cols mem db = .ok (db', mem')) :
    (∃ r' ∈ db'.rows om.model.table, r' om.model.pk = mem om.model.pk) ∧
    ∀ r' ∈ db'.rows om.model.table, r' om.model.pk = mem om.model.pk → ∀ c, SaveSafe A.engine (om.restrict cols) c →
      r' c = if c ∈ cols ∧ c ∈ om.cols then mem' c else r c := by
  have hP' := restrict_proper hP cols
  have hif : ∀ c, c ∈ (om.restrict cols).saved.map SaveField.col ↔ c ∈ cols ∧ c ∈ om.cols := by
    intro c
    simp only [OrmModel.restrict, OrmModel.cols, List.mem_map, List.mem_filter, decide_eq_true_eq]
    exact ⟨fun ⟨f, ⟨h1, h2⟩, e⟩ => ⟨e ▸ h2, f, h1, e⟩, fun ⟨h1, f, h2, e⟩ => ⟨f, ⟨h2, e ▸ h1⟩, e⟩⟩
  rcases saveFields_issues h with ⟨rfl, rfl, h0⟩ | ⟨⟨_, _, _, hn⟩, hp, he⟩
  · refine ⟨⟨r, hr, hk⟩, fun r' hr' hk' c _ => ?_⟩
    have hc : ¬ (c ∈ cols ∧ c ∈ om.cols) := by rw [← hif, h0]; simp
    rw [if_neg hc, eq_of_key hu hr' hr (hk'.trans hk.symm)]
  · have hpk' : mem' om.model.pk = mem om.model.pk := preSaveAll_pk (om := om.restrict cols) hP' hp
    have := stored_row (om := om.restrict cols) hP' hu hr (hk.trans hpk'.symm) (show mem' om.model.pk ≠ .null from hpk' ▸ hn) hpk he
    rw [show mem' (om.restrict cols).model.pk = mem om.model.pk from hpk'] at this
    refine ⟨this.1, fun r' hr' hk' c hc => ?_⟩
    rw [this.2 r' hr' hk' c hc]
    simp only [savedRow]
    by_cases hm : c ∈ (om.restrict cols).saved.map SaveField.col
    · rw [if_pos hm, if_pos ((hif c).1 hm)]
    · rw [if_neg hm, if_neg fun h => hm ((hif c).2 h)]

/-- **C62 is violated** for CacheKeyField and @cached, in every project: save(update_fields=..) without the name of the key stores the named values and leaves the key as it is. -/
theorem C62_violated_key {cols : List Col} {mem mem' r r' : Row} {key c : Col} (hP : om.Proper) (hu : om.Unique db) (hr : r ∈ db.rows om.model.table)
    (hk : r om.model.pk = mem om.model.pk) (hpk : SaveSafe A.engine (om.restrict cols) om.model.pk) (hc : SaveSafe A.engine (om.restrict cols) c)
    (hkey : SaveSafe A.engine (om.restrict cols) key) (h1 : ⟨key, .cacheKey⟩ ∈ om.saved) (h2 : key ∉ cols) (h3 : ⟨c, .plain⟩ ∈ om.saved) (h4 : c ∈ cols)
    (h : A.saveFields om cols mem db = .ok (db', mem')) (hr' : r' ∈ db'.rows om.model.table) (hk' : r' om.model.pk = mem om.model.pk) :
    r' c = mem c ∧ r' key = r key := by
  have hf := (C62_fields hP hu hr hk hpk h).2 r' hr' hk'
  refine ⟨?_, by rw [hf key hkey, if_neg fun e => h2 e.1]⟩
  have hm : (⟨c, .plain⟩ : SaveField) ∈ (om.restrict cols).saved := by simp [OrmModel.restrict, h3, h4]
  rw [hf c hc, if_pos ⟨h4, List.mem_map.2 ⟨_, h3, rfl⟩⟩]
  rcases saveFields_issues h with ⟨_, rfl, _⟩ | ⟨_, hp, _⟩
  · rfl
  · exact preSaveAll_keeps hp c fun f hf e => by rw [col_inj (restrict_proper hP cols).cols hf hm e]

/-- C63. Loading a fixture, whatever values it contains: afterwards each computed value is right or its instance is marked. -/
theorem C63_marked_partial (hE : Installed A.engine D) (hD : WellDeclared A.engine.backend D cb) (hN : NoReentry A.engine)
    (hpk : ∀ om ∈ A.models, om.model.pk ∉ om.cols) (hp : ∀ om ∈ A.models, ∀ p ∈ cb.pks, p.1 = om.model.table → p.2 ∉ om.cols)
    (fixture : List (OrmModel × Row)) (hL : LegalCalls A cb (fixture.map fun p => .load p.1 p.2) db) (hK : KeysOk cb db) (hS : StaleMarked cb db) :
    ∀ r ∈ (A.calls (fixture.map fun p => .load p.1 p.2) db).rows cb.model.table,
      r cb.field = cb.value (A.calls (fixture.map fun p => .load p.1 p.2) db) r ∨ Marked cb.model (A.calls (fixture.map fun p => .load p.1 p.2) db) r :=
  (C62_marked_partial hE hD hN hpk hp _ db hL hK hS).2

end

/-- To show by evaluation that a call returns, with a result that satisfies `P`. -/
theorem fields_of {x : Except CallErr (Db × Row)} {P : Db × Row → Prop} [DecidablePred P] (h : (match x with
      | .ok y => decide (P y)
      | _ => false) = true) : ∃ y, x = .ok y ∧ P y := by
  match x, h with
  | .ok y, h => exact ⟨y, rfl, by simpa using h⟩

namespace Chain
set_option maxRecDepth 100000

theorem newKey_label (b : Backend) (db : Db) {om : OrmModel} (hom : om ∈ (app b).models) {k : Val} (hk : k ≠ .null) : NewKey (app b).engine label db om k := by
  intro r hr x hx
  rw [List.mem_singleton.1 hx]
  refine ⟨fun p hp ht => ?_, fun d hd _ tbl c k' hm => ?_⟩
  · have : p.2 = om.model.pk := by
      simp only [app, List.mem_cons, List.not_mem_nil, or_false] at hom
      simp only [label, Callback.pks, List.map_cons, List.map_nil, List.mem_cons, List.not_mem_nil, or_false] at hp
      rcases hom with rfl | rfl | rfl <;> rcases hp with rfl | rfl <;> first | rfl | exact absurd ht (by decide)
    rw [this, hr]
    exact hk
  · simp only [label, List.mem_singleton] at hd
    subst hd
    cases hm

/-- A fixture with a blog and an entry whose label is wrong; a second blog and an entry by bulk_create; the first entry moved to the second blog with save(update_fields=["blog"]). -/
def program : List OrmCall :=
  [.load blogOrm (blrow 1 "A"), .load entryOrm (erow 1 1 "?"), .bulkCreate blogOrm [(blrow 0 "B", .int 2)],
    .create entryOrm (erow 0 2 "?") (.int 2), .saveFields entryOrm ["blog_id"] (erow 1 2 "?")]

def emptyDb : Db := ⟨fun _ => [], [], 0⟩

/-- What was just executed need not be evaluated: legality of the calls in `program` does not depend on the state. -/
theorem program_legal (b : Backend) (db : Db) : LegalCalls (app b) label program db := by
  have l1 : ∀ db, LegalCall (app b) label db (.load blogOrm (blrow 1 "A")) := fun db => ⟨by simp [app], fun _ => newKey_label b db (by simp [app]) (by decide)⟩
  have l2 : ∀ db, LegalCall (app b) label db (.load entryOrm (erow 1 1 "?")) := fun db => ⟨by simp [app], fun _ => newKey_label b db (by simp [app]) (by decide)⟩
  have l3 : ∀ db, LegalCall (app b) label db (.bulkCreate blogOrm [(blrow 0 "B", .int 2)]) := fun db o ho => by
    rw [List.mem_singleton.1 ho]
    exact newKey_label b db (by simp [app]) (by decide)
  have l4 : ∀ db, LegalCall (app b) label db (.create entryOrm (erow 0 2 "?") (.int 2)) := fun db => newKey_label b db (by simp [app]) (by decide)
  have l5 : ∀ db, LegalCall (app b) label db (.saveFields entryOrm ["blog_id"] (erow 1 2 "?")) := fun db => by simp [LegalCall, app]
  have gen : ∀ (cs : List OrmCall), (∀ c ∈ cs, ∀ db, LegalCall (app b) label db c) → ∀ db, LegalCalls (app b) label cs db := by
    intro cs
    induction cs with
    | nil => exact fun _ _ => trivial
    | cons c cs ih =>
      intro h db
      refine ⟨h c (List.mem_cons_self ..) db, ?_⟩
      split <;> exact ih (fun c hc => h c (List.mem_cons_of_mem _ hc)) _
  refine gen program ?_ db
  intro c hc
  simp only [program, List.mem_cons, List.not_mem_nil, or_false] at hc
  rcases hc with rfl | rfl | rfl | rfl | rfl
  · exact l1
  · exact l2
  · exact l3
  · exact l4
  · exact l5

/-- C62 and C63 apply: the program, and flush() after it. -/
example (b : Backend) : (((app b).calls program emptyDb).rows "entry").map (fun r => r "label") = [.text "?", .text "B"] ∧
    ∃ db', (app b).flush 3 ((app b).calls program emptyDb) = .ok (some db') ∧
    (db'.rows "entry").map (fun r => r "label") = [.text "B", .text "B"] ∧ ∀ r ∈ db'.rows "entry", r "label" = label.value db' r := by
  refine ⟨by cases b <;> decide +kernel, ?_⟩
  obtain ⟨db', h, h1⟩ : ∃ db', (app b).flush 3 ((app b).calls program emptyDb) = .ok (some db') ∧
      (db'.rows "entry").map (fun r => r "label") = [.text "B", .text "B"] := flush_of (by cases b <;> decide +kernel)
  have hu : KeysUnique (app b) ((app b).calls program emptyDb) := by unfold KeysUnique; cases b <;> decide +kernel
  exact ⟨db', h, h1, (C62_flush_partial (A := app b) (program_legal b emptyDb) (by unfold KeysOk; decide) (by unfold StaleMarked; decide)
    (flushable_label b _ _) hu h).2⟩

/-- Two blogs and an entry, consistent. -/
def movedDb : Db :=
  ⟨fun t => if t = "blog" then [blrow 1 "A", blrow 2 "B"] else if t = "entry" then [erow 1 1 "A"] else [], [], 0⟩

/-- The project with `DENORM_BULK_UNSAFE_TRIGGERS`. -/
def unsafeApp (b : Backend) : App := { app b with engine := ⟨b, installedTriggers b (decls.map Denorm.bulkUnsafe), fun _ => 0⟩ }

/-- **C62 is violated** with `DENORM_BULK_UNSAFE_TRIGGERS`: after save() the value is right, but save(update_fields=["blog"]), which is no bulk operation, leaves it out of date and not
marked. -/
theorem C62_violated_bulk_unsafe (b : Backend) : Installed (unsafeApp b).engine (decls.map Denorm.bulkUnsafe) ∧
    (∃ x, (unsafeApp b).save entryOrm (erow 1 2 "A") movedDb = .ok x ∧ ∀ r ∈ x.1.rows "entry", r "label" = label.value x.1 r) ∧
    ∃ x, (unsafeApp b).saveFields entryOrm ["blog_id"] (erow 1 2 "A") movedDb = .ok x ∧
      ∃ r ∈ x.1.rows "entry", r "label" ≠ label.value x.1 r ∧ ¬ Marked label.model x.1 r := by
  obtain ⟨x, h1, h2⟩ : ∃ x, (unsafeApp b).save entryOrm (erow 1 2 "A") movedDb = .ok x ∧ ∀ r ∈ x.1.rows "entry", r "label" = label.value x.1 r :=
    save_of (by cases b <;> decide +kernel)
  obtain ⟨y, h3, h4⟩ : ∃ x, (unsafeApp b).saveFields entryOrm ["blog_id"] (erow 1 2 "A") movedDb = .ok x ∧
      ∃ r ∈ x.1.rows "entry", r "label" ≠ label.value x.1 r ∧ ¬ Marked label.model x.1 r := fields_of (by cases b <;> decide +kernel)
  exact ⟨rfl, ⟨x, h1, h2⟩, y, h3, h4⟩

end Chain

namespace Demo
set_option maxRecDepth 100000

/-- C62 for CountField applies: a forum is renamed with save(update_fields=..) by a program whose attribute `post_count` is wrong; two posts are added with bulk_create and one with
loaddata; one is deleted. -/
def forumProgram : List OrmCall :=
  [.saveFields forumOrm ["title", "post_count"] (frow 1 "G" "" "" 7), .bulkCreate postOrm [(prow 0 1 "x" "" 0, .int 1), (prow 0 1 "y" "" 0, .int 2)],
    .load postOrm (prow 3 1 "z" "F" 0), .stmt (.delete "post" fun r => decide (r "id" = .int 1))]

def lonelyForum : Db := ⟨fun t => if t = "forum" then [frow 1 "F" "" "" 0] else [], [], 0⟩

theorem forumProgram_legal (b : Backend) : CountCalls (app b) postCount forumProgram lonelyForum := by
  have hf : forumOrm.Holds postCount := by unfold OrmModel.Holds; decide
  have hp : postOrm.Holds postCount := by unfold OrmModel.Holds; decide
  refine ⟨⟨⟨by decide, by decide⟩, hf, by decide, by decide⟩, ?_⟩
  split <;> refine ⟨⟨⟨by decide, by decide⟩, hp, fun h => absurd h (by decide)⟩, ?_⟩ <;> split <;>
    refine ⟨show postOrm.model.table ≠ postCount.model.table by decide, ?_⟩ <;> split <;> refine ⟨trivial, ?_⟩ <;> split <;> trivial

example (b : Backend) : AggOk postCount lonelyForum ∧ (((app b).calls forumProgram lonelyForum).rows "forum").map (fun r => (r "title", r "post_count")) = [(.text "G", .int 2)] := by
  refine ⟨by unfold AggOk; decide, ?_⟩
  cases b <;> decide +kernel

/-- C62 for SumField applies: a score gets other points; the forum is renamed by a program whose attribute `post_count` is wrong; two scores are added with bulk_create and one with loaddata, one is
deleted. -/
def scoreProgram : List OrmCall :=
  [.save scoreOrm (srow 2 1 (.int 4)), .saveFields forumOrm ["title", "post_count"] (frow 1 "G" "" "" 7), .bulkCreate scoreOrm [(srow 0 1 (.int 5), .int 3), (srow 0 1 (.int (-6)), .int 4)],
    .load scoreOrm (srow 5 1 (.int 8)), .stmt (.delete "score" fun r => decide (r "id" = .int 1))]

theorem forum_numbers : forumOrm.Numbers sumCols where
  cols := by
    intro c hc
    simp only [sumCols, forumOrm, forum, List.mem_cons, Prod.mk.injEq, List.not_mem_nil, or_false] at hc
    rcases hc with ⟨_, rfl⟩ | ⟨h, _⟩
    · decide
    · exact absurd h (by decide)
  callbacks := by
    intro f hf cb hk hS
    simp only [forumOrm, List.mem_cons, List.not_mem_nil, or_false] at hf
    rcases hf with rfl | rfl | rfl | rfl
    · cases hk
    · exact absurd hS (by decide)
    · exact absurd hS (by decide)
    · cases hk

theorem score_numbers : scoreOrm.Numbers sumCols where
  cols := by
    intro c hc
    simp only [sumCols, scoreOrm, scored, List.mem_cons, Prod.mk.injEq, List.not_mem_nil, or_false] at hc
    rcases hc with ⟨h, _⟩ | ⟨_, rfl⟩
    · exact absurd h (by decide)
    · decide
  callbacks := by
    intro f hf cb hk hS
    simp only [scoreOrm, List.mem_cons, List.not_mem_nil, or_false] at hf
    rcases hf with rfl | rfl <;> cases hk

theorem score_attrs (id forum p : Int) : scoreOrm.Attrs sumCols (srow id forum (.int p)) := by
  intro f hf _ hS
  simp only [scoreOrm, List.mem_cons, List.not_mem_nil, or_false] at hf
  rcases hf with rfl | rfl
  · exact absurd hS (by decide)
  · exact ⟨p, rfl⟩

theorem call_of {x : Except CallErr Db} {P : Db → Prop} [DecidablePred P] (h : (match x with
      | .ok y => decide (P y)
      | _ => false) = true) : ∃ y, x = .ok y ∧ P y := by
  match x, h with
  | .ok y, h => exact ⟨y, rfl, by simpa using h⟩

theorem scoreProgram_legal (b : Backend) : SumCalls (sumApp b) scoreSum sumCols scoreProgram sumDb := by
  have hf : forumOrm.Holds scoreSum := by unfold OrmModel.Holds; decide
  have hp : scoreOrm.Holds scoreSum := by unfold OrmModel.Holds; decide
  have hs : scoreOrm.Proper := ⟨by decide, by decide⟩
  have hfa : (forumOrm.restrict ["title", "post_count"]).Attrs sumCols (frow 1 "G" "" "" 7) := by
    intro f hf hk hS
    simp only [OrmModel.restrict, forumOrm, List.mem_filter, List.mem_cons, List.not_mem_nil, or_false] at hf
    rcases hf.1 with rfl | rfl | rfl | rfl
    · exact absurd hS (by decide)
    · cases hk
    · cases hk
    · cases hk
  obtain ⟨d, h, hd⟩ : ∃ d, (sumApp b).call sumDb (.save scoreOrm (srow 2 1 (.int 4))) = .ok d ∧ (d.rows "forum").map (fun r => r "id") = [.int 1] :=
    call_of (by cases b <;> decide +kernel)
  have hu : forumOrm.Unique d := by
    unfold OrmModel.Unique
    rw [show forumOrm.model.table = "forum" from rfl]
    exact hd ▸ by decide
  refine ⟨⟨⟨hs, hp, by unfold OrmModel.Unique; decide, by decide⟩, score_numbers, score_attrs _ _ _⟩, ?_⟩
  rw [h]
  refine ⟨⟨⟨⟨by decide, by decide⟩, hf, hu, by decide⟩, forum_numbers, hfa⟩, ?_⟩
  have hb : ∀ x, SumCall (sumApp b) scoreSum sumCols x (.bulkCreate scoreOrm [(srow 0 1 (.int 5), .int 3), (srow 0 1 (.int (-6)), .int 4)]) := fun x =>
    ⟨⟨hs, hp, fun h => absurd h (by decide)⟩, score_numbers, fun o ho => by
      simp only [List.mem_cons, List.not_mem_nil, or_false] at ho
      rcases ho with rfl | rfl <;> exact score_attrs _ _ _⟩
  have hl : ∀ x, SumCall (sumApp b) scoreSum sumCols x (.load scoreOrm (srow 5 1 (.int 8))) := fun x =>
    ⟨show scoreOrm.model.table ≠ scoreSum.model.table by decide, intRow_of (by decide)⟩
  split <;> refine ⟨hb _, ?_⟩ <;> split <;> refine ⟨hl _, ?_⟩ <;> split <;> refine ⟨trivial, ?_⟩ <;> split <;> trivial

theorem sumDb_ints : ∀ t, ∀ r ∈ sumDb.rows t, IntRow sumCols t r := by
  intro t r hr
  by_cases h1 : t = "forum"
  · subst h1; exact intRow_of (by revert r; decide)
  · by_cases h2 : t = "score"
    · subst h2; exact intRow_of (by revert r; decide)
    · simp [sumDb, h1, h2] at hr

example (b : Backend) : AggOk scoreSum ((sumApp b).calls scoreProgram sumDb) ∧
    (((sumApp b).calls scoreProgram sumDb).rows "forum").map (fun r => (r "title", r "post_count")) = [(.text "G", .int 11)] :=
  ⟨(C62_sum_partial (A := sumApp b) rfl (ad_sum b) (sum_noReentry b) (sum_closed b) (by decide) scoreProgram sumDb (scoreProgram_legal b) sumDb_ints (by unfold AggOk; decide)).1,
    by cases b <;> decide +kernel⟩

/-- `C62_violated_key` applies: a post gets another title, its cache key stays. -/
example (b : Backend) : SaveSafe (app b).engine (postOrm.restrict ["title"]) "id" ∧ SaveSafe (app b).engine (postOrm.restrict ["title"]) "title" ∧
    SaveSafe (app b).engine (postOrm.restrict ["title"]) "cachekey" ∧
    ∃ x, (app b).saveFields postOrm ["title"] (prow 1 1 "new" "F" 5) ⟨fun t => if t = "post" then [prow 1 1 "old" "F" 5] else [], [], 0⟩ = .ok x ∧
      (x.1.rows "post").map (fun r => (r "title", r "cachekey")) = [(.text "new", .int 5)] := by
  have hs : ∀ c, SaveSafe (app b).engine (postOrm.restrict ["title"]) c := by
    intro c
    refine .inr fun h => ?_
    have := saveReached_within (K := [("forum", "post_count")]) ?_ h
    · simp [OrmModel.restrict, postOrm, post] at this
    · cases b <;> decide
  exact ⟨hs _, hs _, hs _, fields_of (by cases b <;> decide +kernel)⟩

/-- **C63 is violated** for CountField: a forum with one post is dumped and loaded into an empty database. The forum's count comes from the fixture, and the trigger adds the post once more. -/
theorem C63_violated_count (b : Backend) :
    Installed (app b).engine decls ∧ AggDeclared b decls postCount ∧
    AggOk postCount ⟨fun t => if t = "forum" then [frow 1 "F" "x" "" 1] else if t = "post" then [prow 1 1 "x" "F" 5] else [], [], 0⟩ ∧
    (((app b).calls [.load forumOrm (frow 1 "F" "x" "" 1), .load postOrm (prow 1 1 "x" "F" 5)] ⟨fun _ => [], [], 0⟩).rows "forum").map (fun r => r "post_count") = [.int 2] ∧
    (((app b).calls [.load forumOrm (frow 1 "F" "x" "" 1), .load postOrm (prow 1 1 "x" "F" 5)] ⟨fun _ => [], [], 0⟩).rows "post").length = 1 := by
  refine ⟨installed b, ad_postCount b, by unfold AggOk; decide, ?_, ?_⟩ <;> cases b <;> decide +kernel

end Demo
end Denorm
