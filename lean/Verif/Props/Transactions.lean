import Verif.Lemmas.TxnFar
import Verif.Props.Session
/-!
# C58: transactions

Several sessions change data in transactions that overlap in time. What they have committed, in whatever order, leaves no stale value without a marker.
The model is READ COMMITTED with row locks (`Code/Transactions.lean`).
-/
namespace Denorm

/-- C58 (partial). Whatever sessions do in transactions, with flush() handling markers in between: every committed value is right, or its row has a committed marker.
`FlushApart` excludes that flush() handles an instance that sees other rows once a transaction that is still open is committed, without being marked by it
(`Chain.C58_violated`). -/
theorem C58_partial {A : App} {S : Schema} {D : List Denorm} {om : OrmModel} {cb : Callback} (hE : Installed A.engine D)
    (hD : WellDeclared A.engine.backend D cb) (hN : NoReentry A.engine) (hk : S.key cb.model.table = cb.model.pk)
    (hS : ∀ om ∈ A.models, S.key om.model.table = om.model.pk) (hm : ∀ t, ¬ Managed A.engine t (S.key t)) {db : Db} {n : Nat} {μs : List Move}
    (hU : KeysDistinct S db) (hK : KeysOk cb db) (h0 : StaleMarked cb db) (ho : Orderly A S D om cb μs ⟨db, List.replicate n none⟩)
    (hf : FlushApart A S cb μs ⟨db, List.replicate n none⟩) :
    ∀ r ∈ (A.moves S μs ⟨db, List.replicate n none⟩).db.rows cb.model.table,
      r cb.field = cb.value (A.moves S μs ⟨db, List.replicate n none⟩).db r ∨
      ⟨cb.model.ct, r cb.model.pk⟩ ∈ (A.moves S μs ⟨db, List.replicate n none⟩).db.dirty := by
  have hX : ServerOk S cb ⟨db, List.replicate n none⟩ := by
    refine ⟨hU, hK, staleMarked_iff.1 h0, ?_, ?_⟩
    · intro i T hi
      exact absurd (List.eq_of_mem_replicate (List.mem_of_getElem? hi)) (by simp)
    · intro i j T U _ hi
      exact absurd (List.eq_of_mem_replicate (List.mem_of_getElem? hi)) (by simp)
  intro r hr
  exact ((serverOk_moves (tracks_of_installed hE hD) hN hk hm hS μs hX ho hf).stale r hr).symm

/-- C58, when nothing is marked any more: all committed values are right. -/
theorem C58_clean_partial {A : App} {S : Schema} {D : List Denorm} {om : OrmModel} {cb : Callback} (hE : Installed A.engine D)
    (hD : WellDeclared A.engine.backend D cb) (hN : NoReentry A.engine) (hk : S.key cb.model.table = cb.model.pk)
    (hS : ∀ om ∈ A.models, S.key om.model.table = om.model.pk) (hm : ∀ t, ¬ Managed A.engine t (S.key t)) {db : Db} {n : Nat} {μs : List Move}
    (hU : KeysDistinct S db) (hK : KeysOk cb db) (h0 : StaleMarked cb db) (ho : Orderly A S D om cb μs ⟨db, List.replicate n none⟩)
    (hf : FlushApart A S cb μs ⟨db, List.replicate n none⟩) (he : (A.moves S μs ⟨db, List.replicate n none⟩).db.dirty = []) :
    ∀ r ∈ (A.moves S μs ⟨db, List.replicate n none⟩).db.rows cb.model.table,
      r cb.field = cb.value (A.moves S μs ⟨db, List.replicate n none⟩).db r := by
  intro r hr
  rcases C58_partial hE hD hN hk hS hm hU hK h0 ho hf r hr with h | h
  · exact h
  · rw [he] at h; simp at h

/-- C58 where flush() is called only while no transaction with changes is open, on all databases. -/
theorem C58_alone_partial {A : App} {S : Schema} {D : List Denorm} {om : OrmModel} {cb : Callback} (hE : Installed A.engine D)
    (hD : WellDeclared A.engine.backend D cb) (hN : NoReentry A.engine) (hk : S.key cb.model.table = cb.model.pk)
    (hS : ∀ om ∈ A.models, S.key om.model.table = om.model.pk) (hm : ∀ t, ¬ Managed A.engine t (S.key t)) {db : Db} {n : Nat} {μs : List Move}
    (hU : KeysDistinct S db) (hK : KeysOk cb db) (h0 : StaleMarked cb db) (ho : Orderly A S D om cb μs ⟨db, List.replicate n none⟩)
    (hf : FlushAlone A S μs ⟨db, List.replicate n none⟩) :
    ∀ r ∈ (A.moves S μs ⟨db, List.replicate n none⟩).db.rows cb.model.table,
      r cb.field = cb.value (A.moves S μs ⟨db, List.replicate n none⟩).db r ∨
      ⟨cb.model.ct, r cb.model.pk⟩ ∈ (A.moves S μs ⟨db, List.replicate n none⟩).db.dirty :=
  C58_partial hE hD hN hk hS hm hU hK h0 ho (flushApart_of_alone μs hf)

/-- C58 on sqlite, where there is one writer at a time: flush() may be called at any time. -/
theorem C58_sqlite_partial {A : App} {S : Schema} {D : List Denorm} {om : OrmModel} {cb : Callback} (hb : A.engine.backend = .sqlite)
    (hE : Installed A.engine D) (hD : WellDeclared A.engine.backend D cb) (hN : NoReentry A.engine) (hk : S.key cb.model.table = cb.model.pk)
    (hS : ∀ om ∈ A.models, S.key om.model.table = om.model.pk) (hm : ∀ t, ¬ Managed A.engine t (S.key t)) {db : Db} {n : Nat} {μs : List Move}
    (hU : KeysDistinct S db) (hK : KeysOk cb db) (h0 : StaleMarked cb db) (ho : Orderly A S D om cb μs ⟨db, List.replicate n none⟩) :
    ∀ r ∈ (A.moves S μs ⟨db, List.replicate n none⟩).db.rows cb.model.table,
      r cb.field = cb.value (A.moves S μs ⟨db, List.replicate n none⟩).db r ∨
      ⟨cb.model.ct, r cb.model.pk⟩ ∈ (A.moves S μs ⟨db, List.replicate n none⟩).db.dirty := by
  refine C58_partial hE hD hN hk hS hm hU hK h0 ho (flushApart_sqlite hb μs ?_)
  intro T hT
  exact absurd (List.eq_of_mem_replicate hT) (by simp)

/-- C58 on all databases with flush() at any time, for fields whose related rows refer to the instance: the triggers mark it by the key that is in the related row, whether
the session can see the instance or not. -/
theorem C58_by_value_partial {A : App} {S : Schema} {D : List Denorm} {om : OrmModel} {cb : Callback} (hB : ByValue cb) (hE : Installed A.engine D)
    (hD : WellDeclared A.engine.backend D cb) (hN : NoReentry A.engine) (hk : S.key cb.model.table = cb.model.pk)
    (hS : ∀ om ∈ A.models, S.key om.model.table = om.model.pk) (hm : ∀ t, ¬ Managed A.engine t (S.key t)) {db : Db} {n : Nat} {μs : List Move}
    (hU : KeysDistinct S db) (hK : KeysOk cb db) (h0 : StaleMarked cb db) (ho : Orderly A S D om cb μs ⟨db, List.replicate n none⟩) :
    ∀ r ∈ (A.moves S μs ⟨db, List.replicate n none⟩).db.rows cb.model.table,
      r cb.field = cb.value (A.moves S μs ⟨db, List.replicate n none⟩).db r ∨
      ⟨cb.model.ct, r cb.model.pk⟩ ∈ (A.moves S μs ⟨db, List.replicate n none⟩).db.dirty := by
  have hX : ServerOk S cb ⟨db, List.replicate n none⟩ := by
    refine ⟨hU, hK, staleMarked_iff.1 h0, ?_, ?_⟩
    · intro i T hi
      exact absurd (List.eq_of_mem_replicate (List.mem_of_getElem? hi)) (by simp)
    · intro i j T U _ hi
      exact absurd (List.eq_of_mem_replicate (List.mem_of_getElem? hi)) (by simp)
  intro r hr
  refine ((far_moves (tracks_of_installed hE hD) hB hN hk hm hS μs hX ?_ ho).stale r hr).symm
  intro i T hi
  exact absurd (List.eq_of_mem_replicate (List.mem_of_getElem? hi)) (by simp)

namespace Chain
set_option maxRecDepth 100000

/-- The tables' primary keys; `fk` says whether there are foreign key constraints in the database (`db_constraint`). -/
def schema (fk : Bool) : Schema :=
  ⟨fun _ => "id", fun t => if fk then (if t = "entry" then [("blog_id", "blog")] else if t = "comment" then [("entry_id", "entry")] else []) else []⟩

/-- Insert an entry with the label that is right for a blog called `title`. -/
def post (id blog : Int) (title : String) : Stmt := .insert "entry" [erow id blog title]

theorem installed_app (b : Backend) : Installed (app b).engine decls := rfl

theorem unmanaged (b : Backend) (t : TableName) (c : Col) : ¬ Managed (app b).engine t c := by
  rintro ⟨tr, htr, u, hu, _⟩
  have := DbTrigger.mem_updates.2 hu
  simp [noUpdates b tr htr] at this

theorem distinct_db (fk : Bool) : KeysDistinct (schema fk) db := by
  intro t
  simp only [schema, db]
  split
  · decide
  · split
    · decide
    · split <;> decide

theorem orderly_rename (b : Backend) (fk : Bool) {X : DbServer} {i : Nat} {id : Int} {title : String} {μs : List Move}
    (h : Orderly (app b) (schema fk) decls entryOrm label μs ((app b).move (schema fk) X (.stmt i (rename id title)))) :
    Orderly (app b) (schema fk) decls entryOrm label (.stmt i (rename id title) :: μs) X := by
  refine ⟨⟨legal_set (by decide) (by decide), ?_⟩, h⟩
  intro x r
  simp [schema, Row.set]

theorem orderly_post (b : Backend) (fk : Bool) {X : DbServer} {i : Nat} {id blog : Int} {title : String} {μs : List Move}
    (hk : (((X.sight (schema fk) i).1.rows "entry" ++ [erow id blog title]).map fun r => r "id").Nodup)
    (h : Orderly (app b) (schema fk) decls entryOrm label μs ((app b).move (schema fk) X (.stmt i (post id blog title)))) :
    Orderly (app b) (schema fk) decls entryOrm label (.stmt i (post id blog title) :: μs) X := by
  refine ⟨⟨?_, hk⟩, h⟩
  intro r hr
  simp only [List.mem_singleton] at hr
  subst hr
  refine ⟨?_, ?_⟩
  · intro p hp hpt
    simp only [Callback.pks, label, List.map_cons, List.map_nil, List.mem_cons, List.not_mem_nil, or_false] at hp
    rcases hp with rfl | rfl
    · simp [entry, erow, Demo.row]
    · exact absurd hpt (by decide)
  · intro d hd ht
    simp only [label, List.mem_singleton] at hd
    subst hd
    exact absurd ht (by decide)

theorem orderly_flush (b : Backend) (fk : Bool) {X : DbServer} {m : Mark} {μs : List Move} (hu : KeysUnique (app b) X.db)
    (h : Orderly (app b) (schema fk) decls entryOrm label μs ((app b).move (schema fk) X (.flushOne m))) :
    Orderly (app b) (schema fk) decls entryOrm label (.flushOne m :: μs) X :=
  ⟨⟨flushable_label b _ _, hu⟩, h⟩

theorem models_keys (b : Backend) (fk : Bool) : ∀ om ∈ (app b).models, (schema fk).key om.model.table = om.model.pk := by
  intro om hom
  simp only [app, List.mem_cons, List.not_mem_nil, or_false] at hom
  rcases hom with rfl | rfl | rfl <;> rfl

/-- One session renames the blog, another one inserts an entry. The second one commits first, and flush() handles its entry before the first one commits. -/
def uncommitted : List Move :=
  [.stmt 0 (rename 1 "Z"), .stmt 1 (post 2 1 "A"), .commit 1, .flushOne ⟨12, .int 2⟩, .commit 0, .flushOne ⟨12, .int 1⟩, .flushOne ⟨13, .int 1⟩]

theorem unique_of_ids (b : Backend) {db : Db} (h : ∀ t ∈ ["blog", "entry", "comment"],
    ((db.rows t).map fun r => r "id").Nodup ∧ ∀ r ∈ db.rows t, r "id" ≠ .null) : KeysUnique (app b) db := by
  intro om hom
  simp only [app, List.mem_cons, List.not_mem_nil, or_false] at hom
  rcases hom with rfl | rfl | rfl
  · exact h "blog" (by simp)
  · exact h "entry" (by simp)
  · exact h "comment" (by simp)

theorem orderly_overtaken (b : Backend) (fk : Bool) : Orderly (app b) (schema fk) decls entryOrm label uncommitted ⟨db, List.replicate 2 none⟩ := by
  refine orderly_rename b fk (orderly_post b fk ?_ ⟨trivial, orderly_flush b fk (unique_of_ids b ?_) ⟨trivial,
    orderly_flush b fk (unique_of_ids b ?_) (orderly_flush b fk (unique_of_ids b ?_) trivial)⟩⟩)
  all_goals cases b <;> cases fk <;> decide +kernel

/-- C58 refuted for flush() at any time, on PostgreSQL, and on MySQL without foreign key constraints: nothing is marked, yet an entry has the label of the old title. -/
theorem C58_violated (b : Backend) (fk : Bool) (hb : b = .postgresql ∨ (b = .mysql ∧ fk = false)) :
    Orderly (app b) (schema fk) decls entryOrm label uncommitted ⟨db, List.replicate 2 none⟩ ∧
    ((app b).moves (schema fk) uncommitted ⟨db, List.replicate 2 none⟩).db.dirty = [] ∧
    ∃ r ∈ ((app b).moves (schema fk) uncommitted ⟨db, List.replicate 2 none⟩).db.rows label.model.table,
      r label.field ≠ label.value ((app b).moves (schema fk) uncommitted ⟨db, List.replicate 2 none⟩).db r := by
  refine ⟨orderly_overtaken b fk, ?_⟩
  rcases hb with rfl | ⟨rfl, rfl⟩
  · cases fk <;> decide +kernel
  · decide +kernel

/-- On MySQL with foreign key constraints, and on sqlite, the second session has to wait for the first one; nothing goes wrong in this schedule. -/
example : ∀ p ∈ [(Backend.mysql, true), (.sqlite, true), (.sqlite, false)],
    ((app p.1).moves (schema p.2) uncommitted ⟨db, List.replicate 2 none⟩).db.dirty = [] ∧
    ((app p.1).moves (schema p.2) uncommitted ⟨db, List.replicate 2 none⟩).db.rows "entry" ≠ [] ∧
    ∀ r ∈ ((app p.1).moves (schema p.2) uncommitted ⟨db, List.replicate 2 none⟩).db.rows label.model.table,
      r label.field = label.value ((app p.1).moves (schema p.2) uncommitted ⟨db, List.replicate 2 none⟩).db r := by
  decide +kernel

/-- The same with flush() after both commits, and a third transaction that is rolled back. -/
def inTurn : List Move :=
  [.stmt 0 (rename 1 "Z"), .stmt 1 (post 2 1 "A"), .stmt 2 (post 3 1 "A"), .commit 1, .stmt 2 (rename 5 "Y"), .commit 0, .rollback 2,
    .flushOne ⟨12, .int 2⟩, .flushOne ⟨12, .int 1⟩, .flushOne ⟨13, .int 1⟩]

theorem orderly_inTurn (b : Backend) (fk : Bool) : Orderly (app b) (schema fk) decls entryOrm label inTurn ⟨db, List.replicate 3 none⟩ := by
  refine orderly_rename b fk (orderly_post b fk ?_ (orderly_post b fk ?_ ⟨trivial, orderly_rename b fk ⟨trivial, trivial,
    orderly_flush b fk (unique_of_ids b ?_) (orderly_flush b fk (unique_of_ids b ?_) (orderly_flush b fk (unique_of_ids b ?_) trivial))⟩⟩))
  all_goals cases b <;> cases fk <;> decide +kernel

/-- C58 applies to that schedule; on PostgreSQL two entries are committed, and both were out of date before flush(). -/
example : (∀ b fk, ∀ r ∈ ((app b).moves (schema fk) inTurn ⟨db, List.replicate 3 none⟩).db.rows label.model.table,
      r label.field = label.value ((app b).moves (schema fk) inTurn ⟨db, List.replicate 3 none⟩).db r ∨
      ⟨label.model.ct, r label.model.pk⟩ ∈ ((app b).moves (schema fk) inTurn ⟨db, List.replicate 3 none⟩).db.dirty) ∧
    (((app .postgresql).moves (schema true) inTurn ⟨db, List.replicate 3 none⟩).db.rows "entry").length = 2 ∧
    ((app .postgresql).moves (schema true) inTurn ⟨db, List.replicate 3 none⟩).db.dirty = [] ∧
    ∀ r ∈ ((app .postgresql).moves (schema true) (inTurn.take 7) ⟨db, List.replicate 3 none⟩).db.rows label.model.table,
      r label.field ≠ label.value ((app .postgresql).moves (schema true) (inTurn.take 7) ⟨db, List.replicate 3 none⟩).db r :=
  ⟨fun b fk => C58_alone_partial (installed_app b) (wd_label b) (noReentry b) rfl (models_keys b fk) (fun t => unmanaged b t _) (distinct_db fk)
    (by unfold KeysOk; decide) (by unfold StaleMarked; decide) (orderly_inTurn b fk) (by cases b <;> cases fk <;> decide +kernel), by decide +kernel,
    by decide +kernel, by decide +kernel⟩

/-- C58 on sqlite applies to the schedule that goes wrong elsewhere. -/
example (fk : Bool) : ∀ r ∈ ((app .sqlite).moves (schema fk) uncommitted ⟨db, List.replicate 2 none⟩).db.rows label.model.table,
    r label.field = label.value ((app .sqlite).moves (schema fk) uncommitted ⟨db, List.replicate 2 none⟩).db r ∨
    ⟨label.model.ct, r label.model.pk⟩ ∈ ((app .sqlite).moves (schema fk) uncommitted ⟨db, List.replicate 2 none⟩).db.dirty :=
  C58_sqlite_partial rfl (installed_app _) (wd_label _) (noReentry _) rfl (models_keys _ fk) (fun t => unmanaged _ t _) (distinct_db fk)
    (by unfold KeysOk; decide) (by unfold StaleMarked; decide) (orderly_overtaken _ fk)

/-- flush() while a transaction is open: entry 2 belongs to another blog, and entry 1, which gets the old title first, is marked by the transaction that renames its blog. -/
def meantime : List Move :=
  [.stmt 0 (rename 1 "Y"), .flushOne ⟨12, .int 1⟩, .stmt 1 (rename 2 "C"), .commit 1, .flushOne ⟨12, .int 2⟩, .commit 0, .flushOne ⟨12, .int 1⟩,
    .flushOne ⟨13, .int 1⟩]

theorem distinct_busy (fk : Bool) : KeysDistinct (schema fk) busyDb := by
  intro t
  simp only [schema, busyDb]
  split
  · decide
  · split
    · decide
    · split <;> decide

theorem orderly_meantime (b : Backend) (fk : Bool) : Orderly (app b) (schema fk) decls entryOrm label meantime ⟨busyDb, List.replicate 2 none⟩ := by
  refine orderly_rename b fk (orderly_flush b fk (unique_of_ids b ?_) (orderly_rename b fk ⟨trivial, orderly_flush b fk (unique_of_ids b ?_)
    ⟨trivial, orderly_flush b fk (unique_of_ids b ?_) (orderly_flush b fk (unique_of_ids b ?_) trivial)⟩⟩))
  all_goals cases b <;> cases fk <;> decide +kernel

/-- C58 applies to it: the labels are right in the end. On PostgreSQL flush() has stored the label that was right at the time. -/
example : (∀ b fk, ∀ r ∈ ((app b).moves (schema fk) meantime ⟨busyDb, List.replicate 2 none⟩).db.rows label.model.table,
      r label.field = label.value ((app b).moves (schema fk) meantime ⟨busyDb, List.replicate 2 none⟩).db r) ∧
    (((app .postgresql).moves (schema true) (meantime.take 2) ⟨busyDb, List.replicate 2 none⟩).db.rows "entry").map (fun r => r "label") =
      [.text "Z", .text "B"] :=
  ⟨fun b fk => C58_clean_partial (installed_app b) (wd_label b) (noReentry b) rfl (models_keys b fk) (fun t => unmanaged b t _) (distinct_busy fk)
    (by unfold KeysOk; decide) (by unfold StaleMarked; decide) (orderly_meantime b fk) (by cases b <;> cases fk <;> decide +kernel)
    (by cases b <;> cases fk <;> decide +kernel), by decide +kernel⟩

end Chain

/-! A project for `C58_by_value_partial`: Shelf(summary), Book(shelf, title), where `summary` depends on `Book` -/
namespace Shelf
open Demo (fld fkf row)
set_option maxRecDepth 100000

def shelf : Model :=
  { repr := "<class 'lib.Shelf'>", appLabel := "lib", name := "Shelf", table := "shelf", pkTable := "shelf", pk := "id", ct := 21,
    fields := [fld "id", fld "summary"] }
def bookShelf : Field := fkf "shelf" "<class 'lib.Shelf'>"
def book : Model :=
  { repr := "<class 'lib.Book'>", appLabel := "lib", name := "Book", table := "book", pkTable := "book", pk := "id", ct := 22,
    fields := [fld "id", bookShelf, fld "title"] }
def summary : Callback :=
  { model := shelf, field := "summary", own := [], fn := Demo.concatFn, deps := [⟨⟨shelf, book, .backward bookShelf, []⟩, ["title"]⟩] }
def decls : List Denorm := [summary.denorm]
def engine (b : Backend) : Engine := ⟨b, installedTriggers b decls, fun _ => 0⟩
def shelfOrm : OrmModel := ⟨shelf, [⟨"summary", .callback summary⟩]⟩
def bookOrm : OrmModel := ⟨book, [⟨"shelf_id", .plain⟩, ⟨"title", .plain⟩]⟩
def app (b : Backend) : App := ⟨engine b, [shelfOrm, bookOrm], fun l => l, fun db _ _ => db.draws, 100⟩
def schema : Schema := ⟨fun _ => "id", fun _ => []⟩

def srow (id : Int) (s : String) : Row := row [("id", .int id), ("summary", .text s)]
def brow (id shelf : Int) (t : String) : Row := row [("id", .int id), ("shelf_id", .int shelf), ("title", .text t)]

/-- One shelf with one book. -/
def db : Db := ⟨fun t => if t = "shelf" then [srow 1 "A"] else if t = "book" then [brow 1 1 "A"] else [], [], 0⟩

/-- A new shelf, and in another transaction, which cannot see it, a book on it; flush() handles the shelf before the book is committed. -/
def hidden : List Move :=
  [.stmt 0 (.insert "book" [brow 2 2 "B"]), .stmt 1 (.insert "shelf" [srow 2 ""]), .commit 1, .flushOne ⟨21, .int 2⟩, .commit 0]

theorem noUpdates (b : Backend) : ∀ tr ∈ (engine b).triggers, tr.updates = [] := by cases b <;> decide

theorem noReentry (b : Backend) : NoReentry (engine b) :=
  noReentry_of (fun _ => 0) (fun tr htr u hu => by simp [noUpdates b tr htr] at hu)

theorem not_reached (b : Backend) {om : OrmModel} {t : TableName} {c : Col} : ¬ Reached (engine b) om t c := by
  intro h
  cases h with
  | direct htr _ _ _ hu => have := DbTrigger.mem_updates.2 hu; simp [noUpdates b _ htr] at this
  | next _ htr _ _ _ hu => have := DbTrigger.mem_updates.2 hu; simp [noUpdates b _ htr] at this

theorem agree : ∀ b, AgreeOnWatch b decls
  | .sqlite => by decide
  | .mysql => by decide
  | .postgresql => by decide

theorem wd (b : Backend) : WellDeclared b decls summary where
  declared := by simp [decls]
  agree := fun _ hg => covered_of_agree (agree b) (List.mem_flatMap.2 ⟨_, by decide, hg⟩)
  table := by decide
  own := by decide
  this := by decide
  watched := by decide
  keys := by decide
  links := by decide

theorem flushable (b : Backend) (db : Db) : Flushable (app b) decls shelfOrm summary db where
  installed := rfl
  declared := wd b
  noReentry := noReentry b
  found := by cases b <;> rfl
  model := rfl
  cols := by decide
  order := ⟨[], [], rfl, by decide⟩
  own := fun _ _ h => not_reached b h
  deps := by
    intro d hd
    simp only [summary, List.mem_singleton] at hd
    subst hd
    exact ⟨fun _ _ h => not_reached b h, .inl (by decide)⟩
  pks := by cases b <;> simp only [app] <;> decide
  safe := ⟨by cases b <;> simp only [app] <;> decide, fun _ _ _ _ h => not_reached b h⟩

theorem installed_app (b : Backend) : Installed (app b).engine decls := rfl

theorem unmanaged (b : Backend) (t : TableName) (c : Col) : ¬ Managed (app b).engine t c := by
  rintro ⟨tr, htr, u, hu, _⟩
  have := DbTrigger.mem_updates.2 hu
  simp [noUpdates b tr htr] at this

theorem unique_of_ids (b : Backend) {db : Db} (h : ∀ t ∈ ["shelf", "book"],
    ((db.rows t).map fun r => r "id").Nodup ∧ ∀ r ∈ db.rows t, r "id" ≠ .null) : KeysUnique (app b) db := by
  intro om hom
  simp only [app, List.mem_cons, List.not_mem_nil, or_false] at hom
  rcases hom with rfl | rfl
  · exact h "shelf" (by simp)
  · exact h "book" (by simp)

theorem legal_insert (b : Backend) (db : Db) {t : TableName} {r : Row} (hr : r "id" ≠ .null) : LegalStmt (app b).engine summary db (.insert t [r]) := by
  intro r' hr'
  simp only [List.mem_singleton] at hr'
  subst hr'
  refine ⟨?_, ?_⟩
  · intro p hp _
    simp only [Callback.pks, summary, List.map_cons, List.map_nil, List.mem_cons, List.not_mem_nil, or_false] at hp
    rcases hp with rfl | rfl
    · exact hr
    · exact hr
  · intro d hd ht
    simp only [summary, List.mem_singleton] at hd
    subst hd
    simp [Unlinked, Dep.m2mTable]

theorem orderly (b : Backend) : Orderly (app b) schema decls shelfOrm summary hidden ⟨db, List.replicate 2 none⟩ := by
  refine ⟨⟨legal_insert b _ (by decide), ?_⟩, ⟨legal_insert b _ (by decide), ?_⟩, trivial, ⟨flushable b _, unique_of_ids b ?_⟩, trivial, trivial⟩
  all_goals cases b <;> (try simp only [KeepsKeys, schema]) <;> decide +kernel

/-- C58 applies. On PostgreSQL and MySQL the new shelf is out of date after the last commit, and marked. -/
example : (∀ b, ∀ r ∈ ((app b).moves schema hidden ⟨db, List.replicate 2 none⟩).db.rows summary.model.table,
      r summary.field = summary.value ((app b).moves schema hidden ⟨db, List.replicate 2 none⟩).db r ∨
      ⟨summary.model.ct, r summary.model.pk⟩ ∈ ((app b).moves schema hidden ⟨db, List.replicate 2 none⟩).db.dirty) ∧
    ∀ b ∈ [Backend.postgresql, .mysql], (∃ r ∈ ((app b).moves schema hidden ⟨db, List.replicate 2 none⟩).db.rows summary.model.table,
      r summary.field ≠ summary.value ((app b).moves schema hidden ⟨db, List.replicate 2 none⟩).db r) ∧
      ((app b).moves schema (hidden.take 4) ⟨db, List.replicate 2 none⟩).db.dirty = [] ∧
      ((app b).moves schema hidden ⟨db, List.replicate 2 none⟩).db.dirty = [⟨21, .int 2⟩] := by
  refine ⟨fun b => C58_by_value_partial ?_ (installed_app b) (wd b) (noReentry b) rfl ?_ (fun t => unmanaged b t _) ?_ (by unfold KeysOk; decide)
    (by unfold StaleMarked; decide) (orderly b), by decide +kernel⟩
  · intro d hd
    simp only [summary, List.mem_singleton] at hd
    subst hd
    exact .inl ⟨_, rfl⟩
  · intro om hom
    simp only [app, List.mem_cons, List.not_mem_nil, or_false] at hom
    rcases hom with rfl | rfl <;> rfl
  · intro t
    simp only [schema, db]
    split
    · decide
    · split <;> decide

end Shelf
end Denorm
