import Verif.Lemmas.JoinFilter
import Verif.Props.Aggregates
import Verif.DemoApp
/-!
# filter= and exclude= that follow relations (C69)
-/
namespace Denorm

/-- C69, lookups that ask for keys only (`author=5`, `author__id=5`): all names are known to the database, and the statement updates the rows, and sets the values, that the same
condition on the ForeignKey's own column does. -/
theorem C69_keys_statement {a : JoinAgg} (hk : a.Keys) (s : Side) (ch : Change) (db : Db) :
    a.run s ch db = .ok (db.setRows a.model.table ((db.rows a.model.table).map fun r =>
      if Val.sqlEq (r a.model.pk) (ch.side s a.fk.attname) ∧ (∀ g ∈ a.flat.guards s, g.holds ch db = true) then
        r.set a.fieldname ((match s with
          | .new => a.agg.incr
          | .old => a.agg.decr).eval (r a.fieldname) 0 ch db)
      else r)) := by
  unfold JoinAgg.run
  rw [if_pos (resolved_key hk s)]
  simp only [where_key hk s ch db, Bool.and_eq_true, List.all_eq_true]
  rfl

/-- C69, lookups that ask for keys only: the CountField holds, after every history of statements, the number of related rows that
`filter(**filter).exclude(**exclude)` selects, as long as the ForeignKeys on the way refer to existing rows. -/
theorem C69_keys_count_partial {E : Engine} {D : List Denorm} {a : JoinAgg} (hk : a.Keys) (hE : Installed E D) (hD : AggDeclared E.backend D a.flat)
    (hN : NoReentry E) (hc : a.agg = .count) (fuel : Nat) (ss : List Stmt) (db : Db) (hL : CountLegalRun E a.flat fuel ss db) (h0 : AggOk a.flat db)
    (hi : ∀ o ∈ (E.run fuel ss db).rows a.related.table, ∀ p ∈ a.filter ++ a.exclude, Intact (E.run fuel ss db) p.hops o) :
    ∀ r ∈ (E.run fuel ss db).rows a.model.table, r a.fieldname = .int (a.count (E.run fuel ss db) (r a.model.pk)) := by
  intro r hr
  rw [show r a.fieldname = _ from C11_filtered_count hE hD hN hc fuel ss db hL h0 r hr]
  unfold JoinAgg.count
  congr 3
  refine List.filter_congr fun o ho => ?_
  rw [decide_eq_decide]
  exact (selects_key hk (hi o ho) _).symm

/-- **C69 is violated** by every lookup that asks for anything but keys of other tables: each INSERT of a related row, each DELETE, and each UPDATE that changes a watched column
fails, in every database state. -/
theorem C69_violated_other_table {a : JoinAgg} {p : PathCond} (hp : p ∈ a.filter ++ a.exclude) (hk : ¬ KeyOnly p.hops p.cond.col)
    (ho : ∀ q ∈ a.filter ++ a.exclude, ∀ h ∈ q.hops, h.table ≠ a.model.table ∧ h.table ≠ "NEW" ∧ h.table ≠ "OLD")
    (ht : ∀ n : Nat, a.model.table ≠ "T" ++ toString n) (b : Backend) (db : Db) :
    (∀ o, a.insert b o db = .error .noSuchColumn) ∧
    (∀ i < (db.rows a.related.table).length, a.delete b i db = .error .noSuchColumn) ∧
    ∀ i, (hl : i < (db.rows a.related.table).length) → ∀ n, (∃ c ∈ watchedFields a.related a.skip, (db.rows a.related.table)[i] c ≠ n c) →
      a.change b i n db = .error .noSuchColumn := by
  have hn : ∀ s : Side, ¬ a.Resolved s := by
    intro s hs
    obtain ⟨x, hx, hal⟩ := refs_alias hp hk s
    rcases hal with h1 | ⟨n, h1⟩
    · obtain ⟨q, hq, h2⟩ := List.mem_flatMap.1 h1
      obtain ⟨h, hh, h3⟩ := List.mem_map.1 h2
      obtain ⟨k1, k2, k3⟩ := ho q hq h hh
      rcases hs x hx with h4 | h4
      · rw [h3] at k2 k3
        cases s
        · exact k2 h4
        · exact k3 h4
      · exact k1 (h3.trans h4)
    · rcases hs x hx with h4 | h4
      · exact not_side n s (h1.symm.trans h4)
      · exact ht n (h4.symm.trans h1)
  have hr : ∀ s ch db, a.run s ch db = .error .noSuchColumn := fun s ch db => if_neg (hn s)
  refine ⟨fun o => hr .new _ _, fun i hi => ?_, fun i hi n hc => ?_⟩
  · unfold JoinAgg.delete
    rw [List.getElem?_eq_getElem hi]
    exact hr .old _ _
  · unfold JoinAgg.change
    rw [List.getElem?_eq_getElem hi]
    have hch : changedCols (watchedFields a.related a.skip) (db.rows a.related.table)[i] n = true := by
      obtain ⟨c, hc, hne⟩ := hc
      exact List.any_eq_true.2 ⟨c, hc, by simpa [Val.isNot] using hne⟩
    simp only [JoinAgg.fire]
    rw [if_pos (.inr hch), hr]
    rfl

/-! ## Examples -/

namespace JoinDemo
open Demo (row fld)
set_option maxRecDepth 100000

def author : Model :=
  { repr := "<class 'app.Author'>", appLabel := "app", name := "Author", table := "author", pkTable := "author", pk := "id", ct := 31,
    fields := [fld "id", fld "active"] }
def shelf : Model :=
  { repr := "<class 'app.Shelf'>", appLabel := "app", name := "Shelf", table := "shelf", pkTable := "shelf", pk := "id", ct := 32,
    fields := [fld "id", fld "open", fld "book_count"] }
def bookShelf : Field := ⟨"shelf", "shelf_id", "shelf_id", true, some "<class 'app.Shelf'>"⟩
def book : Model :=
  { repr := "<class 'app.Book'>", appLabel := "app", name := "Book", table := "book", pkTable := "book", pk := "id", ct := 33,
    fields := [fld "id", bookShelf, fld "author_id", fld "origin_id"] }

def toAuthor : Hop := ⟨"author_id", "author", "id"⟩
def toShelf : Hop := ⟨"shelf_id", "shelf", "id"⟩
def toOrigin : Hop := ⟨"origin_id", "shelf", "id"⟩

/-- `CountField('book_set', filter=..)` on Shelf. (On sqlite the class statement refuses `filter=`, see `C11_sqlite_refused`.) -/
def counting (f : List PathCond) : JoinAgg := { model := shelf, fieldname := "book_count", related := book, fk := bookShelf, agg := .count, filter := f }

/-- `filter={'author__id': 7}` -/
def byKey : JoinAgg := counting [⟨[toAuthor], { col := "id", value := .int 7 }⟩]

/-- `filter={'author__active': 1}` -/
def byActive : JoinAgg := counting [⟨[toAuthor], { col := "active", value := .int 1 }⟩]

/-- `filter={'shelf__open': 1}` -/
def byOpen : JoinAgg := counting [⟨[toShelf], { col := "open", value := .int 1 }⟩]

/-- `filter={'origin__open': 1}`: another ForeignKey to the same table. -/
def byOrigin : JoinAgg := counting [⟨[toOrigin], { col := "open", value := .int 1 }⟩]

def srow (id open_ n : Int) : Row := row [("id", .int id), ("open", .int open_), ("book_count", .int n)]
def brow (id shelf author origin : Int) : Row := row [("id", .int id), ("shelf_id", .int shelf), ("author_id", .int author), ("origin_id", .int origin)]

def db0 : Db := ⟨fun t => if t = "shelf" then [srow 1 1 0, srow 2 0 0] else if t = "author" then [row [("id", .int 7), ("active", .int 1)]] else [], [], 0⟩

/-- All shelves are closed. -/
def closed (db : Db) : Db := db.setRows "shelf" ((db.rows "shelf").map fun r => r.set "open" (.int 0))

theorem res_of {x : Except NameErr Db} {P : Db → Prop} [DecidablePred P] (h : (match x with
      | .ok db' => decide (P db')
      | .error _ => false) = true) : ∃ db', x = .ok db' ∧ P db' := by
  cases x with
  | error e => simp at h
  | ok db' => exact ⟨db', rfl, by simpa using h⟩

/-- **C69 is violated** by lookups that lead back to the aggregate's table: the condition is evaluated when a book is written. When a shelf is closed later, the count stays. (Nothing
is installed on the shelf's table: the UPDATE changes the row and nothing else.) -/
theorem C69_violated_own_table (b : Backend) : ∃ (a : JoinAgg) (o : Row) (db db1 db2 : Db),
    (∀ r ∈ db.rows a.model.table, r a.fieldname = .int (a.count db (r a.model.pk))) ∧
    a.insert b o db = .ok db1 ∧ (∀ r ∈ db1.rows a.model.table, r a.fieldname = .int (a.count db1 (r a.model.pk))) ∧
    db2 = db1.setRows a.model.table ((db1.rows a.model.table).map fun r => r.set "open" (.int 0)) ∧
    ∃ r ∈ db2.rows a.model.table, r a.fieldname ≠ .int (a.count db2 (r a.model.pk)) := by
  obtain ⟨db1, h, h1, h2⟩ : ∃ db1, byOpen.insert b (brow 1 1 7 1) db0 = .ok db1 ∧ ((∀ r ∈ db1.rows byOpen.model.table, r byOpen.fieldname = .int (byOpen.count db1 (r byOpen.model.pk))) ∧
      ∃ r ∈ (closed db1).rows byOpen.model.table, r byOpen.fieldname ≠ .int (byOpen.count (closed db1) (r byOpen.model.pk))) :=
    res_of (by cases b <;> decide +kernel)
  exact ⟨byOpen, brow 1 1 7 1, db0, db1, _, by decide, h, h1, rfl, h2⟩

/-- **C69 is violated** by a lookup through another ForeignKey to the aggregate's table: the column is taken from the row that is updated, not from the row the ForeignKey refers to. -/
theorem C69_violated_wrong_row (b : Backend) : ∃ (a : JoinAgg) (o : Row) (db db' : Db),
    (∀ r ∈ db.rows a.model.table, r a.fieldname = .int (a.count db (r a.model.pk))) ∧
    a.insert b o db = .ok db' ∧ ∃ r ∈ db'.rows a.model.table, r a.fieldname ≠ .int (a.count db' (r a.model.pk)) := by
  obtain ⟨db', h, h1⟩ : ∃ db', byOrigin.insert b (brow 1 1 7 2) db0 = .ok db' ∧ ∃ r ∈ db'.rows byOrigin.model.table, r byOrigin.fieldname ≠ .int (byOrigin.count db' (r byOrigin.model.pk)) :=
    res_of (by cases b <;> decide +kernel)
  exact ⟨byOrigin, brow 1 1 7 2, db0, db', by decide, h, h1⟩

/-- `C69_violated_other_table` applies: books of active authors. -/
example (b : Backend) (db : Db) (o : Row) : byActive.insert b o db = .error .noSuchColumn :=
  (C69_violated_other_table (a := byActive) (p := ⟨[toAuthor], { col := "active", value := .int 1 }⟩) (by decide) (by decide) (by decide)
    (fun n h => by
      have : ("shelf" : String).toList = ("T" ++ toString n).toList := by rw [← h]; rfl
      simp at this) b db).1 o

/-- C69 applies to lookups for keys: the project, and a history. -/
def decls : List Denorm := [.aggregate byKey.flat]
def engine (b : Backend) : Engine := ⟨b, installedTriggers b decls, fun _ => 0⟩

theorem declared (b : Backend) : AggDeclared b decls byKey.flat where
  declared := by simp [decls]
  covered := fun _ hg => covered_of_agree (by unfold AgreeOnWatch; cases b <;> decide) (List.mem_flatMap.2 ⟨.aggregate byKey.flat, by simp [decls], hg⟩)
  only := by decide
  pk := by decide
  fk := by decide
  watched := by decide
  fkcol := by decide
  conds := by decide

def history : List Stmt := [.insert "book" [brow 1 1 7 1, brow 2 1 8 1], .update "book" (fun r => decide (r "id" = .int 2)) fun _ r => r.set "author_id" (.int 7)]

theorem history_legal (b : Backend) : CountLegalRun (engine b) byKey.flat 20 history db0 := by
  have l : ∀ db, ∀ s ∈ history, CountLegal byKey.flat db s := by
    intro db s hs
    simp only [history, List.mem_cons, List.not_mem_nil, or_false] at hs
    rcases hs with rfl | rfl <;> exact fun h => absurd h (by decide)
  refine ⟨l _ _ (by simp [history]), ?_⟩
  split <;> refine ⟨l _ _ (by simp [history]), ?_⟩ <;> split <;> trivial

example (b : Backend) : byKey.Keys ∧ (((engine b).run 20 history db0).rows "shelf").map (fun r => r "book_count") = [.int 2, .int 0] ∧
    ∀ r ∈ ((engine b).run 20 history db0).rows "shelf", r "book_count" = .int (byKey.count ((engine b).run 20 history db0) (r "id")) := by
  have hk : byKey.Keys := by unfold JoinAgg.Keys; decide
  refine ⟨hk, by cases b <;> decide +kernel, ?_⟩
  refine C69_keys_count_partial (E := engine b) (D := decls) hk rfl (declared b) (noReentry_of (fun _ => 0) (by cases b <;> decide)) rfl 20 history db0
    (history_legal b) (by unfold AggOk; decide) ?_
  intro o ho p hp
  have : p = ⟨[toAuthor], { col := "id", value := .int 7 }⟩ := by simpa [byKey, counting] using hp
  subst this
  have h7 : ∀ o ∈ ((engine b).run 20 history db0).rows "book", o "author_id" = .int 7 := by cases b <;> decide +kernel
  refine .inr ⟨?_, fun _ _ _ => trivial⟩
  rw [show o toAuthor.column = _ from h7 o ho]
  have : ∃ r ∈ ((engine b).run 20 history db0).rows "author", r "id" = .int 7 := by cases b <;> decide +kernel
  exact this

end JoinDemo
end Denorm
