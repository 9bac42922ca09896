import Verif.Lemmas.OneRow
import Verif.DemoApp
/-!
# C75: counters do not make sessions wait for each other in a circle
-/
namespace Denorm

section
variable {A : App} {S : Schema} {D : List Denorm} {ρ : TableName → Nat}

/-- C75 (partial). Any number of sessions, each of which issues statements that write one row and leave it with its parent, in any order and in any states: they never wait
for each other in a circle, if counters lead upwards. (MySQL: without foreign key constraints.) -/
theorem C75_no_deadlock_partial (hE : Installed A.engine D) (hP : CountsUp S D ρ) (hb : A.engine.backend = .mysql → ∀ t, S.refs t = []) {ws : List Waiter}
    (h : LockRun (OneRowLocks A S D) ws) : ¬ Deadlock ws :=
  noDeadlock (waiting_run (fun _ hp => inOrder_oneRow hE hP hb hp) h)

/-- C75 (partial), sqlite: whatever the sessions write in their transactions. -/
theorem C75_sqlite_partial (hb : A.engine.backend = .sqlite) {ws : List Waiter} (h : LockRun (fun p => ∃ ss db, p = A.txnLocks S ss db) ws) : ¬ Deadlock ws :=
  noDeadlock (ρ := fun _ => 0) (waiting_run (by
    rintro p ⟨ss, db, rfl⟩
    exact inOrder_whole (whole_txn hb ss db) (by simp)) h)

end

namespace Till
open Demo (fld fkf row)
set_option maxRecDepth 100000

/-! Region(shops, total); Shop(region, sales, takings); Sale(shop, amount). A shop counts and adds up its sales, a region its shops and their takings. -/

def region : Model :=
  { repr := "<class 'till.Region'>", appLabel := "till", name := "Region", table := "region", pkTable := "region", pk := "id", ct := 51,
    fields := [fld "id", fld "shops", fld "total"] }
def shopRegion : Field := fkf "region" "<class 'till.Region'>"
def shop : Model :=
  { repr := "<class 'till.Shop'>", appLabel := "till", name := "Shop", table := "shop", pkTable := "shop", pk := "id", ct := 52,
    fields := [fld "id", shopRegion, fld "sales", fld "takings"] }
def saleShop : Field := fkf "shop" "<class 'till.Shop'>"
def sale : Model :=
  { repr := "<class 'till.Sale'>", appLabel := "till", name := "Sale", table := "sale", pkTable := "sale", pk := "id", ct := 53,
    fields := [fld "id", saleShop, fld "amount"] }

def sales : AggDenorm := { model := shop, fieldname := "sales", related := sale, fk := saleShop, agg := .count }
def takings : AggDenorm := { model := shop, fieldname := "takings", related := sale, fk := saleShop, agg := .sum "amount" }
def shops : AggDenorm := { model := region, fieldname := "shops", related := shop, fk := shopRegion, agg := .count }
def total : AggDenorm := { model := region, fieldname := "total", related := shop, fk := shopRegion, agg := .sum "takings" }

def decls : List Denorm := [.aggregate sales, .aggregate takings, .aggregate shops, .aggregate total]
def engine (b : Backend) : Engine := ⟨b, installedTriggers b decls, fun _ => 0⟩
def app (b : Backend) : App := ⟨engine b, [], fun l => l, fun db _ _ => db.draws, 100⟩
/-- With or without foreign key constraints. -/
def schema (fk : Bool) : Schema :=
  ⟨fun _ => "id", fun t => if fk then (if t = "sale" then [("shop_id", "shop")] else if t = "shop" then [("region_id", "region")] else []) else []⟩
def level (t : TableName) : Nat := if t = "sale" then 2 else if t = "shop" then 1 else 0

def rrow (id n total : Int) : Row := row [("id", .int id), ("shops", .int n), ("total", .int total)]
def srow (id region n takings : Int) : Row := row [("id", .int id), ("region_id", .int region), ("sales", .int n), ("takings", .int takings)]
def sale_ (id shop amount : Int) : Row := row [("id", .int id), ("shop_id", .int shop), ("amount", .int amount)]

/-- Two shops in one region, one sale in each. -/
def db : Db :=
  ⟨fun t => if t = "region" then [rrow 1 2 30] else if t = "shop" then [srow 1 1 1 10, srow 2 1 1 20] else
    if t = "sale" then [sale_ 1 1 10, sale_ 2 2 20] else [], [], 0⟩

theorem mem_decls {a : AggDenorm} : Denorm.aggregate a ∈ decls ↔ a = sales ∨ a = takings ∨ a = shops ∨ a = total := by
  simp [decls]

theorem countsUp (fk : Bool) : CountsUp (schema fk) decls level where
  kinds := by intro dn h; simp only [decls, List.mem_cons, List.not_mem_nil, or_false] at h; rcases h with rfl | rfl | rfl | rfl <;> exact .inr ⟨_, rfl⟩
  level := by intro a h; rcases mem_decls.1 h with rfl | rfl | rfl | rfl <;> decide
  constraints := by
    intro t p hp
    simp only [schema] at hp
    split at hp
    · split at hp
      · subst_vars; simp only [List.mem_singleton] at hp; subst hp; decide
      · split at hp
        · subst_vars; simp only [List.mem_singleton] at hp; subst hp; decide
        · simp at hp
    · simp at hp
  oneLink := by
    intro a a' h h'
    rcases mem_decls.1 h with rfl | rfl | rfl | rfl <;> rcases mem_decls.1 h' with rfl | rfl | rfl | rfl <;> decide
  key := by intro a h; rcases mem_decls.1 h with rfl | rfl | rfl | rfl <;> rfl
  notKey := by intro a h; rcases mem_decls.1 h with rfl | rfl | rfl | rfl <;> decide
  notLink := by
    intro a a' h h'
    rcases mem_decls.1 h with rfl | rfl | rfl | rfl <;> rcases mem_decls.1 h' with rfl | rfl | rfl | rfl <;> decide
  notRef := by
    intro a h
    rcases mem_decls.1 h with rfl | rfl | rfl | rfl <;> cases fk <;> decide
  names := by
    have h0 : ∀ g ∈ generated decls, g.table ∈ ["sale", "shop"] := by decide
    intro g hg g' hg' n h
    have h3 : ∀ t ∈ ["sale", "shop"], ∀ t' ∈ ["sale", "shop"], ¬ (t' ++ "_").toList <+: t.toList := by decide
    refine h3 _ (h0 g hg) _ (h0 g' hg') ⟨(toString n).toList, ?_⟩
    rw [← String.toList_append, ← h]

theorem distinct (fk : Bool) : KeysDistinct (schema fk) db := by
  intro t
  simp only [schema, db]
  repeat' split
  all_goals decide

/-- Enter a sale; delete one; correct its amount; move it to another shop. -/
def enter (id shop amount : Int) : Stmt := .insert "sale" [sale_ id shop amount]
def cancel (id : Int) : Stmt := .delete "sale" fun r => decide (r "id" = .int id)
def correct (id amount : Int) : Stmt := .update "sale" (fun r => decide (r "id" = .int id)) fun _ r => r.set "amount" (.int amount)
def move (id shop : Int) : Stmt := .update "sale" (fun r => decide (r "id" = .int id)) fun _ r => r.set "shop_id" (.int shop)

/-- The statements succeed when no other session is about. -/
def Alone (A : App) (s s' : Stmt) (db : Db) : Prop := (∃ d, A.exec s db = .ok d) ∧ ∃ d, A.exec s' db = .ok d

/-- Two sessions issue these statements at the same time, and come to wait for each other. -/
def Collide (A : App) (S : Schema) (s s' : Stmt) (db : Db) : Prop :=
  ∃ ws, LockRun (fun p => p = A.stmtLocks S s db ∨ p = A.stmtLocks S s' db) ws ∧ Deadlock ws

/-- The locks: a changed reference locks the new row only, a NULL none; the second statement of a transaction starts from what the first has left (here: nothing to delete). -/
example : ((app .postgresql).stmtLocks (schema true) (move 1 2) db).take 3 = [⟨"sale", .int 1, .write⟩, ⟨"shop", .int 2, .key⟩, ⟨"shop", .int 2, .write⟩] ∧
    ((app .mysql).stmtLocks (schema true) (move 1 2) db).take 3 = [⟨"sale", .int 1, .write⟩, ⟨"shop", .int 2, .share⟩, ⟨"shop", .int 2, .write⟩] ∧
    (app .postgresql).stmtLocks (schema true) (.insert "sale" [(sale_ 9 1 1).set "shop_id" .null]) db = [⟨"sale", .int 9, .write⟩] ∧
    (app .postgresql).txnLocks (schema true) [cancel 1, cancel 1] db = (app .postgresql).stmtLocks (schema true) (cancel 1) db := by decide +kernel

def isOk {α : Type} (x : Except OrmErr α) : Bool :=
  match x with
  | .ok _ => true
  | .error _ => false

theorem ok_of {α : Type} {x : Except OrmErr α} (h : isOk x = true) : ∃ d, x = .ok d := by
  cases x with
  | ok d => exact ⟨d, rfl⟩
  | error => cases h

theorem enter_one (fk : Bool) {id shop amount : Int} {d : Db} : WritesOne (schema fk) decls (enter id shop amount) d := ⟨by simp [enter, Stmt.ops], trivial⟩

/-- Sales entered, deleted and corrected on all backends, here with the constraints that PostgreSQL checks. -/
example (b : Backend) : ∀ {ws}, LockRun (OneRowLocks (app b) (schema (decide (b ≠ .mysql))) decls) ws → ¬ Deadlock ws :=
  C75_no_deadlock_partial (A := app b) (D := decls) (show (engine b).triggers = _ from rfl) (countsUp _) (by rintro h; change b = .mysql at h; subst h; intro t; rfl)

/-- Such statements: they write the sale, its shop and the shop's region. -/
example (b : Backend) : OneRowLocks (app b) (schema true) decls ((app b).stmtLocks (schema true) (enter 3 1 5) db) ∧
    OneRowLocks (app b) (schema true) decls ((app b).stmtLocks (schema true) (cancel 2) db) ∧
    OneRowLocks (app b) (schema true) decls ((app b).stmtLocks (schema true) (correct 1 7) db) :=
  ⟨⟨_, _, distinct _, enter_one _, rfl⟩, ⟨_, _, distinct _, ⟨by decide, trivial⟩, rfl⟩, ⟨_, _, distinct _, ⟨by decide, by
    intro x r _
    refine ⟨by simp [schema, Row.set], fun a ha ht => ?_⟩
    rcases mem_decls.1 ha with rfl | rfl | rfl | rfl
    · simp [Row.set, sales, saleShop, fkf]
    · simp [Row.set, takings, saleShop, fkf]
    · exact absurd ht (by decide)
    · exact absurd ht (by decide)⟩, rfl⟩⟩

example : ((app .postgresql).stmtLocks (schema true) (enter 3 1 5) db).take 4 =
    [⟨"sale", .int 3, .write⟩, ⟨"shop", .int 1, .key⟩, ⟨"shop", .int 1, .write⟩, ⟨"region", .int 1, .write⟩] := by decide +kernel

/-- C75 does not hold for statements that give a row another parent: two sales change places. Each session locks the new parent first and then wants the old one. Without
triggers each of them would lock nothing but its own sale. -/
theorem C75_violated_move : ∀ b, b ≠ .sqlite → Alone (app b) (move 1 2) (move 2 1) db ∧ Collide (app b) (schema false) (move 1 2) (move 2 1) db := by
  intro b hb
  cases b with
  | sqlite => exact absurd rfl hb
  | mysql =>
    exact ⟨⟨ok_of (by decide +kernel), ok_of (by decide +kernel)⟩, two_deadlock_at 6 2 (q := ⟨"shop", .int 1, .write⟩) (q' := ⟨"region", .int 1, .write⟩) (.inl rfl) (.inr rfl)
      (by decide +kernel) (by decide +kernel) (by decide +kernel) (by decide +kernel) (by decide +kernel)⟩
  | postgresql =>
    exact ⟨⟨ok_of (by decide +kernel), ok_of (by decide +kernel)⟩, two_deadlock_at 6 2 (q := ⟨"shop", .int 1, .write⟩) (q' := ⟨"region", .int 1, .write⟩) (.inl rfl) (.inr rfl)
      (by decide +kernel) (by decide +kernel) (by decide +kernel) (by decide +kernel) (by decide +kernel)⟩

example : (⟨⟨.postgresql, [], fun _ => 0⟩, [], fun l => l, fun db _ _ => db.draws, 100⟩ : App).stmtLocks (schema false) (move 1 2) db = [⟨"sale", .int 1, .write⟩] := by
  decide +kernel

/-- Nor does it hold in MySQL with foreign key constraints: two sales are entered for the same shop. Each session first gets the shared lock for the constraint, and then
wants to write the row to count the sale. All other hypotheses of `C75_no_deadlock_partial` are met. -/
theorem C75_violated_mysql : Alone (app .mysql) (enter 3 1 5) (enter 4 1 5) db ∧ Collide (app .mysql) (schema true) (enter 3 1 5) (enter 4 1 5) db ∧
    WritesOne (schema true) decls (enter 3 1 5) db ∧ WritesOne (schema true) decls (enter 4 1 5) db :=
  ⟨⟨ok_of (by decide +kernel), ok_of (by decide +kernel)⟩, two_deadlock_at 2 2 (q := ⟨"shop", .int 1, .write⟩) (q' := ⟨"shop", .int 1, .write⟩) (.inl rfl) (.inr rfl)
      (by decide +kernel) (by decide +kernel) (by decide +kernel) (by decide +kernel) (by decide +kernel), enter_one _, enter_one _⟩

/-- Nor does it hold for transactions: the same two shops in the opposite order. -/
theorem C75_violated_txn : ∀ b, b ≠ .sqlite → ∃ ws, LockRun (fun p => ∃ ss ∈ [[enter 3 1 5, enter 4 2 5], [enter 5 2 5, enter 6 1 5]],
    p = (app b).txnLocks (schema false) ss db) ws ∧ Deadlock ws := by
  intro b hb
  cases b with
  | sqlite => exact absurd rfl hb
  | mysql =>
    exact two_deadlock_at 12 2 (q := ⟨"shop", .int 2, .write⟩) (q' := ⟨"region", .int 1, .write⟩) ⟨_, .head _, rfl⟩ ⟨_, .tail _ (.head _), rfl⟩
      (by decide +kernel) (by decide +kernel) (by decide +kernel) (by decide +kernel) (by decide +kernel)
  | postgresql =>
    exact two_deadlock_at 12 2 (q := ⟨"shop", .int 2, .write⟩) (q' := ⟨"region", .int 1, .write⟩) ⟨_, .head _, rfl⟩ ⟨_, .tail _ (.head _), rfl⟩
      (by decide +kernel) (by decide +kernel) (by decide +kernel) (by decide +kernel) (by decide +kernel)

/-- Nor does it hold for one INSERT of several rows, as bulk_create() issues it. -/
theorem C75_violated_bulk : ∀ b, b ≠ .sqlite →
    Alone (app b) (.insert "sale" [sale_ 3 1 5, sale_ 4 2 5]) (.insert "sale" [sale_ 5 2 5, sale_ 6 1 5]) db ∧
    Collide (app b) (schema false) (.insert "sale" [sale_ 3 1 5, sale_ 4 2 5]) (.insert "sale" [sale_ 5 2 5, sale_ 6 1 5]) db := by
  intro b hb
  refine ⟨⟨?_, ?_⟩, ?_⟩
  · cases b <;> exact ok_of (by decide +kernel)
  · cases b <;> exact ok_of (by decide +kernel)
  · cases b with
    | sqlite => exact absurd rfl hb
    | mysql =>
      exact two_deadlock_at 12 2 (q := ⟨"shop", .int 2, .write⟩) (q' := ⟨"region", .int 1, .write⟩) (.inl rfl) (.inr rfl)
        (by decide +kernel) (by decide +kernel) (by decide +kernel) (by decide +kernel) (by decide +kernel)
    | postgresql =>
      exact two_deadlock_at 12 3 (q := ⟨"shop", .int 2, .write⟩) (q' := ⟨"region", .int 1, .write⟩) (.inl rfl) (.inr rfl)
        (by decide +kernel) (by decide +kernel) (by decide +kernel) (by decide +kernel) (by decide +kernel)

/-- sqlite: sessions take turns. -/
example : ∀ {ws}, LockRun (fun p => ∃ ss db, p = (app .sqlite).txnLocks (schema true) ss db) ws → ¬ Deadlock ws := C75_sqlite_partial rfl
example : (app .sqlite).txnLocks (schema true) [enter 3 1 5, move 1 2] db = [wholeDatabase, wholeDatabase] := by decide +kernel

end Till

namespace Press
open Demo (fld fkf row)
set_option maxRecDepth 100000

/-! Person(written, edited); Book(author, editor): two foreign keys to the same table, both counted. -/

def person : Model :=
  { repr := "<class 'press.Person'>", appLabel := "press", name := "Person", table := "person", pkTable := "person", pk := "id", ct := 61,
    fields := [fld "id", fld "written", fld "edited"] }
def author : Field := ⟨"author", "author_id", "author_id", true, some "<class 'press.Person'>"⟩
def editor : Field := ⟨"editor", "editor_id", "editor_id", true, some "<class 'press.Person'>"⟩
def book : Model :=
  { repr := "<class 'press.Book'>", appLabel := "press", name := "Book", table := "book", pkTable := "book", pk := "id", ct := 62,
    fields := [fld "id", author, editor] }
def written : AggDenorm := { model := person, fieldname := "written", related := book, fk := author, agg := .count }
def edited : AggDenorm := { model := person, fieldname := "edited", related := book, fk := editor, agg := .count }
def decls : List Denorm := [.aggregate written, .aggregate edited]
def app (b : Backend) : App := ⟨⟨b, installedTriggers b decls, fun _ => 0⟩, [], fun l => l, fun db _ _ => db.draws, 100⟩
def schema : Schema := ⟨fun _ => "id", fun _ => []⟩
def prow (id : Int) : Row := row [("id", .int id), ("written", .int 0), ("edited", .int 0)]
def db : Db := ⟨fun t => if t = "person" then [prow 1, prow 2] else [], [], 0⟩
def publish (id author editor : Int) : Stmt := .insert "book" [row [("id", .int id), ("author_id", .int author), ("editor_id", .int editor)]]

/-- Nor does C75 hold if rows are counted along two foreign keys: two books, the author of one being the editor of the other. -/
theorem C75_violated_two_links : ∀ b, b ≠ .sqlite → Till.Alone (app b) (publish 1 1 2) (publish 2 2 1) db ∧
    Till.Collide (app b) schema (publish 1 1 2) (publish 2 2 1) db ∧ WritesOne schema decls (publish 1 1 2) db ∧ WritesOne schema decls (publish 2 2 1) db := by
  intro b hb
  refine ⟨⟨?_, ?_⟩, ?_, ⟨by simp [publish, Stmt.ops], trivial⟩, ⟨by simp [publish, Stmt.ops], trivial⟩⟩
  · cases b <;> exact Till.ok_of (by decide +kernel)
  · cases b <;> exact Till.ok_of (by decide +kernel)
  · cases b with
    | sqlite => exact absurd rfl hb
    | mysql =>
      exact two_deadlock_at 2 2 (q := ⟨"person", .int 2, .write⟩) (q' := ⟨"person", .int 1, .write⟩) (.inl rfl) (.inr rfl)
        (by decide +kernel) (by decide +kernel) (by decide +kernel) (by decide +kernel) (by decide +kernel)
    | postgresql =>
      exact two_deadlock_at 2 2 (q := ⟨"person", .int 2, .write⟩) (q' := ⟨"person", .int 1, .write⟩) (.inl rfl) (.inr rfl)
        (by decide +kernel) (by decide +kernel) (by decide +kernel) (by decide +kernel) (by decide +kernel)

end Press
end Denorm
