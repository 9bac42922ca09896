import Verif.Lemmas.Upsert
import Verif.Props.Flush
import Verif.Props.Aggregates
import Verif.DemoApp
/-!
# Upserts (C90)
-/
namespace Denorm

/-- **C90, partial.** Whatever history of statements, upserts and (except on sqlite) `REPLACE`s is executed, on every backend: every
instance whose `@denormalized` value is out of date afterwards has a dirty marker, if that was so before. Missing: `REPLACE` on sqlite,
for which it is false (`C90_violated_replace`), and `REPLACE` into the other table of a many-to-many relation. -/
theorem C90_marked_partial {E : Engine} {D : List Denorm} {cb : Callback} (hE : Installed E D) (hD : WellDeclared E.backend D cb)
    (hN : NoReentry E) {fuel : Nat} {ws : List DbWrite} {db0 : Db} (hL : LegalWrites E cb fuel ws db0) (hK : KeysOk cb db0)
    (hS : ∀ r ∈ db0.rows cb.model.table, r cb.field = cb.value db0 r ∨ Marked cb.model db0 r) :
    ∀ r ∈ (E.writeAll fuel ws db0).rows cb.model.table,
      r cb.field ≠ cb.value (E.writeAll fuel ws db0) r → Marked cb.model (E.writeAll fuel ws db0) r := by
  intro r hr hne
  exact ((track_writes (tracks_of_installed hE hD) hN (freshTracked cb) ws db0 hL hK fun r hr => (hS r hr).symm).2 r hr).resolve_right hne

/-- **C90, partial.** flush() after such a history leaves nothing stale (for fields as in C01). -/
theorem C90_flush_partial {A : App} {D : List Denorm} {om : OrmModel} {cb : Callback} {fuel : Nat} {ws : List DbWrite} {db0 db' : Db}
    (hL : LegalWrites A.engine cb fuel ws db0) (hK : KeysOk cb db0)
    (hS : ∀ r ∈ db0.rows cb.model.table, r cb.field = cb.value db0 r ∨ Marked cb.model db0 r)
    (hF : Flushable A D om cb (A.engine.writeAll fuel ws db0)) (hu : KeysUnique A (A.engine.writeAll fuel ws db0))
    {n : Nat} (h : A.flush n (A.engine.writeAll fuel ws db0) = .ok (some db')) :
    db'.dirty = [] ∧ ∀ r ∈ db'.rows cb.model.table, r cb.field = cb.value db' r := by
  obtain ⟨hK', hg⟩ := track_writes (tracks_of_installed hF.installed hF.declared) hF.noReentry (freshTracked cb) ws db0 hL hK
    (fun r hr => (hS r hr).symm)
  exact C01_flush_partial hF hu hK' (staleMarked_iff.2 hg) h

theorem parts_imp {L L' : Stmt → Prop} {db : Db} {w : DbWrite} (h : ∀ s, L s → L' s) (hw : w.Parts L db) : w.Parts L' db := by
  cases w with
  | stmt s => exact h _ hw
  | upsert t us oc rs => exact ⟨h _ hw.1, fun σ h1 r h2 => h _ (hw.2 σ h1 r h2)⟩
  | replace t us rs => exact h _ hw

/-- **C90, partial.** After such a history a SumField holds the sum over the selected rows, if the summed column holds integers.
Missing: `REPLACE` on sqlite (false), tables that are related to themselves, NULLs in the summed column (C12). -/
theorem C90_sum_partial {E : Engine} {D : List Denorm} {a : AggDenorm} {S : List (TableName × Col)} (hE : Installed E D)
    (hD : AggDeclared E.backend D a) (hN : NoReentry E) (hS : IntClosed E.backend D S) (hm : (a.model.table, a.fieldname) ∈ S) {f : Col}
    (hf : a.agg = .sum f) (fuel : Nat) : ∀ (ws : List DbWrite) (db : Db), SumWrites E a S fuel ws db →
    (∀ t, ∀ r ∈ db.rows t, IntRow S t r) → AggOk a db →
    ∀ r ∈ (E.writeAll fuel ws db).rows a.model.table, r a.fieldname =
      .int ((((E.writeAll fuel ws db).rows a.related.table).filter fun o => decide (a.Selects (r a.model.pk) o)).map fun o => (o f).toInt).sum
  | [], db, _, _, hok => by
    intro r hr
    rw [hok r hr, AggDenorm.total, hf]
    rfl
  | w :: ws, db, hL, hI, hok => by
    simp only [SumWrites] at hL
    simp only [Engine.writeAll]
    cases he : E.write fuel db w with
    | ok db' =>
      rw [he] at hL
      obtain ⟨h1, h2⟩ := agg_write hE hD hN hS hm hL.1.1 hL.1.2 hI hok he
      exact C90_sum_partial hE hD hN hS hm hf fuel ws db' hL.2 h2 h1
    | error e =>
      rw [he] at hL
      exact C90_sum_partial hE hD hN hS hm hf fuel ws db hL.2 hI hok

/-- **C90, partial.** After such a history a CountField, with any filter, holds the number of selected rows, without flush(). Missing:
`REPLACE` on sqlite (false, `C90_violated_replace`) and tables that are related to themselves. -/
theorem C90_count_partial {E : Engine} {D : List Denorm} {a : AggDenorm} (hE : Installed E D) (hD : AggDeclared E.backend D a)
    (hN : NoReentry E) (hc : a.agg = .count) (fuel : Nat) : ∀ (ws : List DbWrite) (db : Db), CountWrites E a fuel ws db → AggOk a db →
    ∀ r ∈ (E.writeAll fuel ws db).rows a.model.table, r a.fieldname =
      .int (((E.writeAll fuel ws db).rows a.related.table).filter fun o => decide (a.Selects (r a.model.pk) o)).length
  | [], db, _, hok => by
    intro r hr
    rw [hok r hr, AggDenorm.total, hc]
    rfl
  | w :: ws, db, hL, hok => by
    simp only [CountWrites] at hL
    simp only [Engine.writeAll]
    cases he : E.write fuel db w with
    | ok db' =>
      rw [he] at hL
      exact C90_count_partial hE hD hN hc fuel ws db' hL.2
        (agg_write hE hD hN (count_closed hD hc) (by simp) (parts_imp (fun _ => countLegal_agg) hL.1.1) hL.1.2 (aggOk_ints hok) hok he).1
    | error e =>
      rw [he] at hL
      exact C90_count_partial hE hD hN hc fuel ws db hL.2 hok

/-! ## A project: crates and the things in them -/
namespace Crates
open Demo (fld fkf row)
set_option maxRecDepth 100000

def crate : Model :=
  { repr := "<class 'depot.Crate'>", appLabel := "depot", name := "Crate", table := "crate", pkTable := "crate", pk := "id", ct := 41,
    fields := [fld "id", fld "load", fld "size", fld "weight"] }
def thingCrate : Field := fkf "crate" "<class 'depot.Crate'>"
def thing : Model :=
  { repr := "<class 'depot.Thing'>", appLabel := "depot", name := "Thing", table := "thing", pkTable := "thing", pk := "id", ct := 42,
    fields := [fld "id", thingCrate, fld "kilos"] }

/-- `Crate.load`: a callback that adds up the kilos of the things in the crate. -/
def load : Callback :=
  { model := crate, field := "load", own := [], deps := [⟨⟨crate, thing, .backward thingCrate, []⟩, ["kilos"]⟩],
    fn := fun _ l => match l with
      | [os] => .int (os.map fun o => (o.headD .null).toInt).sum
      | _ => .null }

/-- `Crate.size = CountField('thing_set')` -/
def size : AggDenorm := { model := crate, fieldname := "size", related := thing, fk := thingCrate, agg := .count }

/-- `Crate.weight = SumField('thing_set', field='kilos')` -/
def weight : AggDenorm := { model := crate, fieldname := "weight", related := thing, fk := thingCrate, agg := .sum "kilos" }

def decls : List Denorm := [load.denorm, .aggregate size, .aggregate weight]
def engine (b : Backend) : Engine := ⟨b, installedTriggers b decls, fun _ => 0⟩

def crateOrm : OrmModel := ⟨crate, [⟨"load", .callback load⟩, ⟨"size", .aggregate⟩, ⟨"weight", .aggregate⟩]⟩
def thingOrm : OrmModel := ⟨thing, [⟨"crate_id", .plain⟩, ⟨"kilos", .plain⟩]⟩
def app (b : Backend) : App := ⟨engine b, [crateOrm, thingOrm], fun l => l, fun db _ _ => db.draws, 100⟩

def crow (id load size weight : Int) : Row := row [("id", .int id), ("load", .int load), ("size", .int size), ("weight", .int weight)]
def trow (id crate kilos : Int) : Row := row [("id", .int id), ("crate_id", .int crate), ("kilos", .int kilos)]

/-- Crate 1 holds two things, crate 2 is empty. -/
def db : Db := ⟨fun t =>
  if t = "crate" then [crow 1 7 2 7, crow 2 0 0 0] else if t = "thing" then [trow 1 1 3, trow 2 1 4] else [], [], 0⟩

theorem installed (b : Backend) : Installed (engine b) decls := by simp only [Installed, engine]

theorem agree : ∀ b, AgreeOnWatch b decls
  | .sqlite => by decide
  | .mysql => by decide
  | .postgresql => by decide

theorem noReentry (b : Backend) : NoReentry (engine b) := by
  apply noReentry_of fun n => if n ∈ ["denorm_after_row_insert_on_thing", "denorm_after_row_update_on_thing",
    "denorm_after_row_delete_on_thing"] then 1 else 0
  cases b <;> decide

theorem wd_load (b : Backend) : WellDeclared b decls load where
  declared := by simp [decls]
  agree := fun _ hg => covered_of_agree (agree b) (List.mem_flatMap.2 ⟨load.denorm, by simp [decls], hg⟩)
  table := by decide
  own := by decide
  this := by simp [load]
  watched := by decide
  keys := by decide
  links := by simp [load, Dep.m2mTable]

theorem ad_size (b : Backend) : AggDeclared b decls size where
  declared := by simp [decls]
  covered := fun g hg => covered_of_agree (agree b) (List.mem_flatMap.2 ⟨.aggregate size, by simp [decls], hg⟩)
  only := by decide
  pk := by decide
  fk := by decide
  watched := by decide
  fkcol := rfl
  conds := by simp [size]

theorem ad_weight (b : Backend) : AggDeclared b decls weight where
  declared := by simp [decls]
  covered := fun g hg => covered_of_agree (agree b) (List.mem_flatMap.2 ⟨.aggregate weight, by simp [decls], hg⟩)
  only := by decide
  pk := by decide
  fk := by decide
  watched := by decide
  fkcol := rfl
  conds := by simp [weight]

theorem reached (b : Backend) : ∀ om ∈ (app b).models, ∀ t c, Reached (engine b) om t c → (t, c) ∈ [("crate", "size"), ("crate", "weight")] := by
  intro om hom t c hr
  refine reached_within _ ?_ hr
  simp only [app, List.mem_cons, List.not_mem_nil, or_false] at hom
  rcases hom with rfl | rfl <;> cases b <;> decide

theorem keysSafe (b : Backend) : KeysSafe (app b) where
  kept := by cases b <;> decide
  free := by
    intro om hom om' hom' hr
    have := reached b om' hom' _ _ hr
    clear hr; revert om
    cases b <;> decide

theorem flushable_load (b : Backend) (db : Db) : Flushable (app b) decls crateOrm load db where
  installed := installed b
  declared := wd_load b
  noReentry := noReentry b
  found := by cases b <;> rfl
  model := rfl
  cols := by decide
  order := ⟨[], _, rfl, by decide⟩
  own := fun c hc hr => absurd (reached b crateOrm (by simp [app]) _ _ hr) (by clear hr; revert c; decide)
  deps := by
    intro d hd
    simp only [load, List.mem_singleton] at hd
    subst hd
    refine ⟨fun p hp hr => ?_, .inl (by decide)⟩
    have := reached b crateOrm (by simp [app]) _ _ hr
    clear hr; revert p; decide
  pks := by cases b <;> decide
  safe := keysSafe b

/-- `INSERT INTO thing VALUES (1, 2, 5), (3, 2, 6) ON CONFLICT (id) DO UPDATE SET crate_id = excluded.crate_id, kilos = excluded.kilos`:
thing 1 moves to crate 2 and gets heavier, thing 3 is new. -/
def merge : DbWrite :=
  .upsert "thing" [["id"]] (.doUpdate fun r x => (x.set "crate_id" (r "crate_id")).set "kilos" (r "kilos")) [trow 1 2 5, trow 3 2 6]

/-- `INSERT OR IGNORE INTO thing VALUES (2, 2, 9), (4, 1, 8)`: thing 2 stays as it is. -/
def ignore : DbWrite := .upsert "thing" [["id"]] .doNothing [trow 2 2 9, trow 4 1 8]

/-- `REPLACE INTO thing VALUES (1, 2, 3)`: moves thing 1 to crate 2. -/
def replace : DbWrite := .replace "thing" [["id"]] [trow 1 2 3]

theorem insert_legal (b : Backend) (db : Db) {rs : List Row} (h : ∀ r ∈ rs, r "id" ≠ .null) : LegalStmt (engine b) load db (.insert "thing" rs) := by
  intro r hr
  refine ⟨fun p hp ht => ?_, fun d hd _ => ?_⟩
  · simp only [Callback.pks, load, List.map_cons, List.map_nil, List.mem_cons, List.not_mem_nil, or_false] at hp
    rcases hp with rfl | rfl
    · exact absurd ht (by decide)
    · exact h r hr
  · simp only [load, List.mem_singleton] at hd
    subst hd
    intro tbl c k hm
    cases hm

theorem load_pks : ∀ p ∈ load.pks, p.1 = "thing" → p.2 = "id" := by decide

theorem load_merge (b : Backend) (db : Db) : LegalWrite (engine b) load db merge := by
  refine ⟨⟨insert_legal b db fun r hr => ?_, fun σ hσ r _ p hp ht x y => ?_⟩, fun t us rs h => by cases h⟩
  · rcases mem_upsertOps (mem_insertedRows.1 hr) with ⟨r', h1, h2⟩ | ⟨_, _, _, _, _, h2⟩
    · cases h2
      clear hr; revert r; decide
    · cases h2
  · cases hσ
    rw [load_pks p hp ht]
    simp [Row.set]

theorem load_ignore (b : Backend) (db : Db) : LegalWrite (engine b) load db ignore := by
  refine ⟨⟨insert_legal b db fun r hr => ?_, fun σ hσ => by cases hσ⟩, fun t us rs h => by cases h⟩
  rcases mem_upsertOps (mem_insertedRows.1 hr) with ⟨r', h1, h2⟩ | ⟨_, _, _, _, _, h2⟩
  · cases h2
    clear hr; revert r; decide
  · cases h2

theorem load_replace (b : Backend) (hb : b ≠ .sqlite) (db : Db) : LegalWrite (engine b) load db replace := by
  refine ⟨insert_legal b db (by decide), fun t us rs _ => ⟨hb, fun d hd _ => ?_⟩⟩
  simp only [load, List.mem_singleton] at hd
  subst hd
  rfl

theorem load_legal (b : Backend) : LegalWrites (engine b) load 100 [merge, ignore] db :=
  legalWrites_of (fun w hw db => by
    simp only [List.mem_cons, List.not_mem_nil, or_false] at hw
    rcases hw with rfl | rfl
    · exact load_merge b db
    · exact load_ignore b db) db

theorem load_replace_legal (b : Backend) (hb : b ≠ .sqlite) : LegalWrites (engine b) load 100 [replace] db :=
  legalWrites_of (fun w hw db => by
    rw [List.mem_singleton] at hw
    subst hw
    exact load_replace b hb db) db

/-- `C90_flush_partial`: both upserts on a consistent database, and flush() after them. -/
example (b : Backend) : ∃ db', (app b).flush 2 ((engine b).writeAll 100 [merge, ignore] db) = .ok (some db') ∧
    (db'.rows "crate").map (fun r => r "load") = [.int 12, .int 11] ∧ ∀ r ∈ db'.rows "crate", r "load" = load.value db' r := by
  obtain ⟨db', h, h1⟩ : ∃ db', (app b).flush 2 ((engine b).writeAll 100 [merge, ignore] db) = .ok (some db') ∧
      (db'.rows "crate").map (fun r => r "load") = [.int 12, .int 11] := flush_of (by cases b <;> decide +kernel)
  have hu : KeysUnique (app b) ((engine b).writeAll 100 [merge, ignore] db) := by unfold KeysUnique; cases b <;> decide +kernel
  exact ⟨db', h, h1, (C90_flush_partial (A := app b) (load_legal b) (by unfold KeysOk; decide) (by decide) (flushable_load b _) hu h).2⟩

/-- The same for `REPLACE` on MySQL. -/
example : ∃ db', (app .mysql).flush 2 ((engine .mysql).writeAll 100 [replace] db) = .ok (some db') ∧
    (db'.rows "crate").map (fun r => r "load") = [.int 4, .int 3] ∧ ∀ r ∈ db'.rows "crate", r "load" = load.value db' r := by
  obtain ⟨db', h, h1⟩ : ∃ db', (app .mysql).flush 2 ((engine .mysql).writeAll 100 [replace] db) = .ok (some db') ∧
      (db'.rows "crate").map (fun r => r "load") = [.int 4, .int 3] := flush_of (by decide +kernel)
  have hu : KeysUnique (app .mysql) ((engine .mysql).writeAll 100 [replace] db) := by unfold KeysUnique; decide +kernel
  exact ⟨db', h, h1, (C90_flush_partial (A := app .mysql) (load_replace_legal _ (by decide)) (by unfold KeysOk; decide) (by decide)
    (flushable_load _ _) hu h).2⟩

/-- `C90_marked_partial`: the crates that are out of date after both upserts are the two that are marked. -/
example (b : Backend) : LegalWrites (engine b) load 100 [merge, ignore] db ∧
    (∀ r ∈ ((engine b).writeAll 100 [merge, ignore] db).rows "crate", ¬ load.Fresh ((engine b).writeAll 100 [merge, ignore] db) r ∧
      Marked crate ((engine b).writeAll 100 [merge, ignore] db) r) :=
  ⟨load_legal b, by cases b <;> decide +kernel⟩

theorem size_legal (b : Backend) : CountWrites (engine b) size 100 [merge, ignore] db :=
  countWrites_of (fun w hw db => by
    simp only [List.mem_cons, List.not_mem_nil, or_false] at hw
    rcases hw with rfl | rfl <;>
      exact ⟨⟨fun h => absurd h (by decide), fun _ _ _ _ h => absurd h (by decide)⟩, fun h => absurd h (by decide)⟩) db

/-- `C90_count_partial`: the counts after both upserts. -/
example (b : Backend) : AggOk size db ∧ CountWrites (engine b) size 100 [merge, ignore] db ∧
    (((engine b).writeAll 100 [merge, ignore] db).rows "crate").map (fun r => r "size") = [.int 2, .int 2] :=
  ⟨by unfold AggOk; decide, size_legal b, by cases b <;> decide +kernel⟩

/-- The columns that hold integers. -/
def S : List (TableName × Col) := [("crate", "weight"), ("thing", "kilos")]

theorem S_closed (b : Backend) : IntClosed b decls S := by
  intro a' h1 h2
  simp only [decls, List.mem_cons, List.not_mem_nil, or_false] at h1
  rcases h1 with h1 | h1 | h1
  · cases h1
  · cases h1; exact absurd h2 (by decide)
  · cases h1
    exact ⟨(ad_weight b).covered, fun f hf => by cases hf; decide⟩

theorem kilos_int {t : TableName} {r : Row} (ht : t = "thing") (h : ∃ i, r "kilos" = .int i) : IntRow S t r := by
  intro c hc
  simp only [S, List.mem_cons, Prod.mk.injEq, List.not_mem_nil, or_false] at hc
  rcases hc with ⟨h1, _⟩ | ⟨_, rfl⟩
  · exact absurd (ht.symm.trans h1) (by decide)
  · exact h

theorem weight_legal (b : Backend) : SumWrites (engine b) weight S 100 [merge, ignore] db := by
  refine sumWrites_of (fun w hw db => ?_) db
  simp only [List.mem_cons, List.not_mem_nil, or_false] at hw
  rcases hw with rfl | rfl
  · refine ⟨⟨⟨fun r hr => kilos_int rfl ?_, fun h => absurd h (by decide)⟩, fun σ hσ r hr => ⟨fun _ x hx => kilos_int rfl ?_, fun h => absurd h (by decide)⟩⟩,
      fun h => absurd h (by decide)⟩
    · rcases mem_upsertOps (mem_insertedRows.1 hr) with ⟨r', h1, h2⟩ | ⟨_, _, _, _, _, h2⟩
      · cases h2
        simp only [List.mem_cons, List.not_mem_nil, or_false] at h1
        rcases h1 with rfl | rfl <;> exact ⟨_, rfl⟩
      · cases h2
    · cases hσ
      simp only [List.mem_cons, List.not_mem_nil, or_false] at hr
      rcases hr with rfl | rfl <;> exact ⟨_, rfl⟩
  · refine ⟨⟨⟨fun r hr => kilos_int rfl ?_, fun h => absurd h (by decide)⟩, fun σ hσ => by cases hσ⟩, fun h => absurd h (by decide)⟩
    rcases mem_upsertOps (mem_insertedRows.1 hr) with ⟨r', h1, h2⟩ | ⟨_, _, _, _, _, h2⟩
    · cases h2
      simp only [List.mem_cons, List.not_mem_nil, or_false] at h1
      rcases h1 with rfl | rfl <;> exact ⟨_, rfl⟩
    · cases h2

/-- `C90_sum_partial`: the sums after both upserts. -/
example (b : Backend) : AggOk weight db ∧ IntClosed b decls S ∧ SumWrites (engine b) weight S 100 [merge, ignore] db ∧
    (((engine b).writeAll 100 [merge, ignore] db).rows "crate").map (fun r => r "weight") = [.int 12, .int 11] :=
  ⟨by unfold AggOk; decide, S_closed b, weight_legal b, by cases b <;> decide +kernel⟩

/-- For `C90_violated_replace`: what is left after the REPLACE on sqlite. -/
def replaced : Option (Db × Db) :=
  match (engine .sqlite).replace 100 "thing" [["id"]] [trow 1 2 3] db with
  | .ok db1 => match (app .sqlite).flush 2 db1 with
    | .ok (some db') => some (db1, db')
    | _ => none
  | .error _ => none

theorem replaced_facts : ∃ db1 db', (engine .sqlite).replace 100 "thing" [["id"]] [trow 1 2 3] db = .ok db1 ∧
    (app .sqlite).flush 2 db1 = .ok (some db') ∧
    (∃ r ∈ db1.rows "crate", r "load" ≠ load.value db1 r ∧ ¬ Marked crate db1 r) ∧
    (∃ r ∈ db'.rows "crate", r "load" ≠ load.value db' r) ∧ ∃ r ∈ db'.rows "crate", r "size" ≠ .int (size.total db' (r "id")) := by
  have h : (match replaced with
    | some (db1, db') => decide ((∃ r ∈ db1.rows "crate", r "load" ≠ load.value db1 r ∧ ¬ Marked crate db1 r) ∧
        (∃ r ∈ db'.rows "crate", r "load" ≠ load.value db' r) ∧ ∃ r ∈ db'.rows "crate", r "size" ≠ .int (size.total db' (r "id")))
    | none => false) = true := by decide +kernel
  unfold replaced at h
  cases h1 : (engine .sqlite).replace 100 "thing" [["id"]] [trow 1 2 3] db with
  | error e => rw [h1] at h; cases h
  | ok db1 =>
    rw [h1] at h
    simp only at h
    cases h2 : (app .sqlite).flush 2 db1 with
    | error e => rw [h2] at h; cases h
    | ok o =>
      cases o with
      | none => rw [h2] at h; cases h
      | some db' =>
        rw [h2] at h
        simp only [decide_eq_true_eq] at h
        exact ⟨db1, db', rfl, h2, h⟩

end Crates

/-- **C90 is violated** on sqlite by `REPLACE`: the thing that is moved to another crate vanishes from the first one without a trigger
noticing. The crate keeps the count and the load it had, has no marker, and flush() changes nothing about it. (On MySQL the same
statement is covered by `C90_flush_partial` and `C90_count_partial`.) -/
theorem C90_violated_replace : ∃ (A : App) (D : List Denorm) (om : OrmModel) (cb : Callback) (a : AggDenorm) (db0 db1 db' : Db)
    (t : TableName) (us : List (List Col)) (rs : List Row),
    A.engine.backend = .sqlite ∧ Flushable A D om cb db1 ∧ AggDeclared A.engine.backend D a ∧ a.agg = .count ∧ AggOk a db0 ∧
    db0.dirty = [] ∧ (∀ r ∈ db0.rows cb.model.table, r cb.field = cb.value db0 r) ∧
    A.engine.replace 100 t us rs db0 = .ok db1 ∧ A.flush 2 db1 = .ok (some db') ∧
    (∃ r ∈ db1.rows cb.model.table, r cb.field ≠ cb.value db1 r ∧ ¬ Marked cb.model db1 r) ∧
    (∃ r ∈ db'.rows cb.model.table, r cb.field ≠ cb.value db' r) ∧
    ∃ r ∈ db'.rows a.model.table, r a.fieldname ≠ .int (a.total db' (r a.model.pk)) := by
  obtain ⟨db1, db', h1, h2, h3, h4, h5⟩ := Crates.replaced_facts
  exact ⟨Crates.app .sqlite, Crates.decls, Crates.crateOrm, Crates.load, Crates.size, Crates.db, db1, db', "thing", [["id"]], _, rfl,
    Crates.flushable_load .sqlite db1, Crates.ad_size .sqlite, rfl, by unfold AggOk; decide, rfl, by decide, h1, h2, h3, h4, h5⟩

/-- **C90 is violated** by `TRUNCATE`, in every project: after the related table has been truncated, an instance whose CountField was right
and not zero is still there, with the old count and with no more markers than before. -/
theorem C90_violated_truncate {a : AggDenorm} {db : Db} (hc : a.agg = .count) (ht : a.model.table ≠ a.related.table) (hok : AggOk a db)
    {r : Row} (hr : r ∈ db.rows a.model.table) (hz : r a.fieldname ≠ .int 0) :
    r ∈ (db.truncate a.related.table).rows a.model.table ∧ (db.truncate a.related.table).rows a.related.table = [] ∧
    r a.fieldname = .int (a.total db (r a.model.pk)) ∧ r a.fieldname ≠ .int (a.total (db.truncate a.related.table) (r a.model.pk)) ∧
    (db.truncate a.related.table).dirty = db.dirty := by
  have h0 : (db.truncate a.related.table).rows a.related.table = [] := Db.setRows_same ..
  refine ⟨?_, h0, hok r hr, ?_, rfl⟩
  · rw [Db.truncate, Db.setRows_other _ _ ht]
    exact hr
  · have : a.total (db.truncate a.related.table) (r a.model.pk) = 0 := by
      rw [AggDenorm.total, hc, h0]
      rfl
    rw [this]
    exact hz

/-- Its hypotheses are met by crate 1, which holds two things. -/
example : Crates.size.agg = .count ∧ Crates.size.model.table ≠ Crates.size.related.table ∧ AggOk Crates.size Crates.db ∧
    ∃ r ∈ Crates.db.rows "crate", r "size" ≠ .int 0 := ⟨rfl, by decide, by unfold AggOk; decide, by decide⟩

end Denorm
