import Verif.Lemmas.MultiTableAgg
import Verif.Props.MultiTable
/-!
# SumFields of multi-table children, and CountFields and SumFields in flush() (C84)

See `Props/MultiTable` for the full statement.
-/
namespace Denorm

section
variable {A : App} {D : List Denorm} {p c : OrmModel} {db db' : Db} {parent : OrmModel → Option OrmModel} {newer force : Bool} {a : AggDenorm} {S : List (TableName × Col)}

/-- C84, SumFields: `C84_count_partial` for any aggregate, in a database whose summed columns hold numbers, as they do afterwards. -/
theorem C84_sum_partial (hE : Installed A.engine D) (hD : AggDeclared A.engine.backend D a) (hN : NoReentry A.engine) (hS : IntClosed A.engine.backend D S)
    (hm : (a.model.table, a.fieldname) ∈ S) (hpP : p.Proper) (hcP : c.Proper) (hpa : p.Holds a) (hca : c.Holds a) (hpN : p.Numbers S) (hcN : c.Numbers S) {pm cm pm' cm' : Row} {k : Val}
    (hpA : p.Attrs S pm) (hcA : c.Attrs S cm)
    (h1 : syncLink p c pm cm p.model.pk = .null → p.model.table = a.model.table → ∀ o ∈ db.rows a.related.table, ¬ Val.sqlEq (o a.fk.column) k = true)
    (hpu : p.Unique db)
    (h2 : ∀ db1 pm1 new, A.saveParent p (syncLink p c pm cm) k db = .ok (db1, pm1, new) → c.Unique db1 ∧ pm1 p.model.pk ≠ .null ∧
      ((force || newer && new) = true → c.model.table = a.model.table → ∀ o ∈ db1.rows a.related.table, ¬ Val.sqlEq (o a.fk.column) (pm1 p.model.pk) = true))
    (hI : ∀ t, ∀ r ∈ db.rows t, IntRow S t r) (hok : AggOk a db) (h : A.saveChild newer force p c pm cm k db = .ok (db', pm', cm')) :
    AggOk a db' ∧ ∀ t, ∀ r ∈ db'.rows t, IntRow S t r := by
  have hpA' : p.Attrs S (syncLink p c pm cm) := by
    intro f hf hk hin
    have : syncLink p c pm cm f.col = pm f.col := by
      unfold syncLink
      by_cases hn : pm p.model.pk = .null
      · rw [if_pos hn, Row.set, if_neg fun e => hpP.pk (List.mem_map.2 ⟨f, hf, e⟩)]
      · rw [if_neg hn]
    rw [this]
    exact hpA f hf hk hin
  have hcA' : ∀ v, c.Attrs S (cm.set c.model.pk v) := by
    intro v f hf hk hin
    rw [Row.set, if_neg fun e => hcP.pk (List.mem_map.2 ⟨f, hf, e⟩)]
    exact hcA f hf hk hin
  unfold App.saveChild at h
  cases hs : A.saveParent p (syncLink p c pm cm) k db with
  | error e => rw [hs] at h; cases h
  | ok x =>
    obtain ⟨db1, pm1, new⟩ := x
    rw [hs] at h
    simp only at h
    have first : AggOk a db1 ∧ ∀ t, ∀ r ∈ db1.rows t, IntRow S t r := by
      unfold App.saveParent at hs
      by_cases hn : syncLink p c pm cm p.model.pk = .null
      · rw [if_pos hn] at hs
        cases hcr : A.create p (syncLink p c pm cm) k db with
        | error e => rw [hcr] at hs; cases hs
        | ok y =>
          obtain ⟨d, m⟩ := y
          rw [hcr] at hs
          simp only [Except.ok.injEq, Prod.mk.injEq] at hs
          obtain ⟨rfl, rfl, rfl⟩ := hs
          exact sum_call hE hD hN hS hm (c := .create p (syncLink p c pm cm) k) ⟨⟨hpP, hpa, h1 hn⟩, hpN, hpA'⟩ (by simp [App.call, callErr, hcr]) hI hok
      · rw [if_neg hn] at hs
        cases hcr : A.save p (syncLink p c pm cm) db with
        | error e => rw [hcr] at hs; cases hs
        | ok y =>
          obtain ⟨d, m⟩ := y
          rw [hcr] at hs
          simp only [Except.ok.injEq, Prod.mk.injEq] at hs
          obtain ⟨rfl, rfl, _⟩ := hs
          exact sum_call hE hD hN hS hm (c := .save p (syncLink p c pm cm)) ⟨⟨hpP, hpa, hpu, hn⟩, hpN, hpA'⟩ (by simp [App.call, callErr, hcr]) hI hok
    obtain ⟨hcu, hn1, hnew⟩ := h2 db1 pm1 new hs
    by_cases hb : (force || newer && new) = true
    · rw [if_pos hb] at h
      cases hcr : A.create c (cm.set c.model.pk (pm1 p.model.pk)) (pm1 p.model.pk) db1 with
      | error e => rw [hcr] at h; cases h
      | ok y =>
        obtain ⟨d, m⟩ := y
        rw [hcr] at h
        simp only [Except.ok.injEq, Prod.mk.injEq] at h
        obtain ⟨rfl, rfl, rfl⟩ := h
        exact sum_call hE hD hN hS hm (c := .create c (cm.set c.model.pk (pm1 p.model.pk)) (pm1 p.model.pk)) ⟨⟨hcP, hca, hnew hb⟩, hcN, hcA' _⟩ (by simp [App.call, callErr, hcr]) first.2 first.1
    · rw [if_neg hb] at h
      cases hcr : A.save c (cm.set c.model.pk (pm1 p.model.pk)) db1 with
      | error e => rw [hcr] at h; cases h
      | ok y =>
        obtain ⟨d, m⟩ := y
        rw [hcr] at h
        simp only [Except.ok.injEq, Prod.mk.injEq] at h
        obtain ⟨rfl, rfl, rfl⟩ := h
        exact sum_call hE hD hN hS hm (c := .save c (cm.set c.model.pk (pm1 p.model.pk))) ⟨⟨hcP, hca, hcu, by simpa [Row.set] using hn1⟩, hcN, hcA' _⟩ (by simp [App.call, callErr, hcr])
          first.2 first.1

/-- C84, CountFields in flush(): they stay right, whichever models are children, however many passes there are. -/
theorem C84_flush_count (hE : Installed A.engine D) (hD : AggDeclared A.engine.backend D a) (hN : NoReentry A.engine) (hc : a.agg = .count) (hK : KeysSafe A) (hC : Children A parent)
    (hP : ∀ om ∈ A.models, om.Proper ∧ om.Holds a) (hu : KeysUnique A db) (hok : AggOk a db) {n : Nat} (h : A.flushTables newer parent n db = .ok (some db')) : AggOk a db' :=
  kept_flushTables (I := AggOk a) hK hC (fun om hom _ db mem x hu hi _ _ hn hs => count_call hE hD hN hc (c := .save om mem) ⟨(hP om hom).1, (hP om hom).2, (hu om hom).1, hn⟩
    (by simp [App.call, callErr, hs]) hi) (fun _ _ h => h) n hu hok h

/-- C84, SumFields in flush(). -/
theorem C84_flush_sum (hE : Installed A.engine D) (hD : AggDeclared A.engine.backend D a) (hN : NoReentry A.engine) (hS : IntClosed A.engine.backend D S)
    (hm : (a.model.table, a.fieldname) ∈ S) (hK : KeysSafe A) (hC : Children A parent) (hP : ∀ om ∈ A.models, om.Proper ∧ om.Holds a ∧ om.Numbers S) (hu : KeysUnique A db)
    (hI : ∀ t, ∀ r ∈ db.rows t, IntRow S t r) (hok : AggOk a db) {n : Nat} (h : A.flushTables newer parent n db = .ok (some db')) : AggOk a db' ∧ ∀ t, ∀ r ∈ db'.rows t, IntRow S t r :=
  kept_flushTables (I := fun db => AggOk a db ∧ ∀ t, ∀ r ∈ db.rows t, IntRow S t r) hK hC (fun om hom _ db mem x hu hi hi0 hmem hn hs =>
    sum_call hE hD hN hS hm (c := .save om mem) ⟨⟨(hP om hom).1, (hP om hom).2.1, (hu om hom).1, hn⟩, (hP om hom).2.2, fun _ _ _ hin => hi0.2 _ mem hmem _ hin⟩
      (by simp [App.call, callErr, hs]) hi.2 hi.1) (fun _ _ h => h) n hu ⟨hok, hI⟩ h

end

/-! `class Restaurant(Place)` as in `Dining`, with `Restaurant.stars = SumField('review_set', field='stars')`. -/
namespace Rated
open Demo (fld fkf row)
open Dining (place placeOrm link plrow child_of)
set_option maxRecDepth 100000

def restaurant : Model :=
  { repr := "<class 'rated.Restaurant'>", appLabel := "rated", name := "Restaurant", table := "restaurant", pkTable := "restaurant", pk := "place_ptr_id", ct := 32,
    fields := [link, fld "menu", fld "sign", fld "stars"] }
def ofRestaurant : Field := fkf "restaurant" "<class 'rated.Restaurant'>"
def review : Model :=
  { repr := "<class 'rated.Review'>", appLabel := "rated", name := "Review", table := "review", pkTable := "review", pk := "id", ct := 33,
    fields := [fld "id", ofRestaurant, fld "stars"] }

def sign : Callback := { model := restaurant, field := "sign", own := [], fn := Demo.concatFn, deps := [⟨⟨restaurant, place, .forward link, []⟩, ["name"]⟩] }
def stars : AggDenorm := { model := restaurant, fieldname := "stars", related := review, fk := ofRestaurant, agg := .sum "stars" }
def decls : List Denorm := [sign.denorm, .aggregate stars]
def numbers : List (TableName × Col) := [("restaurant", "stars"), ("review", "stars")]

def engine (b : Backend) : Engine := ⟨b, installedTriggers b decls, fun _ => 0⟩
def restaurantOrm : OrmModel := ⟨restaurant, [⟨"menu", .plain⟩, ⟨"sign", .callback sign⟩, ⟨"stars", .aggregate⟩]⟩
def reviewOrm : OrmModel := ⟨review, [⟨"restaurant_id", .plain⟩, ⟨"stars", .plain⟩]⟩
def app (b : Backend) : App := ⟨engine b, [placeOrm, restaurantOrm, reviewOrm], fun l => l, fun db _ _ => db.draws, 100⟩
def parent (om : OrmModel) : Option OrmModel := if om.model.ct = 32 then some placeOrm else none

def rsrow (id : Int) (menu sign : String) (n : Int) : Row := row [("place_ptr_id", .int id), ("menu", .text menu), ("sign", .text sign), ("stars", .int n)]
def rvrow (id r n : Int) : Row := row [("id", .int id), ("restaurant_id", .int r), ("stars", .int n)]

/-- A restaurant with two reviews and a new name; it is marked. -/
def db : Db :=
  ⟨fun t => if t = "place" then [plrow 1 "A", plrow 2 "Z"] else if t = "restaurant" then [rsrow 2 "m" "B" 7] else if t = "review" then [rvrow 1 2 3, rvrow 2 2 4] else [],
    [⟨32, .int 2⟩], 0⟩

theorem agree : ∀ b, AgreeOnWatch b decls
  | .sqlite => by decide
  | .mysql => by decide
  | .postgresql => by decide

theorem noReentry (b : Backend) : NoReentry (engine b) := by
  apply noReentry_of (fun n => if n = "denorm_after_row_update_on_restaurant" then 0 else 1)
  cases b <;> decide

theorem reached (b : Backend) : ∀ om ∈ (app b).models, ∀ t c, Reached (engine b) om t c → (t, c) ∈ ([] : List (TableName × Col)) := by
  intro om hom t c hr
  refine reached_within _ ?_ hr
  simp only [app, List.mem_cons, List.not_mem_nil, or_false] at hom
  rcases hom with rfl | rfl | rfl <;> cases b <;> decide

theorem keysSafe (b : Backend) : KeysSafe (app b) where
  kept := by cases b <;> decide
  free := fun om _ om' hom' hr => by simpa using reached b om' hom' _ _ hr

theorem declared (b : Backend) : AggDeclared b decls stars where
  declared := by simp [decls]
  covered := fun g hg => covered_of_agree (agree b) (List.mem_flatMap.2 ⟨.aggregate stars, by simp [decls], hg⟩)
  only := by decide
  pk := by decide
  fk := by decide
  watched := by decide
  fkcol := rfl
  conds := by simp [stars]

theorem closed (b : Backend) : IntClosed b decls numbers := by
  intro a ha _
  simp only [decls, List.mem_cons, List.not_mem_nil, or_false, Denorm.aggregate.injEq] at ha
  rcases ha with ha | rfl
  · cases ha
  · exact ⟨(declared b).covered, by simp [stars, review, numbers]⟩

theorem children (b : Backend) : Children (app b) parent := by
  intro om hom p hp
  simp only [app, List.mem_cons, List.not_mem_nil, or_false] at hom
  rcases hom with rfl | rfl | rfl
  · simp [parent, placeOrm, place] at hp
  · simp only [parent, restaurantOrm, restaurant, if_pos, Option.some.injEq] at hp
    subst hp
    exact ⟨by simp [app], by decide, fun c _ h => by simpa using reached b placeOrm (by simp [app]) _ _ h⟩
  · simp [parent, reviewOrm, review] at hp

theorem holds_restaurant : restaurantOrm.Holds stars := fun _ => ⟨rfl, ⟨"stars", .aggregate⟩, by simp [restaurantOrm], rfl, rfl⟩

theorem numbers_of : ∀ om ∈ [placeOrm, restaurantOrm, reviewOrm], om.Numbers numbers := by
  intro om hom
  simp only [List.mem_cons, List.not_mem_nil, or_false] at hom
  rcases hom with rfl | rfl | rfl
  · exact ⟨by simp [placeOrm, place, numbers], by simp [placeOrm]⟩
  · exact ⟨by simp [restaurantOrm, restaurant, numbers, OrmModel.cols], by simp [restaurantOrm, restaurant, numbers]⟩
  · exact ⟨by simp [reviewOrm, review, numbers, OrmModel.cols], by simp [reviewOrm]⟩

theorem ints : ∀ t, ∀ r ∈ db.rows t, IntRow numbers t r := by
  intro t r hr c hc
  simp only [numbers, List.mem_cons, Prod.mk.injEq, List.not_mem_nil, or_false] at hc
  rcases hc with ⟨rfl, rfl⟩ | ⟨rfl, rfl⟩
  · simp [db] at hr
    subst hr
    exact ⟨_, rfl⟩
  · simp [db] at hr
    rcases hr with rfl | rfl <;> exact ⟨_, rfl⟩

/-- The hypotheses of `C84_flush_sum` are met: flush() saves the restaurant, with its place; the sign changes, the sum stays. -/
example (b : Backend) (newer : Bool) : ∃ db', (app b).flushTables newer parent 1 db = .ok (some db') ∧
    (db'.rows "restaurant").map (fun r => (r "sign", r "stars")) = [(.text "Z", .int 7)] ∧ AggOk stars db' := by
  obtain ⟨db', h, h1⟩ := flush_of (x := (app b).flushTables newer parent 1 db)
    (P := fun db' => (db'.rows "restaurant").map (fun r => (r "sign", r "stars")) = [(.text "Z", .int 7)]) (by cases b <;> cases newer <;> decide +kernel)
  refine ⟨db', h, h1, (C84_flush_sum (A := app b) rfl (declared b) (noReentry b) (closed b) (by decide) (keysSafe b) (children b) (fun om hom => ?_)
    (by unfold KeysUnique; cases b <;> decide) ints (by unfold AggOk; decide) h).1⟩
  have hn := numbers_of om hom
  simp only [app, List.mem_cons, List.not_mem_nil, or_false] at hom
  rcases hom with rfl | rfl | rfl
  · exact ⟨⟨by decide, by decide⟩, fun e => absurd e (by decide), hn⟩
  · exact ⟨⟨by decide, by decide⟩, holds_restaurant, hn⟩
  · exact ⟨⟨by decide, by decide⟩, fun e => absurd e (by decide), hn⟩

/-- Those of `C84_flush_count`, with the restaurants of `Dining`. -/
example (b : Backend) (newer : Bool) (db' : Db) (h : (Dining.app b).flushTables newer Dining.parent 1 Dining.renamedDb = .ok (some db')) : AggOk Dining.reviewCount db' := by
  refine C84_flush_count (A := Dining.app b) rfl (Dining.ad_reviewCount b) (Dining.noReentry b) rfl (Dining.keysSafe b) (Dining.children b) (fun om hom => ?_)
    (by unfold KeysUnique; cases b <;> decide) (by unfold AggOk; decide) h
  simp only [Dining.app, List.mem_cons, List.not_mem_nil, or_false] at hom
  rcases hom with rfl | rfl | rfl
  · exact ⟨⟨by decide, by decide⟩, fun e => absurd e (by decide)⟩
  · exact ⟨⟨by decide, by decide⟩, Dining.holds_restaurant⟩
  · exact ⟨⟨by decide, by decide⟩, fun e => absurd e (by decide)⟩

/-- Those of `C84_sum_partial`: the restaurant is saved with another name, menu and an outdated sum. -/
example (b : Backend) (newer : Bool) : ∃ db' pm cm, (app b).saveChild newer false placeOrm restaurantOrm (plrow 2 "Y") (rsrow 2 "n" "B" 99) .null db = .ok (db', pm, cm) ∧
    (db'.rows "restaurant").map (fun r => (r "menu", r "sign", r "stars")) = [(.text "n", .text "Y", .int 7)] ∧ AggOk stars db' := by
  obtain ⟨db', pm, cm, h, h1⟩ := child_of (x := (app b).saveChild newer false placeOrm restaurantOrm (plrow 2 "Y") (rsrow 2 "n" "B" 99) .null db)
    (P := fun db' => (db'.rows "restaurant").map (fun r => (r "menu", r "sign", r "stars")) = [(.text "n", .text "Y", .int 7)])
    (by cases b <;> cases newer <;> decide +kernel)
  refine ⟨db', pm, cm, h, h1, (C84_sum_partial (A := app b) (p := placeOrm) (c := restaurantOrm) rfl (declared b) (noReentry b) (closed b) (by decide) ⟨by decide, by decide⟩ ⟨by decide, by decide⟩
    (fun e => absurd e (by decide)) holds_restaurant (numbers_of _ (by simp)) (numbers_of _ (by simp)) (by unfold OrmModel.Attrs; simp [placeOrm, place, numbers])
    (by unfold OrmModel.Attrs; simp [restaurantOrm, restaurant, numbers])
    (fun _ e => absurd e (by decide)) (by unfold OrmModel.Unique; decide) (fun db1 pm1 new hs => ?_) ints (by unfold AggOk; decide) h).1⟩
  have hb : (match (app b).saveParent placeOrm (syncLink placeOrm restaurantOrm (plrow 2 "Y") (rsrow 2 "n" "B" 99)) .null db with
      | .ok (db1, pm1, new) => decide (new = false ∧ pm1 "id" ≠ .null ∧ (db1.rows "restaurant").map (fun r => r "place_ptr_id") = [.int 2])
      | .error _ => false) = true := by cases b <;> decide +kernel
  rw [hs] at hb
  simp only [decide_eq_true_eq] at hb
  refine ⟨?_, hb.2.1, fun hf => by rw [hb.1] at hf; simp at hf⟩
  unfold OrmModel.Unique
  rw [show restaurantOrm.model.table = "restaurant" from rfl]
  exact hb.2.2 ▸ by decide

end Rated

end Denorm
