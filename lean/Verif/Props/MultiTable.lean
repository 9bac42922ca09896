import Verif.Lemmas.MultiTable
import Verif.Props.Calls
/-!
# Saves and flushes of multi-table children (C84)

Full statement of C84: instances of multi-table child models are created, saved and flushed like others: save() of a new or existing instance succeeds if the database accepts the rows; afterwards every
`@denormalized` value of every model is right or marked and every CountField and SumField is right; and flush() leaves nothing stale.
-/
namespace Denorm

section
variable {A : App} {D : List Denorm} {om p c : OrmModel} {cb : Callback} {db db' : Db} {parent : OrmModel → Option OrmModel} {newer force : Bool} {a : AggDenorm}

/-- C84, the values: any instance of a child, new (by save() or create(), with a key from the database or a chosen one), existing, or made from an existing instance of the parent, with any attribute values, is saved.
Afterwards each computed value, of the child, of the parent and of any other model, is right or its instance is marked. What is assumed of keys: a row is only inserted with a key that is free. -/
theorem C84_marked_partial (hE : Installed A.engine D) (hD : WellDeclared A.engine.backend D cb) (hN : NoReentry A.engine)
    (hpk : ∀ om ∈ A.models, om.model.pk ∉ om.cols) (hp : ∀ om ∈ A.models, ∀ q ∈ cb.pks, q.1 = om.model.table → q.2 ∉ om.cols)
    (hpm : p ∈ A.models) (hcm : c ∈ A.models) {pm cm pm' cm' : Row} {k : Val}
    (h1 : ∀ pm0, pm0 = syncLink p c pm cm → ¬ InDatabase p pm0 db → NewKey A.engine cb db p (if pm0 p.model.pk = .null then k else pm0 p.model.pk))
    (h2 : ∀ db1 pm1 new, A.saveParent p (syncLink p c pm cm) k db = .ok (db1, pm1, new) →
      ∀ cm0, cm0 = cm.set c.model.pk (pm1 p.model.pk) → (force || newer && new) = true ∨ ¬ InDatabase c cm0 db1 → NewKey A.engine cb db1 c (pm1 p.model.pk))
    (hK : KeysOk cb db) (hS : StaleMarked cb db) (h : A.saveChild newer force p c pm cm k db = .ok (db', pm', cm')) :
    KeysOk cb db' ∧ ∀ r ∈ db'.rows cb.model.table, r cb.field = cb.value db' r ∨ Marked cb.model db' r := by
  have step : ∀ {x y : Db} {call : OrmCall}, LegalCall A cb x call → A.call x call = .ok y → KeysOk cb x → StaleMarked cb x → KeysOk cb y ∧ StaleMarked cb y := by
    intro x y call hL hc hK hS
    have hy : A.calls [call] x = y := by simp only [App.calls, hc]
    have := C62_marked_partial hE hD hN hpk hp [call] x ⟨hL, by rw [hc]; trivial⟩ hK hS
    rw [hy] at this
    exact ⟨this.1, staleMarked_iff.2 fun r hr => (this.2 r hr).symm⟩
  suffices KeysOk cb db' ∧ StaleMarked cb db' from ⟨this.1, fun r hr => (staleMarked_iff.1 this.2 r hr).symm⟩
  unfold App.saveChild at h
  cases hs : A.saveParent p (syncLink p c pm cm) k db with
  | error e => rw [hs] at h; cases h
  | ok x =>
    obtain ⟨db1, pm1, new⟩ := x
    rw [hs] at h
    simp only at h
    have first : KeysOk cb db1 ∧ StaleMarked cb db1 := by
      have h1' := h1 _ rfl
      unfold App.saveParent at hs
      by_cases hn : syncLink p c pm cm p.model.pk = .null
      · rw [if_pos hn] at hs
        rw [if_pos hn] at h1'
        cases hc : A.create p (syncLink p c pm cm) k db with
        | error e => rw [hc] at hs; cases hs
        | ok y =>
          obtain ⟨d, m⟩ := y
          rw [hc] at hs
          simp only [Except.ok.injEq, Prod.mk.injEq] at hs
          obtain ⟨rfl, rfl, rfl⟩ := hs
          exact step (call := .create p (syncLink p c pm cm) k) (h1' fun hx => by obtain ⟨_, _, _, h⟩ := hx; exact h hn) (by simp [App.call, callErr, hc]) hK hS
      · rw [if_neg hn] at hs
        rw [if_neg hn] at h1'
        cases hc : A.save p (syncLink p c pm cm) db with
        | error e => rw [hc] at hs; cases hs
        | ok y =>
          obtain ⟨d, m⟩ := y
          rw [hc] at hs
          simp only [Except.ok.injEq, Prod.mk.injEq] at hs
          obtain ⟨rfl, rfl, _⟩ := hs
          exact step (call := .save p (syncLink p c pm cm)) ⟨hpm, h1'⟩ (by simp [App.call, callErr, hc]) hK hS
    have h2' := h2 db1 pm1 new hs _ rfl
    by_cases hb : (force || newer && new) = true
    · rw [if_pos hb] at h
      cases hc : A.create c (cm.set c.model.pk (pm1 p.model.pk)) (pm1 p.model.pk) db1 with
      | error e => rw [hc] at h; cases h
      | ok y =>
        obtain ⟨d, m⟩ := y
        rw [hc] at h
        simp only [Except.ok.injEq, Prod.mk.injEq] at h
        obtain ⟨rfl, rfl, rfl⟩ := h
        exact step (call := .create c (cm.set c.model.pk (pm1 p.model.pk)) (pm1 p.model.pk)) (h2' (.inl hb)) (by simp [App.call, callErr, hc]) first.1 first.2
    · rw [if_neg hb] at h
      cases hc : A.save c (cm.set c.model.pk (pm1 p.model.pk)) db1 with
      | error e => rw [hc] at h; cases h
      | ok y =>
        obtain ⟨d, m⟩ := y
        rw [hc] at h
        simp only [Except.ok.injEq, Prod.mk.injEq] at h
        obtain ⟨rfl, rfl, rfl⟩ := h
        exact step (call := .save c (cm.set c.model.pk (pm1 p.model.pk))) ⟨hcm, fun hx => by simpa [Row.set] using h2' (.inr hx)⟩ (by simp [App.call, callErr, hc]) first.1 first.2

/-- C84, CountFields: they are right after every save of a child, new (by save() or create()), existing, or made from an existing instance of the parent. The fields may be the child's, the parent's or
of any other model. What is assumed of keys: nothing refers to the key of a row that is inserted, and a key that is looked up belongs to one row. -/
theorem C84_count_partial (hE : Installed A.engine D) (hD : AggDeclared A.engine.backend D a) (hN : NoReentry A.engine) (hc : a.agg = .count)
    (hpP : p.Proper) (hcP : c.Proper) (hpa : p.Holds a) (hca : c.Holds a) {pm cm pm' cm' : Row} {k : Val}
    (h1 : syncLink p c pm cm p.model.pk = .null → p.model.table = a.model.table → ∀ o ∈ db.rows a.related.table, ¬ Val.sqlEq (o a.fk.column) k = true)
    (hpu : p.Unique db)
    (h2 : ∀ db1 pm1 new, A.saveParent p (syncLink p c pm cm) k db = .ok (db1, pm1, new) → c.Unique db1 ∧ pm1 p.model.pk ≠ .null ∧
      ((force || newer && new) = true → c.model.table = a.model.table → ∀ o ∈ db1.rows a.related.table, ¬ Val.sqlEq (o a.fk.column) (pm1 p.model.pk) = true))
    (hok : AggOk a db) (h : A.saveChild newer force p c pm cm k db = .ok (db', pm', cm')) : AggOk a db' := by
  unfold App.saveChild at h
  cases hs : A.saveParent p (syncLink p c pm cm) k db with
  | error e => rw [hs] at h; cases h
  | ok x =>
    obtain ⟨db1, pm1, new⟩ := x
    rw [hs] at h
    simp only at h
    have first : AggOk a db1 := by
      unfold App.saveParent at hs
      by_cases hn : syncLink p c pm cm p.model.pk = .null
      · rw [if_pos hn] at hs
        cases hcr : A.create p (syncLink p c pm cm) k db with
        | error e => rw [hcr] at hs; cases hs
        | ok y =>
          obtain ⟨d, m⟩ := y
          rw [hcr] at hs
          simp only [Except.ok.injEq, Prod.mk.injEq] at hs
          obtain ⟨rfl, rfl, rfl⟩ := hs
          exact count_call hE hD hN hc (c := .create p (syncLink p c pm cm) k) ⟨hpP, hpa, h1 hn⟩ (by simp [App.call, callErr, hcr]) hok
      · rw [if_neg hn] at hs
        cases hcr : A.save p (syncLink p c pm cm) db with
        | error e => rw [hcr] at hs; cases hs
        | ok y =>
          obtain ⟨d, m⟩ := y
          rw [hcr] at hs
          simp only [Except.ok.injEq, Prod.mk.injEq] at hs
          obtain ⟨rfl, rfl, _⟩ := hs
          exact count_call hE hD hN hc (c := .save p (syncLink p c pm cm)) ⟨hpP, hpa, hpu, hn⟩ (by simp [App.call, callErr, hcr]) hok
    obtain ⟨hcu, hn1, hnew⟩ := h2 db1 pm1 new hs
    by_cases hb : (force || newer && new) = true
    · rw [if_pos hb] at h
      cases hcr : A.create c (cm.set c.model.pk (pm1 p.model.pk)) (pm1 p.model.pk) db1 with
      | error e => rw [hcr] at h; cases h
      | ok y =>
        obtain ⟨d, m⟩ := y
        rw [hcr] at h
        simp only [Except.ok.injEq, Prod.mk.injEq] at h
        obtain ⟨rfl, rfl, rfl⟩ := h
        exact count_call hE hD hN hc (c := .create c (cm.set c.model.pk (pm1 p.model.pk)) (pm1 p.model.pk)) ⟨hcP, hca, hnew hb⟩ (by simp [App.call, callErr, hcr]) first
    · rw [if_neg hb] at h
      cases hcr : A.save c (cm.set c.model.pk (pm1 p.model.pk)) db1 with
      | error e => rw [hcr] at h; cases h
      | ok y =>
        obtain ⟨d, m⟩ := y
        rw [hcr] at h
        simp only [Except.ok.injEq, Prod.mk.injEq] at h
        obtain ⟨rfl, rfl, rfl⟩ := h
        exact count_call hE hD hN hc (c := .save c (cm.set c.model.pk (pm1 p.model.pk))) ⟨hcP, hca, hcu, by simpa [Row.set] using hn1⟩ (by simp [App.call, callErr, hcr]) first

/-- C84, the result: if every out-of-date instance is marked when flush() is called, then whenever it returns, after any number of passes and whichever models are multi-table children,
no marker is left and every row holds what the callback returns. -/
theorem C84_flush_partial (hC : Children A parent) (hL : HasParents A parent db) (hF : Flushable A D om cb db) (hu : KeysUnique A db) (hK : KeysOk cb db) (hS : StaleMarked cb db)
    {n : Nat} (h : A.flushTables newer parent n db = .ok (some db')) : db'.dirty = [] ∧ ∀ r ∈ db'.rows cb.model.table, r cb.field = cb.value db' r := by
  obtain ⟨hG, hd⟩ := good_flushTables hC n ⟨hF, hu, hK, hS⟩ hL h
  refine ⟨hd, fun r hr => Classical.byContradiction fun hne => ?_⟩
  have := hG.stale r hr hne
  simp [Marked, hd] at this

/-- C84, errors: in `objects.create(..)`, and in save() of a new instance with a Django that inserts the child's row at once, `pre_save` of no field raises. -/
theorem C84_create {pm cm : Row} (hf : force = true ∨ newer = true) (h1 : pm p.model.pk = .null) (h2 : cm c.model.pk = .null) (k : Val) : A.saveChild newer force p c pm cm k db ≠ .error .indexError := by
  unfold App.saveChild
  rw [syncLink_eq (h1.trans h2.symm)]
  simp only [App.saveParent, if_pos h1]
  cases h3 : A.create p pm k db with
  | error e => exact fun e' => create_no_indexError pm k (h3.trans (by injection e' with e'; rw [e']))
  | ok x =>
    have hb : (force || newer && true) = true := by rcases hf with h | h <;> simp [h]
    simp only [hb, if_true]
    cases h4 : A.create c (cm.set c.model.pk (x.2 p.model.pk)) (x.2 p.model.pk) x.1 with
    | error e => exact fun e' => create_no_indexError _ _ (h4.trans (by injection e' with e'; rw [e']))
    | ok y => simp

/-- **C84 is violated** in every project, with Django 1.8 to 2.0: if a multi-table child has a CountField or SumField of its own, save() of a new instance never succeeds. `Restaurant(name=..).save()`
inserts the parent's row, and then `pre_save` of the CountField looks for the restaurant's row, as it has a key already, and raises IndexError. Whatever the attributes
are and whatever the database contains. -/
theorem C84_violated_create {pm cm : Row} {k : Val} {x : Db × Row} (h1 : pm p.model.pk = .null) (h2 : cm c.model.pk = .null) (hpk : c.model.pk ∉ c.cols)
    (hagg : ∃ f ∈ c.saved, f.kind = .aggregate) (hcreate : A.create p pm k db = .ok x) (hfree : ∀ r ∈ x.1.rows c.model.table, r c.model.pk ≠ k) :
    A.saveChild false false p c pm cm k db = .error .indexError := by
  unfold App.saveChild
  rw [syncLink_eq (h1.trans h2.symm)]
  simp only [App.saveParent, if_pos h1, hcreate, Bool.false_and, Bool.or_self, Bool.false_eq_true, if_false]
  have hx : x.2 p.model.pk = k := create_pk (db' := x.1) (mem' := x.2) hcreate
  rw [hx]
  have : A.save c (cm.set c.model.pk k) x.1 = .error .indexError := by
    unfold App.save
    rw [preSaveAll_indexError hfree (by simp [Row.set]) (fun f hf e => hpk (List.mem_map.2 ⟨f, hf, e⟩)) hagg]
  rw [this]

end

namespace Dining
open Demo (fld fkf row)
set_option maxRecDepth 100000

def place : Model :=
  { repr := "<class 'dining.Place'>", appLabel := "dining", name := "Place", table := "place", pkTable := "place", pk := "id", ct := 31, fields := [fld "id", fld "name"] }
def link : Field := fkf "place_ptr" "<class 'dining.Place'>"
/-- `class Restaurant(Place)` -/
def restaurant : Model :=
  { repr := "<class 'dining.Restaurant'>", appLabel := "dining", name := "Restaurant", table := "restaurant", pkTable := "restaurant", pk := "place_ptr_id", ct := 32,
    fields := [link, fld "menu", fld "sign", fld "review_count"] }
def ofRestaurant : Field := fkf "restaurant" "<class 'dining.Restaurant'>"
def review : Model :=
  { repr := "<class 'dining.Review'>", appLabel := "dining", name := "Review", table := "review", pkTable := "review", pk := "id", ct := 33,
    fields := [fld "id", ofRestaurant] }

/-- `Restaurant.sign`: the name, which is in the parent's table. -/
def sign : Callback := { model := restaurant, field := "sign", own := [], fn := Demo.concatFn, deps := [⟨⟨restaurant, place, .forward link, []⟩, ["name"]⟩] }
/-- `Restaurant.review_count = CountField('review_set')` -/
def reviewCount : AggDenorm := { model := restaurant, fieldname := "review_count", related := review, fk := ofRestaurant, agg := .count }
def decls : List Denorm := [sign.denorm, .aggregate reviewCount]

def engine (b : Backend) : Engine := ⟨b, installedTriggers b decls, fun _ => 0⟩
def placeOrm : OrmModel := ⟨place, [⟨"name", .plain⟩]⟩
def restaurantOrm : OrmModel := ⟨restaurant, [⟨"menu", .plain⟩, ⟨"sign", .callback sign⟩, ⟨"review_count", .aggregate⟩]⟩
def reviewOrm : OrmModel := ⟨review, [⟨"restaurant_id", .plain⟩]⟩
def app (b : Backend) : App := ⟨engine b, [placeOrm, restaurantOrm, reviewOrm], fun l => l, fun db _ _ => db.draws, 100⟩
def parent (om : OrmModel) : Option OrmModel := if om.model.ct = 32 then some placeOrm else none

def plrow (id : Int) (n : String) : Row := row [("id", .int id), ("name", .text n)]
def rsrow (id : Int) (menu sign : String) (n : Int) : Row := row [("place_ptr_id", .int id), ("menu", .text menu), ("sign", .text sign), ("review_count", .int n)]
def rvrow (id r : Int) : Row := row [("id", .int id), ("restaurant_id", .int r)]

/-- A place, a restaurant with a review, in order. -/
def db : Db :=
  ⟨fun t => if t = "place" then [plrow 1 "A", plrow 2 "B"] else if t = "restaurant" then [rsrow 2 "m" "B" 1] else if t = "review" then [rvrow 1 2] else [], [], 0⟩
/-- The restaurant has a new name: it is marked. -/
def renamedDb : Db :=
  ⟨fun t => if t = "place" then [plrow 1 "A", plrow 2 "Z"] else if t = "restaurant" then [rsrow 2 "m" "B" 1] else if t = "review" then [rvrow 1 2] else [], [⟨32, .int 2⟩], 0⟩

theorem agree : ∀ b, AgreeOnWatch b decls
  | .sqlite => by decide
  | .mysql => by decide
  | .postgresql => by decide

theorem noReentry (b : Backend) : NoReentry (engine b) := by
  apply noReentry_of (fun n => if n = "denorm_after_row_update_on_restaurant" then 0 else 1)
  cases b <;> decide

theorem reached (b : Backend) : ∀ om ∈ (app b).models, ∀ t c, Reached (engine b) om t c → (t, c) ∈ ([] : List (TableName × Col)) := by
  intro om hom t c hr
  refine reached_within _ ?_ hr
  simp only [app, List.mem_cons, List.not_mem_nil, or_false] at hom
  rcases hom with rfl | rfl | rfl <;> cases b <;> decide

theorem keysSafe (b : Backend) : KeysSafe (app b) where
  kept := by cases b <;> decide
  free := fun om _ om' hom' hr => by simpa using reached b om' hom' _ _ hr

theorem wd_sign (b : Backend) : WellDeclared b decls sign where
  declared := by simp [decls]
  agree := fun _ hg => covered_of_agree (agree b) (List.mem_flatMap.2 ⟨_, by simp [decls], hg⟩)
  table := by decide
  own := by decide
  this := by decide
  watched := by decide
  keys := by decide
  links := by decide

theorem ad_reviewCount (b : Backend) : AggDeclared b decls reviewCount where
  declared := by simp [decls]
  covered := fun g hg => covered_of_agree (agree b) (List.mem_flatMap.2 ⟨.aggregate reviewCount, by simp [decls], hg⟩)
  only := by decide
  pk := by decide
  fk := by decide
  watched := by decide
  fkcol := rfl
  conds := by simp [reviewCount]

theorem flushable_sign (b : Backend) (db : Db) : Flushable (app b) decls restaurantOrm sign db where
  installed := rfl
  declared := wd_sign b
  noReentry := noReentry b
  found := by cases b <;> rfl
  model := rfl
  cols := by decide
  order := ⟨[⟨"menu", .plain⟩], _, rfl, by decide⟩
  own := fun c _ hr => by simpa using reached b restaurantOrm (by simp [app]) _ _ hr
  deps := by
    intro d hd
    simp only [sign, List.mem_singleton] at hd
    subst hd
    exact ⟨fun p _ hr => by simpa using reached b restaurantOrm (by simp [app]) _ _ hr, .inl (by decide)⟩
  pks := by cases b <;> decide
  safe := keysSafe b

theorem children (b : Backend) : Children (app b) parent := by
  intro om hom p hp
  have hr : ∀ c, ¬ Reached (app b).engine placeOrm om.model.table c := fun c h => by simpa using reached b placeOrm (by simp [app]) _ _ h
  simp only [app, List.mem_cons, List.not_mem_nil, or_false] at hom
  rcases hom with rfl | rfl | rfl
  · simp [parent, placeOrm, place] at hp
  · simp only [parent, restaurantOrm, restaurant, if_pos, Option.some.injEq] at hp
    subst hp
    exact ⟨by simp [app], by decide, fun c _ => hr c⟩
  · simp [parent, reviewOrm, review] at hp

theorem linked (b : Backend) : HasParents (app b) parent renamedDb := by
  intro om hom p hp
  simp only [app, List.mem_cons, List.not_mem_nil, or_false] at hom
  rcases hom with rfl | rfl | rfl
  · simp [parent, placeOrm, place] at hp
  · simp only [parent, restaurantOrm, restaurant, if_pos, Option.some.injEq] at hp
    subst hp
    decide
  · simp [parent, reviewOrm, review] at hp

/-- The hypotheses of `C84_flush_partial` are met: the restaurant is saved, with its place, and has its new sign. -/
example (b : Backend) (newer : Bool) : ∃ db', (app b).flushTables newer parent 1 renamedDb = .ok (some db') ∧
    (db'.rows "restaurant").map (fun r => (r "sign", r "review_count")) = [(.text "Z", .int 1)] ∧ db'.dirty = [] ∧ ∀ r ∈ db'.rows "restaurant", r "sign" = sign.value db' r := by
  obtain ⟨db', h, h1⟩ := flush_of (x := (app b).flushTables newer parent 1 renamedDb)
    (P := fun db' => (db'.rows "restaurant").map (fun r => (r "sign", r "review_count")) = [(.text "Z", .int 1)]) (by cases b <;> cases newer <;> decide +kernel)
  exact ⟨db', h, h1, C84_flush_partial (A := app b) (children b) (linked b) (flushable_sign b _) (by unfold KeysUnique; cases b <;> decide) (by unfold KeysOk; decide)
    (by unfold StaleMarked Callback.Fresh Marked; decide) h⟩

/-- To show by evaluation that save() of a child returns. -/
theorem child_of {x : Except OrmErr (Db × Row × Row)} {P : Db → Prop} [DecidablePred P] (h : (match x with
      | .ok y => decide (P y.1)
      | _ => false) = true) : ∃ db' pm cm, x = .ok (db', pm, cm) ∧ P db' := by
  match x, h with
  | .ok (db', pm, cm), h => exact ⟨db', pm, cm, rfl, by simpa using h⟩

theorem holds_restaurant : restaurantOrm.Holds reviewCount := fun _ => ⟨rfl, ⟨"review_count", .aggregate⟩, by simp [restaurantOrm], rfl, rfl⟩

/-- Those of `C84_marked_partial` and `C84_count_partial`: the restaurant is saved with another name, menu and (outdated) count. -/
example (b : Backend) (newer : Bool) : ∃ db' pm cm, (app b).saveChild newer false placeOrm restaurantOrm (plrow 2 "Y") (rsrow 2 "n" "B" 7) .null db = .ok (db', pm, cm) ∧
    (db'.rows "restaurant").map (fun r => (r "menu", r "sign", r "review_count")) = [(.text "n", .text "Y", .int 1)] ∧
    (∀ r ∈ db'.rows "restaurant", r "sign" = sign.value db' r ∨ Marked restaurant db' r) ∧ AggOk reviewCount db' := by
  obtain ⟨db', pm, cm, h, h1⟩ := child_of (x := (app b).saveChild newer false placeOrm restaurantOrm (plrow 2 "Y") (rsrow 2 "n" "B" 7) .null db)
    (P := fun db' => (db'.rows "restaurant").map (fun r => (r "menu", r "sign", r "review_count")) = [(.text "n", .text "Y", .int 1)])
    (by cases b <;> cases newer <;> decide +kernel)
  have hx : InDatabase placeOrm (plrow 2 "Y") db := by unfold InDatabase; decide
  refine ⟨db', pm, cm, h, h1, (C84_marked_partial (A := app b) rfl (wd_sign b) (noReentry b) (by cases b <;> decide) (by cases b <;> decide) (by simp [app]) (by simp [app])
    ?_ ?_ (by unfold KeysOk; decide) (by unfold StaleMarked Callback.Fresh Marked; decide) h).2, ?_⟩
  · intro pm0 hpm0 hno
    rw [syncLink_eq (p := placeOrm) (c := restaurantOrm) (pm := plrow 2 "Y") (cm := rsrow 2 "n" "B" 7) rfl] at hpm0
    exact absurd (hpm0 ▸ hx) hno
  · intro db1 pm1 new hs cm0 hcm0 hor
    have hb : (match (app b).saveParent placeOrm (syncLink placeOrm restaurantOrm (plrow 2 "Y") (rsrow 2 "n" "B" 7)) .null db with
        | .ok (db1, pm1, new) => decide (new = false ∧ ∃ r ∈ db1.rows "restaurant", r "place_ptr_id" = pm1 "id" ∧ pm1 "id" ≠ .null)
        | .error _ => false) = true := by cases b <;> decide +kernel
    rw [hs] at hb
    simp only [decide_eq_true_eq] at hb
    rcases hor with hor | hor
    · rw [hb.1] at hor; simp at hor
    · refine absurd ?_ hor
      subst hcm0
      exact hb.2
  · exact C84_count_partial (A := app b) (p := placeOrm) (c := restaurantOrm) rfl (ad_reviewCount b) (noReentry b) rfl ⟨by decide, by decide⟩ ⟨by decide, by decide⟩ (fun e => absurd e (by decide))
      holds_restaurant (fun _ e => absurd e (by decide)) (by unfold OrmModel.Unique; decide) (fun db1 pm1 new hs => by
        have hb : (match (app b).saveParent placeOrm (syncLink placeOrm restaurantOrm (plrow 2 "Y") (rsrow 2 "n" "B" 7)) .null db with
            | .ok (db1, pm1, new) => decide (new = false ∧ pm1 "id" ≠ .null ∧ (db1.rows "restaurant").map (fun r => r "place_ptr_id") = [.int 2])
            | .error _ => false) = true := by cases b <;> decide +kernel
        rw [hs] at hb
        simp only [decide_eq_true_eq] at hb
        refine ⟨?_, hb.2.1, fun hf => by rw [hb.1] at hf; simp at hf⟩
        unfold OrmModel.Unique
        rw [show restaurantOrm.model.table = "restaurant" from rfl]
        exact hb.2.2 ▸ by decide) (by unfold AggOk; decide) h

/-- A new restaurant: with a newer Django, or by `objects.create(..)`, it is stored in both tables, and its count is right (the hypotheses of `C84_count_partial` are met by new instances, too), -/
example (b : Backend) (newer force : Bool) (hnf : (newer || force) = true) : ∃ db' pm cm, (app b).saveChild newer force placeOrm restaurantOrm (row [("name", .text "N")]) (row [("menu", .text "m")]) (.int 3) db = .ok (db', pm, cm) ∧
    (db'.rows "place").map (fun r => (r "id", r "name")) = [(.int 1, .text "A"), (.int 2, .text "B"), (.int 3, .text "N")] ∧
    (db'.rows "restaurant").map (fun r => (r "place_ptr_id", r "menu", r "sign", r "review_count")) = [(.int 2, .text "m", .text "B", .int 1), (.int 3, .text "m", .text "N", .int 0)] ∧
    AggOk reviewCount db' := by
  obtain ⟨db', pm, cm, h, h1⟩ := child_of (x := (app b).saveChild newer force placeOrm restaurantOrm (row [("name", .text "N")]) (row [("menu", .text "m")]) (.int 3) db)
    (P := fun db' => (db'.rows "place").map (fun r => (r "id", r "name")) = [(.int 1, .text "A"), (.int 2, .text "B"), (.int 3, .text "N")] ∧
      (db'.rows "restaurant").map (fun r => (r "place_ptr_id", r "menu", r "sign", r "review_count")) = [(.int 2, .text "m", .text "B", .int 1), (.int 3, .text "m", .text "N", .int 0)])
    (by revert hnf; cases newer <;> cases force <;> cases b <;> decide +kernel)
  refine ⟨db', pm, cm, h, h1.1, h1.2, ?_⟩
  refine C84_count_partial (A := app b) (p := placeOrm) (c := restaurantOrm) rfl (ad_reviewCount b) (noReentry b) rfl ⟨by decide, by decide⟩ ⟨by decide, by decide⟩ (fun e => absurd e (by decide))
    holds_restaurant (fun _ e => absurd e (by decide)) (by unfold OrmModel.Unique; decide) (fun db1 pm1 new hs => ?_) (by unfold AggOk; decide) h
  have hb : (match (app b).saveParent placeOrm (syncLink placeOrm restaurantOrm (row [("name", .text "N")]) (row [("menu", .text "m")])) (.int 3) db with
      | .ok (db1, pm1, _) => decide (pm1 "id" ≠ .null ∧ (db1.rows "restaurant").map (fun r => r "place_ptr_id") = [.int 2] ∧
          ∀ o ∈ db1.rows "review", ¬ Val.sqlEq (o "restaurant_id") (pm1 "id") = true)
      | .error _ => false) = true := by cases b <;> decide +kernel
  rw [hs] at hb
  simp only [decide_eq_true_eq] at hb
  refine ⟨?_, hb.1, fun _ _ => hb.2.2⟩
  unfold OrmModel.Unique
  rw [show restaurantOrm.model.table = "restaurant" from rfl]
  exact hb.2.1 ▸ by decide

/-- with save() of Django 1.8 to 2.0 it is not: the hypotheses of `C84_violated_create` are met. -/
example (b : Backend) : (app b).saveChild false false placeOrm restaurantOrm (row [("name", .text "N")]) (row [("menu", .text "m")]) (.int 3) db = .error .indexError := by
  obtain ⟨x, hx, hf⟩ := save_of (x := (app b).create placeOrm (row [("name", .text "N")]) (.int 3) db)
    (P := fun x => ∀ r ∈ x.1.rows "restaurant", r "place_ptr_id" ≠ .int 3) (by cases b <;> decide +kernel)
  exact C84_violated_create rfl rfl (by decide) ⟨⟨"review_count", .aggregate⟩, by simp [restaurantOrm], rfl⟩ hx hf

end Dining

end Denorm
