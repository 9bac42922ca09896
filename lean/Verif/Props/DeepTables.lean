import Verif.Lemmas.DeepTables
import Verif.Props.MultiTableAgg
/-!
# Multi-table children of multi-table children (C84)

See `Props/MultiTable` for the full statement. Here for any number of levels: an instance is a list of levels, from the root to its own model.
-/
namespace Denorm

section
variable {A : App} {D : List Denorm} {om : OrmModel} {cb : Callback} {db db' : Db} {above : OrmModel → List OrmModel} {newer force : Bool} {k : Val} {a : AggDenorm}
  {S : List (TableName × Col)} {ls : List InTable}

/-- C84, the values, for any number of levels: an instance, new or existing, with any attribute values is saved. Afterwards each computed value of any model is right or its instance is marked. What is assumed:
each level is a call that C62 allows (a row is only inserted with a key that is free). -/
theorem C84_deep_marked_partial (hE : Installed A.engine D) (hD : WellDeclared A.engine.backend D cb) (hN : NoReentry A.engine)
    (hpk : ∀ om ∈ A.models, om.model.pk ∉ om.cols) (hp : ∀ om ∈ A.models, ∀ q ∈ cb.pks, q.1 = om.model.table → q.2 ∉ om.cols)
    (hL : LevelsAllowed A newer force k (LegalCall A cb) none (syncLevels ls) db) (hK : KeysOk cb db) (hS : StaleMarked cb db)
    (h : A.saveDeep newer force k ls db = .ok db') : KeysOk cb db' ∧ ∀ r ∈ db'.rows cb.model.table, r cb.field = cb.value db' r ∨ Marked cb.model db' r := by
  have step : ∀ {x y : Db} {call : OrmCall}, LegalCall A cb x call → A.call x call = .ok y → KeysOk cb x ∧ StaleMarked cb x → KeysOk cb y ∧ StaleMarked cb y := by
    intro x y call hL hc ⟨hK, hS⟩
    have hy : A.calls [call] x = y := by simp only [App.calls, hc]
    have := C62_marked_partial hE hD hN hpk hp [call] x ⟨hL, by rw [hc]; trivial⟩ hK hS
    rw [hy] at this
    exact ⟨this.1, staleMarked_iff.2 fun r hr => (this.2 r hr).symm⟩
  have := saveLevels_keeps (I := fun db => KeysOk cb db ∧ StaleMarked cb db) step (syncLevels ls) hL ⟨hK, hS⟩ h
  exact ⟨this.1, fun r hr => (staleMarked_iff.1 this.2 r hr).symm⟩

/-- C84, CountFields, for any number of levels. -/
theorem C84_deep_count_partial (hE : Installed A.engine D) (hD : AggDeclared A.engine.backend D a) (hN : NoReentry A.engine) (hc : a.agg = .count)
    (hL : LevelsAllowed A newer force k (CountCall A a) none (syncLevels ls) db) (hok : AggOk a db) (h : A.saveDeep newer force k ls db = .ok db') : AggOk a db' :=
  saveLevels_keeps (I := AggOk a) (fun hl hc' hi => count_call hE hD hN hc hl hc' hi) (syncLevels ls) hL hok h

/-- C84, SumFields, for any number of levels. -/
theorem C84_deep_sum_partial (hE : Installed A.engine D) (hD : AggDeclared A.engine.backend D a) (hN : NoReentry A.engine) (hS : IntClosed A.engine.backend D S)
    (hm : (a.model.table, a.fieldname) ∈ S) (hL : LevelsAllowed A newer force k (SumCall A a S) none (syncLevels ls) db) (hI : ∀ t, ∀ r ∈ db.rows t, IntRow S t r) (hok : AggOk a db)
    (h : A.saveDeep newer force k ls db = .ok db') : AggOk a db' ∧ ∀ t, ∀ r ∈ db'.rows t, IntRow S t r :=
  saveLevels_keeps (I := fun db => AggOk a db ∧ ∀ t, ∀ r ∈ db.rows t, IntRow S t r) (fun hl hc' hi => sum_call hE hD hN hS hm hl hc' hi.2 hi.1) (syncLevels ls) hL ⟨hok, hI⟩ h

/-- C84, the result, for any number of levels: whenever flush() returns, no marker is left and every row holds what the callback returns. -/
theorem C84_deep_flush_partial (hC : Ancestors A above) (hL : HasAncestors A above db) (hF : Flushable A D om cb db) (hu : KeysUnique A db) (hK : KeysOk cb db) (hS : StaleMarked cb db)
    {n : Nat} (h : A.flushDeep newer above n db = .ok (some db')) : db'.dirty = [] ∧ ∀ r ∈ db'.rows cb.model.table, r cb.field = cb.value db' r := by
  obtain ⟨hG, hd⟩ := good_flushDeep hC n ⟨hF, hu, hK, hS⟩ hL h
  refine ⟨hd, fun r hr => Classical.byContradiction fun hne => ?_⟩
  have := hG.stale r hr hne
  simp [Marked, hd] at this

/-- C84, CountFields in flush(), for any number of levels. -/
theorem C84_deep_flush_count (hE : Installed A.engine D) (hD : AggDeclared A.engine.backend D a) (hN : NoReentry A.engine) (hc : a.agg = .count) (hK : KeysSafe A) (hC : Ancestors A above)
    (hP : ∀ om ∈ A.models, om.Proper ∧ om.Holds a) (hu : KeysUnique A db) (hok : AggOk a db) {n : Nat} (h : A.flushDeep newer above n db = .ok (some db')) : AggOk a db' :=
  kept_flushDeep (I := AggOk a) hK hC (fun om hom _ db mem x hu hi _ _ hn hs => count_call hE hD hN hc (c := .save om mem) ⟨(hP om hom).1, (hP om hom).2, (hu om hom).1, hn⟩
    (by simp [App.call, callErr, hs]) hi) (fun _ _ h => h) n hu hok h

/-- C84, SumFields in flush(), for any number of levels. -/
theorem C84_deep_flush_sum (hE : Installed A.engine D) (hD : AggDeclared A.engine.backend D a) (hN : NoReentry A.engine) (hS : IntClosed A.engine.backend D S)
    (hm : (a.model.table, a.fieldname) ∈ S) (hK : KeysSafe A) (hC : Ancestors A above) (hP : ∀ om ∈ A.models, om.Proper ∧ om.Holds a ∧ om.Numbers S) (hu : KeysUnique A db)
    (hI : ∀ t, ∀ r ∈ db.rows t, IntRow S t r) (hok : AggOk a db) {n : Nat} (h : A.flushDeep newer above n db = .ok (some db')) : AggOk a db' ∧ ∀ t, ∀ r ∈ db'.rows t, IntRow S t r :=
  kept_flushDeep (I := fun db => AggOk a db ∧ ∀ t, ∀ r ∈ db.rows t, IntRow S t r) hK hC (fun om hom _ db mem x hu hi hi0 hmem hn hs =>
    sum_call hE hD hN hS hm (c := .save om mem) ⟨⟨(hP om hom).1, (hP om hom).2.1, (hu om hom).1, hn⟩, (hP om hom).2.2, fun _ _ _ hin => hi0.2 _ mem hmem _ hin⟩
      (by simp [App.call, callErr, hs]) hi.2 hi.1) (fun _ _ h => h) n hu ⟨hok, hI⟩ h

/-- C84, errors, for any number of levels: with a Django that inserts at once below what it has inserted, `pre_save` of no field raises for a new instance. -/
theorem C84_deep_create (hn : ∀ l ∈ ls, l.2 l.1.model.pk = .null) (k : Val) : A.saveDeep true force k ls db ≠ .error .indexError := by
  unfold App.saveDeep
  rw [syncLevels_same hn]
  exact saveLevels_inserting ls (fun l _ hl => hn l (List.mem_of_mem_head? hl)) (fun x hx => by cases hx)

/-- **C84 is violated** in every project with three levels, with Django 1.8 to 2.0, even by `objects.create(..)`: `force_insert` is about the last level only. If a model between the root and the
instance's own has a CountField or SumField, no instance can be created: `pre_save` of that field raises IndexError. Whatever the attributes are and whatever the database contains. -/
theorem C84_violated_deep_create {p c : OrmModel} {pm cm : Row} {x : Db × Row} (hls : ls ≠ []) (hn : ∀ l ∈ (p, pm) :: (c, cm) :: ls, l.2 l.1.model.pk = .null) (hpk : c.model.pk ∉ c.cols)
    (hagg : ∃ f ∈ c.saved, f.kind = .aggregate) (hk : k ≠ .null) (hcreate : A.create p pm k db = .ok x) (hfree : ∀ r ∈ x.1.rows c.model.table, r c.model.pk ≠ k) :
    A.saveDeep false force k ((p, pm) :: (c, cm) :: ls) db = .error .indexError := by
  unfold App.saveDeep
  rw [syncLevels_same hn]
  have hroot : A.saveLevel (insertLevel false force none ((c, cm) :: ls).isEmpty) k (linkLevel none (p, pm)) db = .ok (x.1, x.2, true) := by
    show A.saveLevel _ k (p, pm) db = _
    unfold App.saveLevel
    rw [if_pos (hn (p, pm) (List.mem_cons_self ..)), hcreate]
  have hx : x.2 p.model.pk = k := create_pk (db' := x.1) (mem' := x.2) hcreate
  have hsecond : A.saveLevel (insertLevel false force (some (k, true)) ls.isEmpty) k (linkLevel (some (k, true)) (c, cm)) x.1 = .error .indexError := by
    have hset : (cm.set c.model.pk k) c.model.pk = k := by simp [Row.set]
    have hempty : ls.isEmpty = false := by cases ls with
      | nil => exact absurd rfl hls
      | cons => rfl
    simp only [linkLevel, App.saveLevel, hset, if_neg hk, insertLevel, hempty, Bool.and_false, Bool.false_and, Bool.or_self, Bool.false_eq_true, if_false]
    have : A.save c (cm.set c.model.pk k) x.1 = .error .indexError := by
      unfold App.save
      rw [preSaveAll_indexError hfree hset (fun f hf e => hpk (List.mem_map.2 ⟨f, hf, e⟩)) hagg]
    rw [this]
  simp only [App.saveLevels, hroot, hx, hsecond]

end

/-! `class Place`, `class Restaurant(Place)` as in `Dining`, `class Pizzeria(Restaurant)` with a label computed from the restaurant's sign. -/
namespace Pizzas
open Demo (fld fkf row)
open Dining (place placeOrm restaurant restaurantOrm review reviewOrm sign reviewCount plrow rsrow rvrow)
set_option maxRecDepth 100000

def link : Field := fkf "restaurant_ptr" "<class 'dining.Restaurant'>"
def pizzeria : Model :=
  { repr := "<class 'dining.Pizzeria'>", appLabel := "dining", name := "Pizzeria", table := "pizzeria", pkTable := "pizzeria", pk := "restaurant_ptr_id", ct := 34,
    fields := [link, fld "oven", fld "label"] }
def label : Callback := { model := pizzeria, field := "label", own := [], fn := Demo.concatFn, deps := [⟨⟨pizzeria, restaurant, .forward link, []⟩, ["sign"]⟩] }
def decls : List Denorm := [sign.denorm, .aggregate reviewCount, label.denorm]

def engine (b : Backend) : Engine := ⟨b, installedTriggers b decls, fun _ => 0⟩
def pizzeriaOrm : OrmModel := ⟨pizzeria, [⟨"oven", .plain⟩, ⟨"label", .callback label⟩]⟩
def app (b : Backend) : App := ⟨engine b, [placeOrm, restaurantOrm, pizzeriaOrm, reviewOrm], fun l => l, fun db _ _ => db.draws, 100⟩
def above (om : OrmModel) : List OrmModel := if om.model.ct = 32 then [placeOrm] else if om.model.ct = 34 then [placeOrm, restaurantOrm] else []

def pzrow (id : Int) (oven label : String) : Row := row [("restaurant_ptr_id", .int id), ("oven", .text oven), ("label", .text label)]

def db : Db :=
  ⟨fun t => if t = "place" then [plrow 1 "A", plrow 2 "B"] else if t = "restaurant" then [rsrow 2 "m" "B" 1] else if t = "pizzeria" then [pzrow 2 "o" "B"] else
    if t = "review" then [rvrow 1 2] else [], [], 0⟩
/-- The pizzeria has a new name: it is marked as a restaurant. -/
def renamedDb : Db :=
  ⟨fun t => if t = "place" then [plrow 1 "A", plrow 2 "Z"] else if t = "restaurant" then [rsrow 2 "m" "B" 1] else if t = "pizzeria" then [pzrow 2 "o" "B"] else
    if t = "review" then [rvrow 1 2] else [], [⟨32, .int 2⟩], 0⟩

theorem agree : ∀ b, AgreeOnWatch b decls
  | .sqlite => by decide
  | .mysql => by decide
  | .postgresql => by decide

theorem noReentry (b : Backend) : NoReentry (engine b) := by
  apply noReentry_of (fun n => if n = "denorm_after_row_update_on_restaurant" then 0 else 1)
  cases b <;> decide

theorem reached (b : Backend) : ∀ om ∈ (app b).models, ∀ t c, Reached (engine b) om t c → (t, c) ∈ ([] : List (TableName × Col)) := by
  intro om hom t c hr
  refine reached_within _ ?_ hr
  simp only [app, List.mem_cons, List.not_mem_nil, or_false] at hom
  rcases hom with rfl | rfl | rfl | rfl <;> cases b <;> decide

theorem keysSafe (b : Backend) : KeysSafe (app b) where
  kept := by cases b <;> decide
  free := fun om _ om' hom' hr => by simpa using reached b om' hom' _ _ hr

theorem wd_label (b : Backend) : WellDeclared b decls label where
  declared := by simp [decls]
  agree := fun _ hg => covered_of_agree (agree b) (List.mem_flatMap.2 ⟨_, by simp [decls], hg⟩)
  table := by decide
  own := by decide
  this := by decide
  watched := by decide
  keys := by decide
  links := by decide

theorem ad_reviewCount (b : Backend) : AggDeclared b decls reviewCount where
  declared := by simp [decls]
  covered := fun g hg => covered_of_agree (agree b) (List.mem_flatMap.2 ⟨.aggregate reviewCount, by simp [decls], hg⟩)
  only := by decide
  pk := by decide
  fk := by decide
  watched := by decide
  fkcol := rfl
  conds := by simp [reviewCount]

theorem flushable_label (b : Backend) (db : Db) : Flushable (app b) decls pizzeriaOrm label db where
  installed := rfl
  declared := wd_label b
  noReentry := noReentry b
  found := by cases b <;> rfl
  model := rfl
  cols := by decide
  order := ⟨[⟨"oven", .plain⟩], _, rfl, by decide⟩
  own := fun c _ hr => by simpa using reached b pizzeriaOrm (by simp [app]) _ _ hr
  deps := by
    intro d hd
    simp only [label, List.mem_singleton] at hd
    subst hd
    exact ⟨fun p _ hr => by simpa using reached b pizzeriaOrm (by simp [app]) _ _ hr, .inl (by decide)⟩
  pks := by cases b <;> decide
  safe := keysSafe b

theorem ancestors (b : Backend) : Ancestors (app b) above := by
  intro om hom
  have hr : ∀ p ∈ (app b).models, ∀ t c, ¬ Reached (app b).engine p t c := fun p hp t c h => by simpa using reached b p hp _ _ h
  have h1 := hr placeOrm (by simp [app])
  have h2 := hr restaurantOrm (by simp [app])
  simp only [app, List.mem_cons, List.not_mem_nil, or_false] at hom
  rcases hom with rfl | rfl | rfl | rfl
  · exact ⟨by simp [above, placeOrm, place], by simp [above, placeOrm, place]⟩
  · refine ⟨by simp [above, restaurantOrm, restaurant, app], ?_⟩
    rw [show above restaurantOrm ++ [restaurantOrm] = [placeOrm, restaurantOrm] from rfl]
    simp only [List.pairwise_cons, List.mem_cons, List.not_mem_nil, or_false, forall_eq]
    exact ⟨⟨by decide, fun c _ => h1 _ c⟩, by simp⟩
  · refine ⟨by simp [above, pizzeriaOrm, pizzeria, app], ?_⟩
    rw [show above pizzeriaOrm ++ [pizzeriaOrm] = [placeOrm, restaurantOrm, pizzeriaOrm] from rfl]
    simp only [List.pairwise_cons, List.mem_cons, List.not_mem_nil, or_false, forall_eq_or_imp, forall_eq]
    exact ⟨⟨⟨by decide, fun c _ => h1 _ c⟩, by decide, fun c _ => h1 _ c⟩, ⟨by decide, fun c _ => h2 _ c⟩, by simp⟩
  · exact ⟨by simp [above, reviewOrm, review], by simp [above, reviewOrm, review]⟩

theorem linked (b : Backend) : HasAncestors (app b) above renamedDb := by
  unfold HasAncestors
  cases b <;> decide

/-- The hypotheses of `C84_deep_flush_partial` and `C84_deep_flush_count` are met: the first pass saves the restaurant, with its place, which marks the pizzeria; the second saves all three levels. -/
example (b : Backend) (newer : Bool) : ∃ db', (app b).flushDeep newer above 2 renamedDb = .ok (some db') ∧
    (db'.rows "restaurant").map (fun r => (r "sign", r "review_count")) = [(.text "Z", .int 1)] ∧ (db'.rows "pizzeria").map (fun r => (r "oven", r "label")) = [(.text "o", .text "Z")] ∧
    db'.dirty = [] ∧ (∀ r ∈ db'.rows "pizzeria", r "label" = label.value db' r) ∧ AggOk reviewCount db' := by
  obtain ⟨db', h, h1⟩ := flush_of (x := (app b).flushDeep newer above 2 renamedDb)
    (P := fun db' => (db'.rows "restaurant").map (fun r => (r "sign", r "review_count")) = [(.text "Z", .int 1)] ∧
      (db'.rows "pizzeria").map (fun r => (r "oven", r "label")) = [(.text "o", .text "Z")]) (by cases b <;> cases newer <;> decide +kernel)
  have hu : KeysUnique (app b) renamedDb := by unfold KeysUnique; cases b <;> decide
  have hf := C84_deep_flush_partial (A := app b) (ancestors b) (linked b) (flushable_label b _) hu (by unfold KeysOk; decide) (by unfold StaleMarked Callback.Fresh Marked; decide) h
  refine ⟨db', h, h1.1, h1.2, hf.1, hf.2, C84_deep_flush_count (A := app b) rfl (ad_reviewCount b) (noReentry b) rfl (keysSafe b) (ancestors b) (fun om hom => ?_) hu (by unfold AggOk; decide) h⟩
  simp only [app, List.mem_cons, List.not_mem_nil, or_false] at hom
  rcases hom with rfl | rfl | rfl | rfl
  · exact ⟨⟨by decide, by decide⟩, fun e => absurd e (by decide)⟩
  · exact ⟨⟨by decide, by decide⟩, Dining.holds_restaurant⟩
  · exact ⟨⟨by decide, by decide⟩, fun e => absurd e (by decide)⟩
  · exact ⟨⟨by decide, by decide⟩, fun e => absurd e (by decide)⟩

/-- To show by evaluation that each level is allowed. -/
def checkLevels (A : App) (newer force : Bool) (k : Val) (P : Db → Bool → InTable → Bool) : Option (Val × Bool) → List InTable → Db → Bool
  | _, [], _ => true
  | up, l :: ls, db => P db (insertLevel newer force up ls.isEmpty) (linkLevel up l) &&
    match A.saveLevel (insertLevel newer force up ls.isEmpty) k (linkLevel up l) db with
    | .ok (db1, mem, inserted) => checkLevels A newer force k P (some (mem l.1.model.pk, inserted)) ls db1
    | .error _ => true

theorem allowed_of {A : App} {newer force : Bool} {k : Val} {P : Db → Bool → InTable → Bool} {Q : Db → OrmCall → Prop} {R : OrmModel → Prop}
    (hQ : ∀ db i l, R l.1 → P db i l = true → Q db (levelCall i k l)) : ∀ {ls : List InTable} {up : Option (Val × Bool)} {db : Db}, (∀ l ∈ ls, R l.1) → checkLevels A newer force k P up ls db = true →
    LevelsAllowed A newer force k Q up ls db
  | [], _, _, _, _ => trivial
  | l :: ls, up, db, hR, h => by
    simp only [checkLevels, Bool.and_eq_true] at h
    refine ⟨hQ _ _ _ ?_ h.1, fun db1 mem ins hs => ?_⟩
    · have : (linkLevel up l).1 = l.1 := by cases up <;> rfl
      rw [this]
      exact hR l (List.mem_cons_self ..)
    · have h2 := h.2
      rw [hs] at h2
      exact allowed_of hQ (fun l' hl' => hR l' (List.mem_cons_of_mem _ hl')) h2

/-- A level of an existing instance. -/
def isThere (db : Db) (insert : Bool) (l : InTable) : Bool :=
  !insert && decide (l.2 l.1.model.pk ≠ .null) && (db.rows l.1.model.table).any (isRowOf l.1.model (l.2 l.1.model.pk)) && decide ((db.rows l.1.model.table).map (fun r => r l.1.model.pk)).Nodup

theorem levelCall_there {db : Db} {i : Bool} {k : Val} {l : InTable} (h : isThere db i l = true) :
    levelCall i k l = .save l.1 l.2 ∧ InDatabase l.1 l.2 db ∧ l.2 l.1.model.pk ≠ .null ∧ ((db.rows l.1.model.table).map (fun r => r l.1.model.pk)).Nodup := by
  simp only [isThere, Bool.and_eq_true, Bool.not_eq_true', decide_eq_true_eq] at h
  obtain ⟨⟨⟨h1, h2⟩, h3⟩, h4⟩ := h
  exact ⟨by simp [levelCall, h1, h2], inDatabase_any.2 h3, h2, h4⟩

/-- The pizzeria with other attributes. -/
def changed : List InTable := [(placeOrm, plrow 2 "Y"), (restaurantOrm, rsrow 2 "n" "B" 7), (pizzeriaOrm, pzrow 2 "p" "B")]

/-- The hypotheses of `C84_deep_marked_partial` and `C84_deep_count_partial` are met: the pizzeria is saved with another name, menu, oven, and an outdated count. -/
example (b : Backend) (newer : Bool) : ∃ db', (app b).saveDeep newer false .null changed db = .ok db' ∧
    (db'.rows "restaurant").map (fun r => (r "menu", r "sign", r "review_count")) = [(.text "n", .text "Y", .int 1)] ∧
    (db'.rows "pizzeria").map (fun r => (r "oven", r "label")) = [(.text "p", .text "Y")] ∧
    (∀ r ∈ db'.rows "pizzeria", r "label" = label.value db' r ∨ Marked pizzeria db' r) ∧ AggOk reviewCount db' := by
  obtain ⟨db', h, h1⟩ := orm_of (x := (app b).saveDeep newer false .null changed db)
    (P := fun db' => (db'.rows "restaurant").map (fun r => (r "menu", r "sign", r "review_count")) = [(.text "n", .text "Y", .int 1)] ∧
      (db'.rows "pizzeria").map (fun r => (r "oven", r "label")) = [(.text "p", .text "Y")]) (by cases b <;> cases newer <;> decide +kernel)
  have hc : checkLevels (app b) newer false .null isThere none (syncLevels changed) db = true := by cases b <;> cases newer <;> decide +kernel
  refine ⟨db', h, h1.1, h1.2, (C84_deep_marked_partial (A := app b) rfl (wd_label b) (noReentry b) (by cases b <;> decide) (by cases b <;> decide)
    (allowed_of (R := fun om => om ∈ (app b).models) (fun db i l hm hl => ?_) ?_ hc) (by unfold KeysOk; decide) (by unfold StaleMarked Callback.Fresh Marked; decide) h).2,
    C84_deep_count_partial (A := app b) rfl (ad_reviewCount b) (noReentry b) rfl (allowed_of (R := fun om => om.Proper ∧ om.Holds reviewCount) (fun db i l hm hl => ?_) ?_ hc)
      (by unfold AggOk; decide) h⟩
  · obtain ⟨h1, h2, _, _⟩ := levelCall_there (k := .null) hl
    rw [h1]
    exact ⟨hm, fun hx => absurd h2 hx⟩
  · intro l hl
    rw [show syncLevels changed = changed from syncLevels_same (κ := .int 2) (by intro l hl; simp only [changed, List.mem_cons, List.not_mem_nil, or_false] at hl; rcases hl with rfl | rfl | rfl <;> rfl)] at hl
    simp only [changed, List.mem_cons, List.not_mem_nil, or_false] at hl
    rcases hl with rfl | rfl | rfl <;> simp [app]
  · obtain ⟨h1, _, h3, h4⟩ := levelCall_there (k := .null) hl
    rw [h1]
    exact ⟨hm.1, hm.2, h4, h3⟩
  · intro l hl
    rw [show syncLevels changed = changed from syncLevels_same (κ := .int 2) (by intro l hl; simp only [changed, List.mem_cons, List.not_mem_nil, or_false] at hl; rcases hl with rfl | rfl | rfl <;> rfl)] at hl
    simp only [changed, List.mem_cons, List.not_mem_nil, or_false] at hl
    rcases hl with rfl | rfl | rfl
    · exact ⟨⟨by decide, by decide⟩, fun e => absurd e (by decide)⟩
    · exact ⟨⟨by decide, by decide⟩, Dining.holds_restaurant⟩
    · exact ⟨⟨by decide, by decide⟩, fun e => absurd e (by decide)⟩

/-- A new pizzeria, with a newer Django: it is stored in the three tables. -/
example (b : Backend) (force : Bool) : ∃ db', (app b).saveDeep true force (.int 3) [(placeOrm, row [("name", .text "N")]), (restaurantOrm, row [("menu", .text "m")]), (pizzeriaOrm, row [("oven", .text "x")])] db = .ok db' ∧
    (db'.rows "place").map (fun r => (r "id", r "name")) = [(.int 1, .text "A"), (.int 2, .text "B"), (.int 3, .text "N")] ∧
    (db'.rows "restaurant").map (fun r => (r "place_ptr_id", r "sign", r "review_count")) = [(.int 2, .text "B", .int 1), (.int 3, .text "N", .int 0)] ∧
    (db'.rows "pizzeria").map (fun r => (r "restaurant_ptr_id", r "oven", r "label")) = [(.int 2, .text "o", .text "B"), (.int 3, .text "x", .text "N")] :=
  orm_of (P := fun db' => (db'.rows "place").map (fun r => (r "id", r "name")) = [(.int 1, .text "A"), (.int 2, .text "B"), (.int 3, .text "N")] ∧
    (db'.rows "restaurant").map (fun r => (r "place_ptr_id", r "sign", r "review_count")) = [(.int 2, .text "B", .int 1), (.int 3, .text "N", .int 0)] ∧
    (db'.rows "pizzeria").map (fun r => (r "restaurant_ptr_id", r "oven", r "label")) = [(.int 2, .text "o", .text "B"), (.int 3, .text "x", .text "N")])
    (by cases force <;> cases b <;> decide +kernel)

/-- With Django 1.8 to 2.0 it cannot be created, not even by `objects.create(..)`: the hypotheses of `C84_violated_deep_create` are met. -/
example (b : Backend) (force : Bool) : (app b).saveDeep false force (.int 3) [(placeOrm, row [("name", .text "N")]), (restaurantOrm, row [("menu", .text "m")]), (pizzeriaOrm, row [("oven", .text "x")])] db =
    .error .indexError := by
  obtain ⟨x, hx, hf⟩ := save_of (x := (app b).create placeOrm (row [("name", .text "N")]) (.int 3) db)
    (P := fun x => ∀ r ∈ x.1.rows "restaurant", r "place_ptr_id" ≠ .int 3) (by cases b <;> decide +kernel)
  refine C84_violated_deep_create (by simp) ?_ (by decide) ⟨⟨"review_count", .aggregate⟩, by simp [restaurantOrm], rfl⟩ (by decide) hx hf
  intro l hl
  simp only [List.mem_cons, List.not_mem_nil, or_false] at hl
  rcases hl with rfl | rfl | rfl <;> rfl

/-- Those of `C84_deep_flush_sum`, with the restaurants of `Rated`. -/
def ratedAbove (om : OrmModel) : List OrmModel := if om.model.ct = 32 then [placeOrm] else []

theorem ratedAncestors (b : Backend) : Ancestors (Rated.app b) ratedAbove := by
  intro om hom
  have h1 : ∀ t c, ¬ Reached (Rated.app b).engine placeOrm t c := fun t c h => by simpa using Rated.reached b placeOrm (by simp [Rated.app]) _ _ h
  simp only [Rated.app, List.mem_cons, List.not_mem_nil, or_false] at hom
  rcases hom with rfl | rfl | rfl
  · exact ⟨by simp [ratedAbove, placeOrm, place], by simp [ratedAbove, placeOrm, place]⟩
  · refine ⟨by simp [ratedAbove, Rated.restaurantOrm, Rated.restaurant, Rated.app], ?_⟩
    rw [show ratedAbove Rated.restaurantOrm ++ [Rated.restaurantOrm] = [placeOrm, Rated.restaurantOrm] from rfl]
    simp only [List.pairwise_cons, List.mem_cons, List.not_mem_nil, or_false, forall_eq]
    exact ⟨⟨by decide, fun c _ => h1 _ c⟩, by simp⟩
  · exact ⟨by simp [ratedAbove, Rated.reviewOrm, Rated.review], by simp [ratedAbove, Rated.reviewOrm, Rated.review]⟩

example (b : Backend) (newer : Bool) : ∃ db', (Rated.app b).flushDeep newer ratedAbove 1 Rated.db = .ok (some db') ∧
    (db'.rows "restaurant").map (fun r => (r "sign", r "stars")) = [(.text "Z", .int 7)] ∧ AggOk Rated.stars db' := by
  obtain ⟨db', h, h1⟩ := flush_of (x := (Rated.app b).flushDeep newer ratedAbove 1 Rated.db)
    (P := fun db' => (db'.rows "restaurant").map (fun r => (r "sign", r "stars")) = [(.text "Z", .int 7)]) (by cases b <;> cases newer <;> decide +kernel)
  refine ⟨db', h, h1, (C84_deep_flush_sum (A := Rated.app b) rfl (Rated.declared b) (Rated.noReentry b) (Rated.closed b) (by decide) (Rated.keysSafe b) (ratedAncestors b) (fun om hom => ?_)
    (by unfold KeysUnique; cases b <;> decide) Rated.ints (by unfold AggOk; decide) h).1⟩
  have hn := Rated.numbers_of om hom
  simp only [Rated.app, List.mem_cons, List.not_mem_nil, or_false] at hom
  rcases hom with rfl | rfl | rfl
  · exact ⟨⟨by decide, by decide⟩, fun e => absurd e (by decide), hn⟩
  · exact ⟨⟨by decide, by decide⟩, Rated.holds_restaurant, hn⟩
  · exact ⟨⟨by decide, by decide⟩, fun e => absurd e (by decide), hn⟩

/-- Those of `C84_deep_sum_partial`. -/
def ratedChanged : List InTable := [(placeOrm, plrow 2 "Y"), (Rated.restaurantOrm, Rated.rsrow 2 "n" "B" 99)]

example (b : Backend) (newer : Bool) : ∃ db', (Rated.app b).saveDeep newer false .null ratedChanged Rated.db = .ok db' ∧
    (db'.rows "restaurant").map (fun r => (r "menu", r "sign", r "stars")) = [(.text "n", .text "Y", .int 7)] ∧ AggOk Rated.stars db' := by
  obtain ⟨db', h, h1⟩ := orm_of (x := (Rated.app b).saveDeep newer false .null ratedChanged Rated.db)
    (P := fun db' => (db'.rows "restaurant").map (fun r => (r "menu", r "sign", r "stars")) = [(.text "n", .text "Y", .int 7)]) (by cases b <;> cases newer <;> decide +kernel)
  have hc : checkLevels (Rated.app b) newer false .null isThere none (syncLevels ratedChanged) Rated.db = true := by cases b <;> cases newer <;> decide +kernel
  refine ⟨db', h, h1, (C84_deep_sum_partial (A := Rated.app b) rfl (Rated.declared b) (Rated.noReentry b) (Rated.closed b) (by decide)
    (allowed_of (R := fun om => om.Proper ∧ om.Holds Rated.stars ∧ om.Numbers Rated.numbers ∧ ∀ mem, om.Attrs Rated.numbers mem) (fun db i l hm hl => ?_) ?_ hc) Rated.ints
    (by unfold AggOk; decide) h).1⟩
  · obtain ⟨h1, _, h3, h4⟩ := levelCall_there (k := .null) hl
    rw [h1]
    exact ⟨⟨hm.1, hm.2.1, h4, h3⟩, hm.2.2.1, hm.2.2.2 _⟩
  · intro l hl
    rw [show syncLevels ratedChanged = ratedChanged from syncLevels_same (κ := .int 2) (by
      intro l hl; simp only [ratedChanged, List.mem_cons, List.not_mem_nil, or_false] at hl; rcases hl with rfl | rfl <;> rfl)] at hl
    simp only [ratedChanged, List.mem_cons, List.not_mem_nil, or_false] at hl
    rcases hl with rfl | rfl
    · exact ⟨⟨by decide, by decide⟩, fun e => absurd e (by decide), Rated.numbers_of _ (by simp), fun _ => by unfold OrmModel.Attrs; simp [placeOrm, place, Rated.numbers]⟩
    · exact ⟨⟨by decide, by decide⟩, Rated.holds_restaurant, Rated.numbers_of _ (by simp), fun _ => by
        unfold OrmModel.Attrs; simp [Rated.restaurantOrm, Rated.restaurant, Rated.numbers]⟩

end Pizzas

end Denorm
