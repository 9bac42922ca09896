import Verif.Lemmas.ToField
import Verif.Props.Aggregates
import Verif.Props.Tracking
/-!
# ForeignKeys with `to_field` (C78)

Full statement of C78: dependencies, CountFields, SumFields and CacheKeyFields may use a ForeignKey that refers to another unique column than the primary key (`to_field=`): they
follow the relation as Django does.

The triggers compare the ForeignKey with the primary key of the other model, and mark the ForeignKey's value as if it were a primary key (dependencies.py:288-344, denorms.py:393-397),
whatever `to_field` is. So this holds only where the column has the values of the primary key.
-/
namespace Denorm

section
variable {E : Engine} {D : List Denorm} {v : Aimed} {fuel : Nat} {db db' : Db}

/-- C78, the part that holds: if the target column has the same value as the primary key (for instance, if it is the primary key), the instance is marked when it is out of date,
through any history. Missing: all other columns (`C78_violated_lost`). -/
theorem C78_key_partial (hE : Installed E D) (hD : WellDeclared E.backend D v.callback) (hN : NoReentry E) {ss : List Stmt}
    (hL : LegalRun E v.callback fuel ss db) (hK : KeysOk v.callback db) (h0 : Mirrors v.target v.to db) (h1 : Mirrors v.target v.to (E.run fuel ss db))
    (hS : v.StaleMarked db) : v.StaleMarked (E.run fuel ss db) :=
  (aimed_staleMarked h1).1 (stale_marked_preserved hE hD hN hL hK ((aimed_staleMarked h0).2 hS))

/-- C78 for CountField, with any `filter=` and `exclude=`: the same. -/
theorem C78_count_key_partial {a : AggDenorm} {to : Col} (hE : Installed E D) (hD : AggDeclared E.backend D a) (hN : NoReentry E) (hc : a.agg = .count) {ss : List Stmt}
    (hL : CountLegalRun E a fuel ss db) (h0 : Mirrors a.model to db) (h1 : Mirrors a.model to (E.run fuel ss db)) (hok : CountsBy a to db) :
    CountsBy a to (E.run fuel ss db) := by
  intro r hr
  rw [C11_filtered_count hE hD hN hc fuel ss db hL ?_ r hr, AggDenorm.countBy, h1 r hr]
  intro r hr
  rw [hok r hr, AggDenorm.countBy, AggDenorm.total, hc, h0 r hr]

/-- The triggers of the field on the other model's table find no instance to mark. -/
theorem aimed_mute (hpt : v.model.pkTable = v.model.table) (hne : v.model.table ≠ v.other.table) : ∀ g ∈ v.denorm.triggers, g.table = v.other.table →
    ∀ a ∈ g.actions, ∀ ch x, v.Apart db ch.old → v.Apart db ch.new →
      Quiet v.other.table (v.Apart db) (fun m => ∀ r ∈ db.rows v.model.table, m ≠ ⟨v.model.ct, r v.model.pk⟩) db x →
      Mute (fun m => ∀ r ∈ db.rows v.model.table, m ≠ ⟨v.model.ct, r v.model.pk⟩) ch x a := by
  intro g hg ht a ha ch x ho hn hx
  have hside : ∀ s, v.Apart db (ch.side s) := by intro s; cases s <;> assumption
  simp only [Aimed.denorm, Denorm.triggers, Bool.false_eq_true, if_false, List.flatMap_cons, List.flatMap_nil, List.append_nil, List.mem_append] at hg
  rcases hg with hg | hg
  · simp only [selfTriggers, List.mem_cons, List.not_mem_nil, or_false] at hg
    rcases hg with rfl | rfl <;> exact absurd ht hne
  · unfold Aimed.dep Dep.callbackTriggers at hg
    cases hb : v.backward
    · simp only [hb, Bool.false_eq_true, if_false, List.mem_cons, List.not_mem_nil, or_false] at hg
      have key : ∀ s, Mute (fun m => ∀ r ∈ db.rows v.model.table, m ≠ ⟨v.model.ct, r v.model.pk⟩) ch x
          (.markSelect v.model.ct v.model.pk v.model.pkTable v.fk.column s v.other.pk false) := by
        intro s r hr hq
        rw [hpt, hx.rows _ hne] at hr
        have := hside s r hr
        simp only [hb, Bool.false_eq_true, if_false] at this
        exact absurd (Val.sqlEq_iff.1 hq).1 this
      rcases hg with rfl | rfl | rfl <;> simp only [mkTrigger, List.mem_singleton] at ha <;> subst ha <;> exact key _
    · simp only [hb, if_true, List.mem_cons, List.not_mem_nil, or_false] at hg
      have key1 : Mute (fun m => ∀ r ∈ db.rows v.model.table, m ≠ ⟨v.model.ct, r v.model.pk⟩) ch x
          (.markSelect v.model.ct v.fk.column v.other.table v.other.pk .new v.other.pk false) := by
        intro o hor _ r hr he
        have := hx.here o hor r hr
        simp only [hb, if_true] at this
        simp only [Mark.mk.injEq, true_and] at he
        exact this he.symm
      have key2 : Mute (fun m => ∀ r ∈ db.rows v.model.table, m ≠ ⟨v.model.ct, r v.model.pk⟩) ch x (.markValues v.model.ct .old v.fk.column false) := by
        intro r hr he
        have := hside .old r hr
        simp only [hb, if_true] at this
        simp only [Mark.mk.injEq, true_and] at he
        exact this he.symm
      rcases hg with rfl | rfl | rfl <;> simp only [mkTrigger, List.mem_cons, List.not_mem_nil, or_false] at ha
      · rcases ha with rfl | rfl
        · exact key1
        · exact key2
      · subst ha; exact key1
      · subst ha; exact key2

/-- **C78 is violated** by every `@denormalized` field over such a ForeignKey, in both directions: if codes are not keys, a statement on the other model's table marks no instance,
and an instance whose value is out of date after it stays so. (Other declarations may watch other tables.) -/
theorem C78_violated_lost (hE : Installed E D) (hN : E.backend = .mysql ∨ ∀ g ∈ generated D, ∀ g' ∈ generated D, ¬ Clash g g')
    (hD : ∀ dn ∈ D, dn = v.denorm ∨ ∀ g ∈ dn.triggers, g.table ≠ v.other.table) (hpt : v.model.pkTable = v.model.table) (hne : v.model.table ≠ v.other.table)
    {s : Stmt} (hs : s.table = v.other.table) (h0 : ∀ o ∈ db.rows v.other.table, v.Apart db o) (hk : s.Keeps (v.Apart db)) (he : E.exec fuel s db = .ok db') :
    db'.rows v.model.table = db.rows v.model.table ∧ (∀ r ∈ db.rows v.model.table, Marked v.model db' r ↔ Marked v.model db r) ∧
    ∀ r ∈ db.rows v.model.table, v.Fresh db r → ¬ Marked v.model db r → v.value db' r ≠ v.value db r →
      r ∈ db'.rows v.model.table ∧ ¬ v.Fresh db' r ∧ ¬ Marked v.model db' r := by
  have hst := exec_still_of hE hN hD (aimed_mute (db := db) hpt hne) hs hk h0 he
  have hm : ∀ r ∈ db.rows v.model.table, Marked v.model db' r ↔ Marked v.model db r := by
    intro r hr
    obtain ⟨ms, h1, h2⟩ := hst.dirty
    unfold Marked
    rw [h1, List.mem_append]
    exact ⟨fun h => h.resolve_right fun h => h2 _ h r hr rfl, .inl⟩
  refine ⟨hst.rows _ hne, hm, fun r hr hf hu hv => ⟨by rw [hst.rows _ hne]; exact hr, fun h => hv (h.symm.trans hf), fun h => hu ((hm r hr).1 h)⟩⟩

/-- **C78 is violated** by every CountField (and SumField) over such a ForeignKey: if no code is the key of an instance, a statement on the related table changes no instance, so a count
that was right is wrong as soon as the right number is another one. -/
theorem C78_violated_count {a : AggDenorm} {to : Col} (hE : Installed E D) (hN : E.backend = .mysql ∨ ∀ g ∈ generated D, ∀ g' ∈ generated D, ¬ Clash g g')
    (hD : ∀ dn ∈ D, dn = .aggregate a ∨ ∀ g ∈ dn.triggers, g.table ≠ a.related.table) (hne : a.model.table ≠ a.related.table)
    {s : Stmt} (hs : s.table = a.related.table) (h0 : ∀ o ∈ db.rows a.related.table, ∀ r ∈ db.rows a.model.table, r a.model.pk ≠ o a.fk.attname)
    (hk : s.Keeps fun o => ∀ r ∈ db.rows a.model.table, r a.model.pk ≠ o a.fk.attname) (he : E.exec fuel s db = .ok db') :
    db'.rows a.model.table = db.rows a.model.table ∧
    (CountsBy a to db → (∃ r ∈ db.rows a.model.table, a.countBy to db' r ≠ a.countBy to db r) → ¬ CountsBy a to db') := by
  have hst : Quiet a.related.table (fun o => ∀ r ∈ db.rows a.model.table, r a.model.pk ≠ o a.fk.attname) (fun _ => True) db db' := by
    refine exec_still_of hE hN hD (fun g hg ht act ha ch x ho hn hx => ?_) hs hk h0 he
    have key : ∀ (s : Side) e gs, Mute (fun _ => True) ch x (.update ⟨a.model.table, a.fieldname, e, .eq a.model.pk s a.fk.attname, gs⟩) := by
      intro s e gs r hr
      simp only [hx.rows _ hne] at hr
      simp only [UpdAction.where_, Key.matches, Bool.and_eq_false_iff]
      left
      cases hq : Val.sqlEq (r a.model.pk) (ch.side s a.fk.attname) with
      | false => rfl
      | true =>
        have := (Val.sqlEq_iff.1 hq).1
        cases s
        · exact absurd this (hn r hr)
        · exact absurd this (ho r hr)
    simp only [Denorm.triggers, AggDenorm.triggers, List.mem_cons, List.not_mem_nil, or_false] at hg
    rcases hg with rfl | rfl | rfl <;> simp only [mkTrigger, List.mem_cons, List.not_mem_nil, or_false] at ha
    · rcases ha with rfl | rfl <;> exact key _ _ _
    · subst ha; exact key _ _ _
    · subst ha; exact key _ _ _
  refine ⟨hst.rows _ hne, fun hc ⟨r, hr, hx⟩ h => hx ?_⟩
  have h1 := hc r hr
  have h2 := h r (by rw [hst.rows _ hne]; exact hr)
  rw [h1] at h2
  simp only [Val.int.injEq] at h2
  omega

/-- **C78 is violated** by every CacheKeyField over such a ForeignKey: no key is renewed, whatever happens to the related rows. -/
theorem C78_violated_cachekey {key : Col} (hE : Installed E D) (hN : E.backend = .mysql ∨ ∀ g ∈ generated D, ∀ g' ∈ generated D, ¬ Clash g g')
    (hD : ∀ dn ∈ D, dn = .cacheKey v.model key [v.dep] ∨ ∀ g ∈ dn.triggers, g.table ≠ v.other.table) (hne : v.model.table ≠ v.other.table)
    {s : Stmt} (hs : s.table = v.other.table) (h0 : ∀ o ∈ db.rows v.other.table, v.Apart db o) (hk : s.Keeps (v.Apart db)) (he : E.exec fuel s db = .ok db') :
    db'.rows v.model.table = db.rows v.model.table := by
  have hst : Quiet v.other.table (v.Apart db) (fun _ => True) db db' := by
    refine exec_still_of hE hN hD (fun g hg ht act ha ch x ho hn hx => ?_) hs hk h0 he
    have hside : ∀ s, v.Apart db (ch.side s) := by intro s; cases s <;> assumption
    have hk : ∀ (s : Side), Mute (fun _ => True) ch x (randomUpdate v.model key
        (if v.backward then .eq v.model.pk s v.fk.column else .eq v.fk.column s v.other.pk)) := by
      intro s r hr
      simp only [hx.rows _ hne] at hr
      have := hside s r hr
      cases hb : v.backward <;> simp only [hb, Bool.false_eq_true, if_false, if_true] at this ⊢ <;>
        simp only [UpdAction.where_, Key.matches, Bool.and_eq_false_iff] <;> left <;> rw [Bool.eq_false_iff] <;> intro hq <;> exact this (Val.sqlEq_iff.1 hq).1
    simp only [Denorm.triggers, List.flatMap_cons, List.flatMap_nil, List.append_nil] at hg
    unfold Aimed.dep Dep.cacheKeyTriggers at hg
    cases hb : v.backward <;> simp only [hb, Bool.false_eq_true, if_false, if_true, List.mem_cons, List.not_mem_nil, or_false] at hg hk <;>
      rcases hg with rfl | rfl | rfl <;> simp only [mkTrigger, List.mem_cons, List.not_mem_nil, or_false] at ha
    · subst ha; exact hk _
    · subst ha; exact hk _
    · subst ha; exact hk _
    · rcases ha with rfl | rfl <;> exact hk _
    · subst ha; exact hk _
    · subst ha; exact hk _
  exact hst.rows _ hne

end

/-! ## A project: cities refer to the dialling code of their country -/

namespace Atlas
open Demo (fld fkf row)
set_option maxRecDepth 100000

def cityCountry : Field := fkf "country" "<class 'atlas.Country'>"
def country : Model :=
  { repr := "<class 'atlas.Country'>", appLabel := "atlas", name := "Country", table := "country", pkTable := "country", pk := "id", ct := 61,
    fields := [fld "id", fld "code", fld "name", fld "cities", fld "city_count", fld "key"] }
def city : Model :=
  { repr := "<class 'atlas.City'>", appLabel := "atlas", name := "City", table := "city", pkTable := "city", pk := "id", ct := 62,
    fields := [fld "id", cityCountry, fld "name", fld "label"] }

/-- `City.label` is the name of its country, `Country.cities` the names of its cities. -/
def label : Aimed := { model := city, other := country, fk := cityCountry, to := "code", field := "label", own := [], reads := ["name"], fn := fun _ => Demo.concat }
def cities : Aimed :=
  { model := country, other := city, fk := cityCountry, to := "code", backward := true, field := "cities", own := [], reads := ["name"], fn := fun _ => Demo.concat }
def cityCount : AggDenorm := { model := country, fieldname := "city_count", related := city, fk := cityCountry, agg := .count }

/-- The library finds the relations. -/
example : resolvedModel city country none none = .ok label.dep.rel ∧ resolvedModel country city none none = .ok cities.dep.rel := ⟨rfl, rfl⟩

def corow (id : Int) (code : Val) (name cities : String) (n : Int) : Row :=
  row [("id", .int id), ("code", code), ("name", .text name), ("cities", .text cities), ("city_count", .int n), ("key", .int 7)]
def cirow (id : Int) (country : Val) (name label : String) : Row := row [("id", .int id), ("country_id", country), ("name", .text name), ("label", .text label)]

/-- Two countries and a city in the first. -/
def db : Db :=
  ⟨fun t => if t = "country" then [corow 1 (.int 43) "Austria" "Graz" 1, corow 2 (.int 32) "Belgium" "" 0]
    else if t = "city" then [cirow 1 (.int 43) "Graz" "Austria"] else [], [], 0⟩

def renameCountry : Stmt := .update "country" (fun r => r "id" == .int 1) fun _ r => r.set "name" (.text "Oesterreich")
def newCity : Stmt := .insert "city" [cirow 2 (.int 43) "Linz" "Austria"]

def engine (b : Backend) (D : List Denorm) : Engine := ⟨b, installedTriggers b D, fun _ => 99⟩

theorem apart_label : ∀ o ∈ db.rows "country", label.Apart db o := by decide
theorem apart_cities : ∀ o ∈ db.rows "city", cities.Apart db o := by decide

theorem names {D : List Denorm} (b : Backend) (h : ∀ g ∈ generated D, g.contentTypeField = none) :
    b = .mysql ∨ ∀ g ∈ generated D, ∀ g' ∈ generated D, ¬ Clash g g' := by
  right
  intro g hg g' _ hc
  have := hc.1
  rw [h g hg] at this
  simp at this

/-- **C78 is violated**: the country gets another name, its city keeps the old label and is not marked, so flush() has nothing to do. -/
theorem C78_violated_forward (b : Backend) : Installed (engine b [label.denorm]) [label.denorm] ∧ (∀ r ∈ db.rows "city", label.Fresh db r) ∧
    ∃ db', (engine b [label.denorm]).exec 100 renameCountry db = .ok db' ∧ (∃ r ∈ db'.rows "city", ¬ label.Fresh db' r ∧ ¬ Marked city db' r) ∧
      ∀ (A : App) (n : Nat), A.flush n db' = .ok (some db') := by
  refine ⟨rfl, by decide, ?_⟩
  obtain ⟨db', he, h⟩ := ok_of (x := (engine b [label.denorm]).exec 100 renameCountry db)
    (P := fun db' => (∃ r ∈ db'.rows "city", ¬ label.Fresh db' r ∧ ¬ Marked city db' r) ∧ db'.dirty = []) (by cases b <;> decide +kernel)
  refine ⟨db', he, h.1, fun A n => ?_⟩
  unfold App.flush
  rw [if_pos h.2]

/-- **C78 is violated**: the country gets another city. The marker that is written is for the country with the primary key 43, which does not exist. -/
theorem C78_violated_backward (b : Backend) : Installed (engine b [cities.denorm]) [cities.denorm] ∧ (∀ r ∈ db.rows "country", cities.Fresh db r) ∧
    ∃ db', (engine b [cities.denorm]).exec 100 newCity db = .ok db' ∧ db'.dirty = [⟨61, .int 43⟩] ∧
      ∃ r ∈ db'.rows "country", ¬ cities.Fresh db' r ∧ ¬ Marked country db' r := by
  refine ⟨rfl, by decide, ?_⟩
  exact ok_of (x := (engine b [cities.denorm]).exec 100 newCity db)
    (P := fun db' => db'.dirty = [⟨61, .int 43⟩] ∧ ∃ r ∈ db'.rows "country", ¬ cities.Fresh db' r ∧ ¬ Marked country db' r) (by cases b <;> decide +kernel)

instance decCountsBy (a : AggDenorm) (to : Col) (db : Db) : Decidable (CountsBy a to db) := by unfold CountsBy; infer_instance

/-- Codes that are also keys, but of other countries. -/
def numbered : Db :=
  ⟨fun t => if t = "country" then [corow 1 (.int 2) "Austria" "" 0, corow 2 (.int 1) "Belgium" "" 0] else [], [], 0⟩

/-- **C78 is violated**: where the code of one country happens to be the primary key of another, the other country's count goes up. -/
theorem C78_violated_wrong_row (b : Backend) : CountsBy cityCount "code" numbered ∧
    ∃ db', (engine b [.aggregate cityCount]).exec 100 (.insert "city" [cirow 1 (.int 2) "Graz" ""]) numbered = .ok db' ∧
      (db'.rows "country").map (fun r => (r "code", r "city_count")) = [(.int 2, .int 0), (.int 1, .int 1)] ∧ ¬ CountsBy cityCount "code" db' := by
  refine ⟨by decide, ?_⟩
  exact ok_of (x := (engine b [.aggregate cityCount]).exec 100 (.insert "city" [cirow 1 (.int 2) "Graz" ""]) numbered)
    (P := fun db' => (db'.rows "country").map (fun r => (r "code", r "city_count")) = [(.int 2, .int 0), (.int 1, .int 1)] ∧ ¬ CountsBy cityCount "code" db')
    (by cases b <;> decide +kernel)

/-! ## The hypotheses are met -/

/-- `C78_violated_lost` applies to both fields. -/
example (b : Backend) : ∃ db', (engine b [label.denorm]).exec 100 renameCountry db = .ok db' ∧ ∃ r ∈ db'.rows "city", ¬ label.Fresh db' r ∧ ¬ Marked city db' r := by
  obtain ⟨db', he, h⟩ := ok_of (x := (engine b [label.denorm]).exec 100 renameCountry db)
    (P := fun db' => ∀ r ∈ db.rows "city", label.value db' r ≠ label.value db r) (by cases b <;> decide +kernel)
  have hr : cirow 1 (.int 43) "Graz" "Austria" ∈ db.rows "city" := List.mem_cons_self ..
  obtain ⟨-, -, h3⟩ := C78_violated_lost (E := engine b [label.denorm]) (v := label) (s := renameCountry) rfl (names b (by decide)) (fun dn hdn => .inl (List.mem_singleton.1 hdn))
    (by decide) (by decide) rfl apart_label (by intro x r hr; exact hr) he
  obtain ⟨h1, h2⟩ := h3 _ hr (by decide) (by unfold Marked; decide) (h _ hr)
  exact ⟨db', he, _, h1, h2⟩

example (b : Backend) : ∃ db', (engine b [cities.denorm]).exec 100 newCity db = .ok db' ∧ ∀ r ∈ db.rows "country", ¬ Marked country db' r := by
  obtain ⟨db', he, -⟩ := ok_of (x := (engine b [cities.denorm]).exec 100 newCity db) (P := fun _ => True) (by cases b <;> decide +kernel)
  obtain ⟨-, h2, -⟩ := C78_violated_lost (E := engine b [cities.denorm]) (v := cities) rfl (names b (by decide)) (fun dn hdn => .inl (List.mem_singleton.1 hdn))
    (by decide) (by decide) rfl apart_cities (by intro r hr; rw [List.mem_singleton.1 hr]; decide) he
  exact ⟨db', he, fun r hr h => by simpa [Marked, db] using (h2 r hr).1 h⟩

/-- `C78_violated_count` applies: a city is added, the count of Austria stays 1. -/
example (b : Backend) : CountsBy cityCount "code" db ∧ ∃ db', (engine b [.aggregate cityCount]).exec 100 newCity db = .ok db' ∧ ¬ CountsBy cityCount "code" db' := by
  have h0 : CountsBy cityCount "code" db := by decide
  obtain ⟨db', he, h⟩ := ok_of (x := (engine b [.aggregate cityCount]).exec 100 newCity db)
    (P := fun db' => ∃ r ∈ db.rows "country", cityCount.countBy "code" db' r ≠ cityCount.countBy "code" db r) (by cases b <;> decide +kernel)
  exact ⟨h0, db', he, (C78_violated_count (E := engine b [.aggregate cityCount]) (a := cityCount) (to := "code") rfl (names b (by decide))
    (fun dn hdn => .inl (List.mem_singleton.1 hdn)) (by decide) rfl (by decide) (by intro r hr; rw [List.mem_singleton.1 hr]; decide) he).2 h0 h⟩

/-- `C78_violated_cachekey` applies: the key of Austria stays. -/
example (b : Backend) : ∃ db', (engine b [.cacheKey country "key" [cities.dep]]).exec 100 newCity db = .ok db' ∧ db'.rows "country" = db.rows "country" := by
  obtain ⟨db', he, -⟩ := ok_of (x := (engine b [.cacheKey country "key" [cities.dep]]).exec 100 newCity db) (P := fun _ => True) (by cases b <;> decide +kernel)
  exact ⟨db', he, C78_violated_cachekey (E := engine b [.cacheKey country "key" [cities.dep]]) (v := cities) rfl (names b (by decide))
    (fun dn hdn => .inl (List.mem_singleton.1 hdn)) (by decide) rfl apart_cities (by intro r hr; rw [List.mem_singleton.1 hr]; decide) he⟩

/-- The same declarations over codes that are the keys. -/
def mirrored : Db :=
  ⟨fun t => if t = "country" then [corow 1 (.int 1) "Austria" "Graz" 1, corow 2 (.int 2) "Belgium" "" 0]
    else if t = "city" then [cirow 1 (.int 1) "Graz" "Austria"] else [], [], 0⟩

theorem wd_label (b : Backend) : WellDeclared b [label.denorm] label.callback where
  declared := List.mem_singleton.2 rfl
  agree := by cases b <;> decide
  table := by decide
  own := by decide
  this := by decide
  watched := by decide
  keys := by decide
  links := by simp [label, Aimed.callback, Aimed.dep, Dep.m2mTable]

/-- `C78_key_partial` applies: the city is marked. -/
example (b : Backend) : label.StaleMarked ((engine b [label.denorm]).run 100 [renameCountry] mirrored) ∧
    ((engine b [label.denorm]).run 100 [renameCountry] mirrored).dirty = [⟨62, .int 1⟩] := by
  refine ⟨C78_key_partial (E := engine b [label.denorm]) rfl (wd_label b) (noReentry_of (fun _ => 0) (by cases b <;> decide)) ?_ (by unfold KeysOk; decide)
    (by unfold Mirrors; decide) (by unfold Mirrors; cases b <;> decide +kernel) (by unfold Aimed.StaleMarked; decide), by cases b <;> decide +kernel⟩
  refine legalRun_of_all (fun s hs db => ?_) _
  rw [List.mem_singleton] at hs
  subst hs
  have hp : ∀ p ∈ label.callback.pks, p.2 ≠ "name" := by decide
  intro p hp' _ x r
  exact if_neg (hp p hp')

theorem wd_count (b : Backend) : AggDeclared b [.aggregate cityCount] cityCount where
  declared := List.mem_singleton.2 rfl
  covered := by cases b <;> decide
  only := by decide
  pk := by decide
  fk := by decide
  watched := by decide
  fkcol := by decide
  conds := by decide

/-- `C78_count_key_partial` applies: a city is added, and the count is 2. -/
example (b : Backend) : CountsBy cityCount "code" ((engine b [.aggregate cityCount]).run 100 [.insert "city" [cirow 2 (.int 1) "Linz" "Austria"]] mirrored) ∧
    (((engine b [.aggregate cityCount]).run 100 [.insert "city" [cirow 2 (.int 1) "Linz" "Austria"]] mirrored).rows "country").map (fun r => r "city_count") =
      [.int 2, .int 0] := by
  refine ⟨C78_count_key_partial (E := engine b [.aggregate cityCount]) rfl (wd_count b) (noReentry_of (fun _ => 0) (by cases b <;> decide)) rfl ?_
    (by unfold Mirrors; decide) (by unfold Mirrors; cases b <;> decide +kernel) (by decide), by cases b <;> decide +kernel⟩
  refine ⟨fun h => by simp [cityCount, country] at h, ?_⟩
  split <;> trivial

end Atlas
end Denorm
