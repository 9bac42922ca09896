import Verif.Lemmas.FieldSolved
import Verif.Props.Finishes
import Verif.Props.Confluent
/-!
# flush() and rebuildall() return (C18, C19, C24): projects with CountFields, SumFields and CacheKeyFields; fields that depend on each other's instances

`A.limit n` is the project on a database that allows each statement `n` steps of trigger work.
-/
namespace Denorm

section
variable {A A' : App} {D : List Denorm} {cbs : List Callback} {rank : FieldAt → Nat} {L n n' : Nat} {db db' e e' : Db}

theorem layered_limit {rank : Nat → Val → Nat} (hL : Layered A D rank L db) (n : Nat) : Layered (A.limit n) D rank L db := ⟨hL.up, hL.bound⟩

/-! ## Any kinds of fields, acyclic instances -/

/-- C18 for every kind of denormalized fields: if the statements themselves come to an end (C51) and no instance depends on itself, then
flush() returns, without error and with no marker left. -/
theorem C18_returns_finishing (hP : Project A D) (hfin : ∀ s db, A.engine.Finishes s db) (hp : ∀ l, (A.arrange l).Perm l)
    (hu : KeysUnique A db) (hm : MarksKnown A db) (ha : Acyclic A D db) :
    ∃ db' N, ∀ n, N ≤ n → (A.limit n).flush ((A.instances db).length + 1) db = .ok (some db') ∧ db'.dirty = [] := by
  obtain ⟨o, N, h⟩ := flush_finishes hP hfin hp ((A.instances db).length + 1) hu hm
  have hL := layered_of_acyclic ha
  have key : ∀ n, N ≤ n → ∃ db', o = some db' ∧ db'.dirty = [] := by
    intro n hn
    rcases C18_terminates (A := A.limit n) (project_limit hP n) hp hu (layered_limit hL n) with ⟨db', h1, h2⟩ | ⟨e, h1⟩
    · rw [h n hn] at h1
      simp only [Except.ok.injEq] at h1
      exact ⟨db', h1, h2⟩
    · rw [h n hn] at h1
      simp at h1
  obtain ⟨db', rfl, hd⟩ := key N (Nat.le_refl N)
  exact ⟨db', N, fun n hn => ⟨h n hn, hd⟩⟩

/-- C18 on sqlite: nothing else is needed. -/
theorem C18_returns_sqlite (hP : Project A D) (hb : A.engine.backend = .sqlite) (hp : ∀ l, (A.arrange l).Perm l)
    (hu : KeysUnique A db) (hm : MarksKnown A db) (ha : Acyclic A D db) :
    ∃ db' N, ∀ n, N ≤ n → (A.limit n).flush ((A.instances db).length + 1) db = .ok (some db') ∧ db'.dirty = [] :=
  C18_returns_finishing hP (fun s db => C51_sqlite hb s db) hp hu hm ha

/-- C18 on every backend, where no table feeds its own CountFields, SumFields and CacheKeyFields. -/
theorem C18_returns_tables (hP : Project A D) (ht : TablesAcyclic D) (hc : TableNamesClear D) (hp : ∀ l, (A.arrange l).Perm l)
    (hu : KeysUnique A db) (hm : MarksKnown A db) (ha : Acyclic A D db) :
    ∃ db' N, ∀ n, N ≤ n → (A.limit n).flush ((A.instances db).length + 1) db = .ok (some db') ∧ db'.dirty = [] :=
  C18_returns_finishing hP (fun s db => C51_tables_partial hP.installed hP.this (fun _ => hc) ht s db) hp hu hm ha

/-! ## Instances may depend on each other, fields may not -/

/-- C18, field by field: instances may depend on each other in circles, as long as no field is computed from itself, directly or through
others. flush() needs at most two passes more than there are layers of fields, and then every field is right. -/
theorem C18_fields_layered (hP : Project A D) (hO : OnlyFields A D cbs) (hp : ∀ l, (A.arrange l).Perm l) (hu : KeysUnique A db)
    (hT : FlushedTogether A D cbs db) (hL : FieldsLayered cbs rank L db) :
    (∃ db', A.flush (L + 2) db = .ok (some db') ∧ db'.dirty = [] ∧ ∀ cb ∈ cbs, ∀ r ∈ db'.rows cb.model.table, r cb.field = cb.value db' r) ∨
      ∃ e, A.flush (L + 2) db = .error e := by
  have h := fields_flush hP hO hp L 0 (Nat.zero_add L) hu hT hL fun _ _ _ _ h => absurd h (Nat.not_lt_zero _)
  cases hf : A.flush (L + 2) db with
  | error e => exact .inr ⟨e, rfl⟩
  | ok o =>
    cases o with
    | none => exact absurd hf h
    | some db' => exact .inl ⟨db', rfl, flush_clean _ hf, (together_flush hu hT hf).2⟩

/-- C18, field by field, with the layers constructed and without errors. -/
theorem C18_fields_return (hP : Project A D) (hO : OnlyFields A D cbs) (hfin : ∀ s db, A.engine.Finishes s db)
    (hp : ∀ l, (A.arrange l).Perm l) (hu : KeysUnique A db) (hm : MarksKnown A db) (hT : FlushedTogether A D cbs db)
    (ha : FieldsAcyclic cbs db) :
    ∃ db' N, (∀ n, N ≤ n → (A.limit n).flush ((allFields cbs db).length + 2) db = .ok (some db')) ∧ db'.dirty = [] ∧
      ∀ cb ∈ cbs, ∀ r ∈ db'.rows cb.model.table, r cb.field = cb.value db' r := by
  obtain ⟨o, N, h⟩ := flush_finishes hP hfin hp ((allFields cbs db).length + 2) hu hm
  rcases C18_fields_layered (A := A.limit N) (project_limit hP N) (onlyFields_limit hO N) hp hu (together_limit hT N)
    (fieldsLayered_of_acyclic ha) with ⟨db', h1, h2⟩ | ⟨e, h1⟩
  · rw [h N (Nat.le_refl N)] at h1
    simp only [Except.ok.injEq] at h1
    subst h1
    exact ⟨db', N, h, h2⟩
  · rw [h N (Nat.le_refl N)] at h1
    simp at h1

/-- C19, field by field: the same rows, other markers and perhaps another backend. If no field is computed from itself and both flushes
return, every field has the same value in every instance. -/
theorem C19_fields_same_values (hP : Project A D) (hP' : Project A' D) (hm : A'.models = A.models) (hrows : db'.rows = db.rows)
    (hu : KeysUnique A db) (hc : FlushedTogether A D cbs db) (hc' : FlushedTogether A' D cbs db') (ha : FieldsAcyclic cbs db)
    (h : A.flush n db = .ok (some e)) (h' : A'.flush n' db' = .ok (some e')) : ∀ cb ∈ cbs, cb.column e' = cb.column e := by
  intro cb hcb
  have hs := (fieldSolved_of_flush hP hP' hm hrows hu hc hc' (fieldsLayered_of_acyclic ha) h h').same cb.model.table
  obtain ⟨om, hF, -, -⟩ := hc.each cb hcb
  refine (hs.map_eq fun a b hab => ?_).symm
  have h2 := pk_untouched hP'.safe (hm ▸ List.mem_of_find?_eq_some hF.found)
  rw [hF.model] at h2
  rw [hab.2 cb hcb rfl, hab.1 _ (cb_pk_untouched hP hF) h2]

/-- C19 with C18, field by field: both flushes return, with the same values. -/
theorem C19_fields_return (hP : Project A D) (hP' : Project A' D) (hm : A'.models = A.models) (hO : OnlyFields A D cbs)
    (hO' : OnlyFields A' D cbs) (hfin : ∀ s db, A.engine.Finishes s db) (hfin' : ∀ s db, A'.engine.Finishes s db)
    (hp : ∀ l, (A.arrange l).Perm l) (hp' : ∀ l, (A'.arrange l).Perm l) (hrows : db'.rows = db.rows) (hu : KeysUnique A db)
    (hk : MarksKnown A db) (hk' : MarksKnown A' db') (hc : FlushedTogether A D cbs db) (hc' : FlushedTogether A' D cbs db')
    (ha : FieldsAcyclic cbs db) :
    ∃ e e' N, (∀ n, N ≤ n → (A.limit n).flush ((allFields cbs db).length + 2) db = .ok (some e) ∧
        (A'.limit n).flush ((allFields cbs db).length + 2) db' = .ok (some e')) ∧
      e.dirty = [] ∧ e'.dirty = [] ∧ ∀ cb ∈ cbs, cb.column e' = cb.column e := by
  have hu' : KeysUnique A' db' := by unfold KeysUnique; rw [hm, hrows]; exact hu
  have hd : ∀ p q, ComputedFrom cbs db' p q → ComputedFrom cbs db p q := by
    intro p q h
    induction h with
    | own k1 k2 k3 k4 k5 => exact .own k1 k2 k3 k4 (hrows ▸ k5)
    | related k1 k2 k3 k4 k5 k6 k7 =>
      rw [related_rows hrows] at k7
      exact .related k1 k2 k3 k4 k5 (hrows ▸ k6) k7
    | trans _ _ k1 k2 => exact .trans k1 k2
  have hi : allFields cbs db' = allFields cbs db := by unfold allFields; rw [hrows]
  obtain ⟨e, N, h1, h2, -⟩ := C18_fields_return hP hO hfin hp hu hk hc ha
  obtain ⟨e', N', h3, h4, -⟩ := C18_fields_return hP' hO' hfin' hp' hu' hk' hc' (fun p hpp => ha p (hd p p hpp))
  rw [hi] at h3
  refine ⟨e, e', max N N', fun n hn => ⟨h1 n (by omega), h3 n (by omega)⟩, h2, h4, ?_⟩
  exact C19_fields_same_values (A := A.limit (max N N')) (A' := A'.limit (max N N')) (project_limit hP _) (project_limit hP' _) hm hrows hu
    (together_limit hc _) (together_limit hc' _) ha (h1 _ (by omega)) (h3 _ (by omega))

/-- C24, field by field: if all models with such fields are asked for, rebuildall() returns, whatever the database held, and every field is
right. -/
theorem C24_fields_return (hP : Project A D) (hO : OnlyFields A D cbs) (hfin : ∀ s db, A.engine.Finishes s db)
    (hp : ∀ l, (A.arrange l).Perm l) (hu : KeysUnique A db) (hm : MarksKnown A db)
    (hF : ∀ cb ∈ cbs, ∃ om, Flushable A D om cb db ∧ KeysOk cb db)
    (hown : ∀ cb ∈ cbs, ∀ c ∈ cb.own, Touched A cb.model.table c → ∃ cb' ∈ cbs, cb'.model.table = cb.model.table ∧ cb'.field = c)
    (hreads : ∀ cb ∈ cbs, ∀ d ∈ cb.deps, ∀ c ∈ d.reads, Touched A d.dep.otherTable c →
      ∃ cb' ∈ cbs, cb'.model.table = d.dep.otherTable ∧ cb'.field = c)
    (ha : FieldsAcyclic cbs db) {mn fn : Option String} (hask : ∀ cb ∈ cbs, ∃ dn ∈ D, Asked mn fn dn ∧ dn.model = cb.model) :
    ∃ db' N, (∀ n, N ≤ n → (A.limit n).rebuildall D mn fn ((allFields cbs db).length + 2) db = .ok (some db')) ∧ db'.dirty = [] ∧
      ∀ cb ∈ cbs, ∀ r ∈ db'.rows cb.model.table, r cb.field = cb.value db' r := by
  have hT : FlushedTogether A D cbs (db.addMarks (rebuildMarks (rebuildModels D mn fn) db)) := by
    refine ⟨fun cb hcb => ?_, hown, hreads⟩
    obtain ⟨om, h1, h2⟩ := hF cb hcb
    refine ⟨om, flushable_rows (db := db) (db' := db.addMarks _) rfl h1, h2, ?_⟩
    intro r hr _
    obtain ⟨dn, hdn, hask, hmod⟩ := hask cb hcb
    exact List.mem_append_right _ (mem_rebuildMarks.2 ⟨dn, hdn, hask, r, by rw [hmod]; exact hr, by rw [hmod]⟩)
  have hm' : MarksKnown A (db.addMarks (rebuildMarks (rebuildModels D mn fn) db)) := by
    intro m hm'
    rcases List.mem_append.1 hm' with h | h
    · exact hm m h
    · obtain ⟨dn, hdn, _, r, _, rfl⟩ := mem_rebuildMarks.1 h
      obtain ⟨om, hom, e⟩ := hP.known dn hdn
      exact ⟨om, hom, by rw [e]⟩
  have ha' : FieldsAcyclic cbs (db.addMarks (rebuildMarks (rebuildModels D mn fn) db)) := by
    intro p hpp
    refine ha p ?_
    have : ∀ p q, ComputedFrom cbs (db.addMarks (rebuildMarks (rebuildModels D mn fn) db)) p q → ComputedFrom cbs db p q := by
      intro p q h
      induction h with
      | own k1 k2 k3 k4 k5 => exact .own k1 k2 k3 k4 k5
      | related k1 k2 k3 k4 k5 k6 k7 =>
        have hr : (db.addMarks (rebuildMarks (rebuildModels D mn fn) db)).rows = db.rows := rfl
        rw [related_rows hr] at k7
        exact .related k1 k2 k3 k4 k5 k6 k7
      | trans _ _ k1 k2 => exact .trans k1 k2
    exact this p p hpp
  exact C18_fields_return (db := db.addMarks (rebuildMarks (rebuildModels D mn fn) db)) hP hO hfin hp hu hm' hT ha'

end

/-! ## The hypotheses are met: a forum collects the titles of its posts, a post shows the titles of its forum

Every forum depends on its posts and every post on its forum, but `Forum.titles` is computed from `Post.title` and `Post.siblings` from
`Forum.titles`. -/

namespace Board
set_option maxRecDepth 100000
open Demo

def forum : Model :=
  { repr := "<class 'app.Forum'>", appLabel := "app", name := "Forum", table := "forum", pkTable := "forum", pk := "id", ct := 1,
    fields := [fld "id", fld "titles", fld "post_count"] }

def post : Model :=
  { repr := "<class 'app.Post'>", appLabel := "app", name := "Post", table := "post", pkTable := "post", pk := "id", ct := 2,
    fields := [fld "id", postForum, fld "title", fld "siblings"] }

def titlesDep : DepRead := ⟨⟨forum, post, .backward postForum, []⟩, ["title"]⟩
def siblingsDep : DepRead := ⟨⟨post, forum, .forward postForum, []⟩, ["titles"]⟩
def titles : Callback := { model := forum, field := "titles", own := [], fn := concatFn, deps := [titlesDep] }
def siblings : Callback := { model := post, field := "siblings", own := ["title"], fn := concatFn, deps := [siblingsDep] }
def postCount : AggDenorm := { model := forum, fieldname := "post_count", related := post, fk := postForum, agg := .count }
def decls : List Denorm := [titles.denorm, siblings.denorm, .aggregate postCount]

def forumOrm : OrmModel := ⟨forum, [⟨"titles", .callback titles⟩, ⟨"post_count", .aggregate⟩]⟩
def postOrm : OrmModel := ⟨post, [⟨"forum_id", .plain⟩, ⟨"title", .plain⟩, ⟨"siblings", .callback siblings⟩]⟩

def app (b : Backend) (arr : List Mark → List Mark) : App := ⟨⟨b, installedTriggers b decls, fun _ => 0⟩, [forumOrm, postOrm], arr, fun db _ _ => db.draws, 100⟩

theorem agree (b : Backend) : AgreeOnWatch b decls := by cases b <;> decide

theorem covered (b : Backend) {cb : Callback} (h : cb.denorm ∈ decls) : ∀ g ∈ cb.denorm.triggers, Covered b decls g :=
  fun _ hg => covered_of_agree (agree b) (List.mem_flatMap.2 ⟨_, h, hg⟩)

theorem noReentry (b : Backend) (arr : List Mark → List Mark) : NoReentry (app b arr).engine := by
  apply noReentry_of Demo.rank
  cases b <;> simp only [app] <;> decide

theorem reached (b : Backend) (arr : List Mark → List Mark) : ∀ om ∈ (app b arr).models, ∀ t c, Reached (app b arr).engine om t c →
    (t, c) = ("forum", "post_count") := by
  intro om hom t c hr
  have : (t, c) ∈ [("forum", "post_count")] := by
    refine reached_within _ ?_ hr
    simp only [app, List.mem_cons, List.not_mem_nil, or_false] at hom
    rcases hom with rfl | rfl <;> cases b <;> simp only [app] <;> decide
  simpa using this

theorem keysSafe (b : Backend) (arr : List Mark → List Mark) : KeysSafe (app b arr) where
  kept := by cases b <;> simp only [app] <;> decide
  free := by
    intro om hom om' hom' hr
    have := reached b arr om' hom' _ _ hr
    clear hr
    simp only [app, List.mem_cons, List.not_mem_nil, or_false] at hom
    rcases hom with rfl | rfl <;> exact absurd this (by decide)

theorem untouched (b : Backend) (arr : List Mark → List Mark) {t : TableName} {c : Col} (h : (t, c) ≠ ("forum", "titles"))
    (h' : (t, c) ≠ ("post", "siblings")) (h'' : (t, c) ≠ ("forum", "post_count")) : ¬ Touched (app b arr) t c := by
  rintro ⟨om, hom, ⟨rfl, hc⟩ | hr⟩
  · simp only [app, List.mem_cons, List.not_mem_nil, or_false] at hom
    rcases hom with rfl | rfl
    · simp [OrmModel.denormCols, forumOrm, Kind.computed] at hc
      subst hc; exact h rfl
    · simp [OrmModel.denormCols, postOrm, Kind.computed] at hc
      subst hc; exact h' rfl
  · exact h'' (reached b arr om hom _ _ hr)

theorem project (b : Backend) (arr : List Mark → List Mark) : Project (app b arr) decls where
  installed := rfl
  agree := agree b
  safe := keysSafe b arr
  cts := by
    intro om hom om' hom'
    simp only [app, List.mem_cons, List.not_mem_nil, or_false] at hom hom'
    rcases hom with rfl | rfl <;> rcases hom' with rfl | rfl <;> first | (intro; rfl) | (intro h; exact absurd h (by decide))
  tables := by
    intro om hom om' hom'
    simp only [app, List.mem_cons, List.not_mem_nil, or_false] at hom hom'
    rcases hom with rfl | rfl <;> rcases hom' with rfl | rfl <;> first | (intro; rfl) | (intro h; exact absurd h (by decide))
  known := by
    intro dn hdn
    simp only [decls, List.mem_cons, List.not_mem_nil, or_false] at hdn
    rcases hdn with rfl | rfl | rfl
    · exact ⟨forumOrm, by simp [app], rfl⟩
    · exact ⟨postOrm, by simp [app], rfl⟩
    · exact ⟨forumOrm, by simp [app], rfl⟩
  this := by decide
  pkTable := by decide
  others := by cases b <;> simp only [app] <;> decide
  generic := by
    intro dn hdn d hd g
    simp only [decls, List.mem_cons, List.not_mem_nil, or_false] at hdn
    rcases hdn with rfl | rfl | rfl <;> simp only [Callback.denorm, Denorm.deps, titles, siblings, List.map_cons, List.map_nil, List.mem_singleton, List.not_mem_nil] at hd <;>
      subst hd <;> simp [titlesDep, siblingsDep]
  through := by cases b <;> simp only [app] <;> decide
  fixed := by
    intro dn hdn d hd
    simp only [decls, List.mem_cons, List.not_mem_nil, or_false] at hdn
    rcases hdn with rfl | rfl | rfl <;> simp only [Callback.denorm, Denorm.deps, titles, siblings, List.map_cons, List.map_nil, List.mem_singleton, List.not_mem_nil] at hd <;>
      subst hd <;> simp only [titlesDep, siblingsDep, Dep.looks, Dep.ownKeys, List.mem_singleton, forall_eq, List.not_mem_nil, false_implies, implies_true, and_true]
    · exact untouched b arr (by decide) (by decide) (by decide)
    · exact ⟨untouched b arr (by decide) (by decide) (by decide), untouched b arr (by decide) (by decide) (by decide)⟩
  fixedFk := by
    intro a ha
    simp only [decls, Callback.denorm, List.mem_cons, reduceCtorEq, Denorm.aggregate.injEq, List.not_mem_nil, or_false, false_or] at ha
    subst ha
    exact untouched b arr (by decide) (by decide) (by decide)

theorem wd_titles (b : Backend) : WellDeclared b decls titles where
  declared := by simp [decls]
  agree := covered b (by decide)
  table := by decide
  own := by decide
  this := by simp [titles, titlesDep]
  watched := by decide
  keys := by decide
  links := by simp [titles, titlesDep, Dep.m2mTable]

theorem wd_siblings (b : Backend) : WellDeclared b decls siblings where
  declared := by simp [decls]
  agree := covered b (by decide)
  table := by decide
  own := by decide
  this := by simp [siblings, siblingsDep]
  watched := by decide
  keys := by decide
  links := by simp [siblings, siblingsDep, Dep.m2mTable]

theorem depStable_of (b : Backend) (arr : List Mark → List Mark) {om : OrmModel} (hom : om ∈ (app b arr).models) {d : DepRead} (db : Db)
    (h1 : ("forum", "post_count") ∉ d.sees) (h2 : ∀ p ∈ d.sees, p.1 = om.model.table → p.2 ∉ om.denormCols) :
    DepStable (app b arr) om d db :=
  ⟨fun p hp hr => by
    have := reached b arr om hom _ _ hr
    exact h1 (this ▸ hp), .inl h2⟩

theorem own_of (b : Backend) (arr : List Mark → List Mark) {om : OrmModel} (hom : om ∈ (app b arr).models) {cb : Callback}
    (h : ∀ c ∈ cb.ownCols, (om.model.table, c) ≠ ("forum", "post_count")) :
    ∀ c ∈ cb.ownCols, ¬ Reached (app b arr).engine om om.model.table c :=
  fun c hc hr => h c hc (reached b arr om hom _ _ hr)

theorem flushable_titles (b : Backend) (arr : List Mark → List Mark) (db : Db) : Flushable (app b arr) decls forumOrm titles db where
  installed := rfl
  declared := wd_titles b
  noReentry := noReentry b arr
  found := by cases b <;> rfl
  model := rfl
  cols := by decide
  order := ⟨[], _, rfl, by decide⟩
  own := own_of b arr (by simp [app]) (by decide)
  deps := by
    intro d hd
    simp only [titles, List.mem_singleton] at hd
    subst hd
    exact depStable_of b arr (by simp [app]) db (by decide) (by decide)
  pks := by cases b <;> simp only [app] <;> decide
  safe := keysSafe b arr

theorem flushable_siblings (b : Backend) (arr : List Mark → List Mark) (db : Db) : Flushable (app b arr) decls postOrm siblings db where
  installed := rfl
  declared := wd_siblings b
  noReentry := noReentry b arr
  found := by cases b <;> rfl
  model := rfl
  cols := by decide
  order := ⟨[⟨"forum_id", .plain⟩, ⟨"title", .plain⟩], _, rfl, by decide⟩
  own := own_of b arr (by simp [app]) (by decide)
  deps := by
    intro d hd
    simp only [siblings, List.mem_singleton] at hd
    subst hd
    exact depStable_of b arr (by simp [app]) db (by decide) (by decide)
  pks := by cases b <;> simp only [app] <;> decide
  safe := keysSafe b arr

theorem own_settled (b : Backend) (arr : List Mark → List Mark) : ∀ cb ∈ [titles, siblings], ∀ c ∈ cb.own, Touched (app b arr) cb.model.table c →
    ∃ cb' ∈ [titles, siblings], cb'.model.table = cb.model.table ∧ cb'.field = c := by
  intro cb hcb c hc ht
  simp only [List.mem_cons, List.not_mem_nil, or_false] at hcb
  rcases hcb with rfl | rfl
  · simp [titles] at hc
  · simp only [siblings, List.mem_singleton] at hc
    subst hc
    exact absurd ht (untouched b arr (by decide) (by decide) (by decide))

theorem reads_settled (b : Backend) (arr : List Mark → List Mark) : ∀ cb ∈ [titles, siblings], ∀ d ∈ cb.deps, ∀ c ∈ d.reads,
    Touched (app b arr) d.dep.otherTable c → ∃ cb' ∈ [titles, siblings], cb'.model.table = d.dep.otherTable ∧ cb'.field = c := by
  intro cb hcb d hd c hc ht
  simp only [List.mem_cons, List.not_mem_nil, or_false] at hcb
  rcases hcb with rfl | rfl
  · simp only [titles, List.mem_singleton] at hd
    subst hd
    simp only [titlesDep, List.mem_singleton] at hc
    subst hc
    exact absurd ht (untouched b arr (by decide) (by decide) (by decide))
  · simp only [siblings, List.mem_singleton] at hd
    subst hd
    simp only [siblingsDep, List.mem_singleton] at hc
    subst hc
    exact ⟨titles, by simp, rfl, rfl⟩

theorem onlyFields (b : Backend) (arr : List Mark → List Mark) : OnlyFields (app b arr) decls [titles, siblings] where
  computed := by
    intro om hom f hf hc
    simp only [app, List.mem_cons, List.not_mem_nil, or_false] at hom
    rcases hom with rfl | rfl
    · simp only [forumOrm, List.mem_cons, List.not_mem_nil, or_false] at hf
      rcases hf with rfl | rfl
      · exact ⟨titles, by simp, rfl, rfl⟩
      · simp [Kind.computed] at hc
    · simp only [postOrm, List.mem_cons, List.not_mem_nil, or_false] at hf
      rcases hf with rfl | rfl | rfl
      · simp [Kind.computed] at hc
      · simp [Kind.computed] at hc
      · exact ⟨siblings, by simp, rfl, rfl⟩
  unreached := by
    intro cb hcb om hom hr
    have := reached b arr om hom _ _ hr
    simp only [List.mem_cons, List.not_mem_nil, or_false] at hcb
    rcases hcb with rfl | rfl <;> exact absurd this (by decide)
  steady := by cases b <;> simp only [app] <;> decide

theorem finishes (b : Backend) (arr : List Mark → List Mark) (s : Stmt) (db : Db) : (app b arr).engine.Finishes s db := by
  refine C51_tables_partial (D := decls) (project b arr).installed (by decide) (fun _ => ?_) ?_ s db
  · have h0 : ∀ g ∈ generated decls, g.table ∈ ["forum", "post"] := by decide
    intro g hg g' hg' n h
    have h3 : ∀ t ∈ ["forum", "post"], ∀ t' ∈ ["forum", "post"], ¬ (t' ++ "_").toList <+: t.toList := by decide
    refine h3 _ (h0 g hg) _ (h0 g' hg') ⟨(toString n).toList, ?_⟩
    rw [← String.toList_append, ← h]
  · have h : ∀ t t', Feeds decls t t' → t = "post" ∧ t' = "forum" := by
      intro t t' h
      induction h with
      | @direct dn t hdn ht =>
        simp only [decls, List.mem_cons, List.not_mem_nil, or_false] at hdn
        rcases hdn with rfl | rfl | rfl <;> simp [Denorm.sources, titles, siblings, Callback.denorm] at ht
        subst ht
        exact ⟨rfl, rfl⟩
      | trans _ _ h1 h2 => exact absurd (h1.2.symm.trans h2.1) (by decide)
    intro t ht
    obtain ⟨rfl, h2⟩ := h t t ht
    exact absurd h2 (by decide)

theorem fieldsAcyclic (db : Db) : FieldsAcyclic [titles, siblings] db := by
  have h : ∀ p q, ComputedFrom [titles, siblings] db p q → p.1 = "forum" ∧ q.1 = "post" := by
    intro p q h
    induction h with
    | @own cb cb' x k1 k2 k3 k4 k5 =>
      simp only [List.mem_cons, List.not_mem_nil, or_false] at k1 k2
      rcases k1 with rfl | rfl
      · simp [titles] at k4
      · rcases k2 with rfl | rfl <;> exact absurd k4 (by decide)
    | @related cb cb' d x o k1 k2 k3 k4 k5 k6 k7 =>
      simp only [List.mem_cons, List.not_mem_nil, or_false] at k1 k2
      rcases k1 with rfl | rfl
      · simp only [titles, List.mem_singleton] at k3
        subst k3
        rcases k2 with rfl | rfl <;> exact absurd k5 (by decide)
      · simp only [siblings, List.mem_singleton] at k3
        subst k3
        rcases k2 with rfl | rfl
        · exact ⟨rfl, rfl⟩
        · exact absurd k5 (by decide)
    | trans _ _ h1 h2 => exact absurd (h1.2.symm.trans h2.1) (by decide)
  intro p hp
  obtain ⟨h1, h2⟩ := h p p hp
  exact absurd (h1.symm.trans h2) (by decide)

theorem together (b : Backend) (arr : List Mark → List Mark) (db : Db) (h1 : KeysOk titles db) (h2 : KeysOk siblings db)
    (h3 : StaleMarked titles db) (h4 : StaleMarked siblings db) : FlushedTogether (app b arr) decls [titles, siblings] db where
  each := by
    intro cb hcb
    simp only [List.mem_cons, List.not_mem_nil, or_false] at hcb
    rcases hcb with rfl | rfl
    · exact ⟨_, flushable_titles b arr db, h1, h3⟩
    · exact ⟨_, flushable_siblings b arr db, h2, h4⟩
  own := own_settled b arr
  reads := reads_settled b arr

/-- C18 for the board, whatever the tables hold, on every backend. -/
example (b : Backend) (arr : List Mark → List Mark) (hp : ∀ l, (arr l).Perm l) (db : Db) (hu : KeysUnique (app b arr) db)
    (hm : MarksKnown (app b arr) db) (h1 : KeysOk titles db) (h2 : KeysOk siblings db) (h3 : StaleMarked titles db)
    (h4 : StaleMarked siblings db) :
    ∃ db' N, (∀ n, N ≤ n → ((app b arr).limit n).flush ((allFields [titles, siblings] db).length + 2) db = .ok (some db')) ∧ db'.dirty = [] ∧
      ∀ cb ∈ [titles, siblings], ∀ r ∈ db'.rows cb.model.table, r cb.field = cb.value db' r :=
  C18_fields_return (A := app b arr) (project b arr) (onlyFields b arr) (finishes b arr) hp hu hm (together b arr db h1 h2 h3 h4)
    (fieldsAcyclic db)

/-- C19 for the board: two backends, two orders, any markers that include the out-of-date instances. -/
example (b b' : Backend) (arr arr' : List Mark → List Mark) (hp : ∀ l, (arr l).Perm l) (hp' : ∀ l, (arr' l).Perm l) (db : Db)
    (ms : List Mark) (hu : KeysUnique (app b arr) db) (h1 : KeysOk titles db) (h2 : KeysOk siblings db)
    (h3 : StaleMarked titles db) (h4 : StaleMarked siblings db) (h5 : StaleMarked titles { db with dirty := ms })
    (h6 : StaleMarked siblings { db with dirty := ms }) (hk : MarksKnown (app b arr) db) (hk' : MarksKnown (app b arr) { db with dirty := ms }) :
    ∃ e e' N, (∀ n, N ≤ n → ((app b arr).limit n).flush ((allFields [titles, siblings] db).length + 2) db = .ok (some e) ∧
        ((app b' arr').limit n).flush ((allFields [titles, siblings] db).length + 2) { db with dirty := ms } = .ok (some e')) ∧
      e.dirty = [] ∧ e'.dirty = [] ∧ ∀ cb ∈ [titles, siblings], cb.column e' = cb.column e :=
  C19_fields_return (A := app b arr) (A' := app b' arr') (db' := { db with dirty := ms }) (project b arr) (project b' arr') rfl (onlyFields b arr)
    (onlyFields b' arr') (finishes b arr) (finishes b' arr') hp hp' rfl hu hk hk' (together b arr db h1 h2 h3 h4)
    (together b' arr' { db with dirty := ms } h1 h2 h5 h6) (fieldsAcyclic db)

/-- C24 for the board: nothing is marked and everything may be wrong. -/
example (b : Backend) (arr : List Mark → List Mark) (hp : ∀ l, (arr l).Perm l) (db : Db) (hu : KeysUnique (app b arr) db)
    (hm : db.dirty = []) (h1 : KeysOk titles db) (h2 : KeysOk siblings db) :
    ∃ db' N, (∀ n, N ≤ n → ((app b arr).limit n).rebuildall decls none none ((allFields [titles, siblings] db).length + 2) db = .ok (some db')) ∧
      db'.dirty = [] ∧ ∀ cb ∈ [titles, siblings], ∀ r ∈ db'.rows cb.model.table, r cb.field = cb.value db' r := by
  refine C24_fields_return (A := app b arr) (project b arr) (onlyFields b arr) (finishes b arr) hp hu (fun m h => by simp [hm] at h) ?_
    (own_settled b arr) (reads_settled b arr) (fieldsAcyclic db) ?_
  · intro cb hcb
    simp only [List.mem_cons, List.not_mem_nil, or_false] at hcb
    rcases hcb with rfl | rfl
    · exact ⟨_, flushable_titles b arr db, h1⟩
    · exact ⟨_, flushable_siblings b arr db, h2⟩
  · intro cb hcb
    simp only [List.mem_cons, List.not_mem_nil, or_false] at hcb
    rcases hcb with rfl | rfl
    · exact ⟨titles.denorm, by simp [decls], by simp [Asked, Names], rfl⟩
    · exact ⟨siblings.denorm, by simp [decls], by simp [Asked, Names], rfl⟩

def frow (id : Int) (titles : String) (n : Int) : Row := row [("id", .int id), ("titles", .text titles), ("post_count", .int n)]
def prow (id forum : Int) (title siblings : String) : Row :=
  row [("id", .int id), ("forum_id", .int forum), ("title", .text title), ("siblings", .text siblings)]

/-- The title of post 2 has just been changed: its forum is marked. -/
def staleDb : Db :=
  ⟨fun t => if t = "forum" then [frow 1 "xy" 2] else if t = "post" then [prow 1 1 "x" "xy", prow 2 1 "z" "xy"] else [], [⟨1, .int 1⟩], 0⟩

/-- Such a database; its instances depend on each other in circles, so `C18_terminates_acyclic` does not apply. -/
example (b : Backend) (arr : List Mark → List Mark) : KeysUnique (app b arr) staleDb ∧ MarksKnown (app b arr) staleDb ∧ KeysOk titles staleDb ∧
    KeysOk siblings staleDb ∧ StaleMarked titles staleDb ∧ StaleMarked siblings staleDb ∧
    ¬ (∀ r ∈ staleDb.rows "forum", r "titles" = titles.value staleDb r) ∧ ¬ Acyclic (app b arr) decls staleDb := by
  refine ⟨?_, ?_, ?_, ?_, ?_, ?_, by decide, ?_⟩
  · unfold KeysUnique; cases b <;> simp only [app] <;> decide
  · unfold MarksKnown; cases b <;> simp only [app] <;> decide
  · unfold KeysOk; decide
  · unfold KeysOk; decide
  · unfold StaleMarked; decide
  · unfold StaleMarked; decide
  · intro h
    have h1 : DependsOn (app b arr) decls staleDb (2, .int 1) (1, .int 1) :=
      .direct (dn := titles.denorm) (om := postOrm) (o := prow 1 1 "x" "xy") (x := frow 1 "xy" 2) (by simp [decls]) (by simp [app])
        (by simp [staleDb, postOrm, post]) (by simp [staleDb, Callback.denorm, Denorm.model, titles, forum])
        (.inl ⟨titlesDep.dep, by simp [Callback.denorm, Denorm.deps, titles], rfl, by decide⟩)
    have h2 : DependsOn (app b arr) decls staleDb (1, .int 1) (2, .int 1) :=
      .direct (dn := siblings.denorm) (om := forumOrm) (o := frow 1 "xy" 2) (x := prow 1 1 "x" "xy") (by simp [decls]) (by simp [app])
        (by simp [staleDb, forumOrm, forum]) (by simp [staleDb, Callback.denorm, Denorm.model, siblings, post])
        (.inl ⟨siblingsDep.dep, by simp [Callback.denorm, Denorm.deps, siblings], rfl, by decide⟩)
    exact h _ (.trans h1 h2)

end Board

/-! ## The hypotheses are met: a CountField, a CacheKeyField and a callback -/

namespace Tally
set_option maxRecDepth 100000
open Demo

def forum : Model :=
  { repr := "<class 'app.Forum'>", appLabel := "app", name := "Forum", table := "forum", pkTable := "forum", pk := "id", ct := 1,
    fields := [fld "id", fld "titles", fld "post_count"] }

def post : Model :=
  { repr := "<class 'app.Post'>", appLabel := "app", name := "Post", table := "post", pkTable := "post", pk := "id", ct := 2,
    fields := [fld "id", postForum, fld "title", fld "key"] }

def titlesDep : DepRead := ⟨⟨forum, post, .backward postForum, []⟩, ["title"]⟩
def titles : Callback := { model := forum, field := "titles", own := [], fn := concatFn, deps := [titlesDep] }
def postCount : AggDenorm := { model := forum, fieldname := "post_count", related := post, fk := postForum, agg := .count }
def decls : List Denorm := [titles.denorm, .aggregate postCount, .cacheKey post "key" []]

def forumOrm : OrmModel := ⟨forum, [⟨"titles", .callback titles⟩, ⟨"post_count", .aggregate⟩]⟩
def postOrm : OrmModel := ⟨post, [⟨"forum_id", .plain⟩, ⟨"title", .plain⟩, ⟨"key", .cacheKey⟩]⟩

def app (b : Backend) : App := ⟨⟨b, installedTriggers b decls, fun _ => 0⟩, [forumOrm, postOrm], fun l => l, fun db _ _ => db.draws, 100⟩

theorem reached (b : Backend) : ∀ om ∈ (app b).models, ∀ t c, Reached (app b).engine om t c → (t, c) = ("forum", "post_count") := by
  intro om hom t c hr
  have : (t, c) ∈ [("forum", "post_count")] := by
    refine reached_within _ ?_ hr
    simp only [app, List.mem_cons, List.not_mem_nil, or_false] at hom
    rcases hom with rfl | rfl <;> cases b <;> simp only [app] <;> decide
  simpa using this

theorem keysSafe (b : Backend) : KeysSafe (app b) where
  kept := by cases b <;> simp only [app] <;> decide
  free := by
    intro om hom om' hom' hr
    have := reached b om' hom' _ _ hr
    clear hr
    simp only [app, List.mem_cons, List.not_mem_nil, or_false] at hom
    rcases hom with rfl | rfl <;> exact absurd this (by decide)

theorem untouched (b : Backend) {t : TableName} {c : Col} (h : (t, c) ≠ ("forum", "titles"))
    (h' : (t, c) ≠ ("post", "key")) (h'' : (t, c) ≠ ("forum", "post_count")) : ¬ Touched (app b) t c := by
  rintro ⟨om, hom, ⟨rfl, hc⟩ | hr⟩
  · simp only [app, List.mem_cons, List.not_mem_nil, or_false] at hom
    rcases hom with rfl | rfl
    · simp [OrmModel.denormCols, forumOrm, Kind.computed] at hc
      subst hc; exact h rfl
    · simp [OrmModel.denormCols, postOrm, Kind.computed] at hc
      subst hc; exact h' rfl
  · exact h'' (reached b om hom _ _ hr)

theorem project (b : Backend) : Project (app b) decls where
  installed := rfl
  agree := by cases b <;> simp only [app] <;> decide
  safe := keysSafe b
  cts := by
    intro om hom om' hom'
    simp only [app, List.mem_cons, List.not_mem_nil, or_false] at hom hom'
    rcases hom with rfl | rfl <;> rcases hom' with rfl | rfl <;> first | (intro; rfl) | (intro h; exact absurd h (by decide))
  tables := by
    intro om hom om' hom'
    simp only [app, List.mem_cons, List.not_mem_nil, or_false] at hom hom'
    rcases hom with rfl | rfl <;> rcases hom' with rfl | rfl <;> first | (intro; rfl) | (intro h; exact absurd h (by decide))
  known := by
    intro dn hdn
    simp only [decls, List.mem_cons, List.not_mem_nil, or_false] at hdn
    rcases hdn with rfl | rfl | rfl
    · exact ⟨forumOrm, by simp [app], rfl⟩
    · exact ⟨forumOrm, by simp [app], rfl⟩
    · exact ⟨postOrm, by simp [app], rfl⟩
  this := by decide
  pkTable := by decide
  others := by cases b <;> simp only [app] <;> decide
  generic := by
    intro dn hdn d hd g
    simp only [decls, List.mem_cons, List.not_mem_nil, or_false] at hdn
    rcases hdn with rfl | rfl | rfl <;> simp only [Callback.denorm, Denorm.deps, titles, List.map_cons, List.map_nil, List.mem_singleton, List.not_mem_nil] at hd
    subst hd
    simp [titlesDep]
  through := by cases b <;> simp only [app] <;> decide
  fixed := by
    intro dn hdn d hd
    simp only [decls, List.mem_cons, List.not_mem_nil, or_false] at hdn
    rcases hdn with rfl | rfl | rfl <;> simp only [Callback.denorm, Denorm.deps, titles, List.map_cons, List.map_nil, List.mem_singleton, List.not_mem_nil] at hd
    subst hd
    simp only [titlesDep, Dep.looks, Dep.ownKeys, List.mem_singleton, forall_eq, List.not_mem_nil, false_implies, implies_true, and_true]
    exact untouched b (by decide) (by decide) (by decide)
  fixedFk := by
    intro a ha
    simp only [decls, Callback.denorm, List.mem_cons, reduceCtorEq, Denorm.aggregate.injEq, List.not_mem_nil, or_false, false_or] at ha
    subst ha
    exact untouched b (by decide) (by decide) (by decide)

theorem names_clear : TableNamesClear decls := by
  have h0 : ∀ g ∈ generated decls, g.table ∈ ["forum", "post"] := by decide
  intro g hg g' hg' n h
  have h3 : ∀ t ∈ ["forum", "post"], ∀ t' ∈ ["forum", "post"], ¬ (t' ++ "_").toList <+: t.toList := by decide
  refine h3 _ (h0 g hg) _ (h0 g' hg') ⟨(toString n).toList, ?_⟩
  rw [← String.toList_append, ← h]

theorem tables_acyclic : TablesAcyclic decls := by
  have h : ∀ t t', Feeds decls t t' → t = "post" ∧ t' = "forum" := by
    intro t t' h
    induction h with
    | @direct dn t hdn ht =>
      simp only [decls, List.mem_cons, List.not_mem_nil, or_false] at hdn
      rcases hdn with rfl | rfl | rfl <;> simp [Denorm.sources, titles, Callback.denorm] at ht
      subst ht
      exact ⟨rfl, rfl⟩
    | trans _ _ h1 h2 => exact absurd (h1.2.symm.trans h2.1) (by decide)
  intro t ht
  obtain ⟨rfl, h2⟩ := h t t ht
  exact absurd h2 (by decide)

/-- Posts lie below forums, whatever the tables hold. -/
theorem acyclic (b : Backend) (db : Db) : Acyclic (app b) decls db := by
  have h : ∀ p q, DependsOn (app b) decls db p q → p.1 = 2 ∧ q.1 = 1 := by
    intro p q h
    induction h with
    | @direct dn om o x h1 h2 h3 h4 h5 =>
      simp only [decls, List.mem_cons, List.not_mem_nil, or_false] at h1
      simp only [app, List.mem_cons, List.not_mem_nil, or_false] at h2
      rcases h5 with ⟨d, hd, ht, _⟩ | ⟨a, ha, ht, _⟩
      · rcases h1 with rfl | rfl | rfl <;> simp only [Callback.denorm, Denorm.deps, titles, List.map_cons, List.map_nil, List.mem_singleton, List.not_mem_nil] at hd
        subst hd
        rcases h2 with rfl | rfl
        · exact absurd ht (by decide)
        · exact ⟨rfl, rfl⟩
      · rcases h1 with rfl | rfl | rfl <;> simp only [Callback.denorm, reduceCtorEq, Denorm.aggregate.injEq] at ha
        subst ha
        rcases h2 with rfl | rfl
        · exact absurd ht (by decide)
        · exact ⟨rfl, rfl⟩
    | trans _ _ h1 h2 => exact absurd (h1.2.symm.trans h2.1) (by decide)
  intro p hp
  obtain ⟨h1, h2⟩ := h p p hp
  exact absurd (h1.symm.trans h2) (by decide)

/-- C18 applies with any content of the tables, on every backend. -/
example (b : Backend) (db : Db) (hu : KeysUnique (app b) db) (hm : MarksKnown (app b) db) :
    ∃ db' N, ∀ n, N ≤ n → ((app b).limit n).flush (((app b).instances db).length + 1) db = .ok (some db') ∧ db'.dirty = [] :=
  C18_returns_tables (A := app b) (project b) tables_acyclic names_clear (fun l => .refl l) hu hm (acyclic b db)

def frow (id : Int) (titles : String) (n : Int) : Row := row [("id", .int id), ("titles", .text titles), ("post_count", .int n)]
def prow (id forum : Int) (title : String) (key : Int) : Row :=
  row [("id", .int id), ("forum_id", .int forum), ("title", .text title), ("key", .int key)]

/-- One such database, with markers for a forum, a post and a post that is gone. -/
example (b : Backend) : KeysUnique (app b) ⟨fun t => if t = "forum" then [frow 1 "" 2] else if t = "post" then [prow 1 1 "x" 5, prow 2 1 "z" 6] else [],
      [⟨1, .int 1⟩, ⟨2, .int 2⟩, ⟨2, .int 9⟩], 0⟩ ∧
    MarksKnown (app b) ⟨fun t => if t = "forum" then [frow 1 "" 2] else if t = "post" then [prow 1 1 "x" 5, prow 2 1 "z" 6] else [],
      [⟨1, .int 1⟩, ⟨2, .int 2⟩, ⟨2, .int 9⟩], 0⟩ := by
  unfold KeysUnique MarksKnown
  cases b <;> simp only [app] <;> decide

end Tally
end Denorm
