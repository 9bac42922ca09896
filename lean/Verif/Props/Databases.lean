import Verif.Spec.Databases
import Verif.Props.SqlText
import Verif.Props.Flush
import Verif.Props.Rebuild
/-!
# Several databases (C53, C54) and Django versions (C55)
-/
namespace Denorm

/-! ## C53: the triggers are written for the database they are sent to -/

theorem takeWhile_lastDot : ∀ (l m : List Char), '.' ∉ l → (l ++ '.' :: m).takeWhile (fun c => decide (c ≠ '.')) = l
  | [], m, _ => by simp
  | c :: l, m, h => by
    have h1 : c ≠ '.' := fun e => h (e ▸ List.mem_cons_self ..)
    rw [List.cons_append, List.takeWhile_cons, if_pos (by simpa using h1), takeWhile_lastDot l m fun h' => h (List.mem_cons_of_mem _ h')]

theorem afterLastDot_path (p n : String) (h : '.' ∉ n.toList) : afterLastDot (p ++ "." ++ n) = some n := by
  have e : (p ++ "." ++ n).toList = p.toList ++ '.' :: n.toList := by simp
  unfold afterLastDot
  rw [if_pos (by rw [e]; simp), e, List.reverse_append, List.reverse_cons, List.append_assoc, List.singleton_append, takeWhile_lastDot _ _ (by simpa using h),
    List.reverse_reverse, String.ofList_toList]

/-- C53, for an engine anywhere whose module has one of the known names, in the default database: the triggers are written for that kind of database. -/
theorem C53_by_name {cfg : DbConfig} {path name : String} {b : Backend} (hn : (name, b) ∈ engineNames) (he : (cfg defaultAlias).engine = path ++ "." ++ name)
    (hs : (cfg defaultAlias).denormBackend = none) : triggersModule cfg = .ok b := by
  have key : ∀ p ∈ engineNames, '.' ∉ p.1.toList ∧ (match (Except.ok (backendForDbname p.1) : Except LoadErr String) with
      | .error e => .error e
      | .ok n => if n = "denorm.db.sqlite3" then .ok .sqlite else if n = "denorm.db.mysql" then .ok .mysql
        else if n = "denorm.db.postgresql" then .ok .postgresql else .error (.importError n)) = (.ok p.2 : Except LoadErr Backend) := by
    intro p hp
    simp only [engineNames, List.mem_cons, List.not_mem_nil, or_false] at hp
    rcases hp with rfl | rfl | rfl | rfl | rfl <;> exact ⟨by decide, by simp [backendForDbname]⟩
  obtain ⟨h1, h2⟩ := key _ hn
  unfold triggersModule backendName
  rw [hs, he, afterLastDot_path _ _ h1]
  exact h2

/-- C53. If every database of the project is of the same kind, with one of Django's own engines other than SpatiaLite, the triggers are written for the
database they are sent to, whichever it is. -/
theorem C53_same_kind_partial {cfg : DbConfig} {using_ : String} {b : Backend} (hd : (cfg defaultAlias).Is b) (_hu : (cfg using_).Is b)
    (hs : (cfg defaultAlias).denormBackend = none) (hg : (cfg defaultAlias).engine ≠ "django.contrib.gis.db.backends.spatialite") :
    triggersModule cfg = .ok b := by
  unfold DbSettings.Is at hd
  simp only [djangoEngines, List.mem_cons, List.not_mem_nil, or_false, Prod.mk.injEq] at hd
  rcases hd with ⟨h, rfl⟩ | ⟨h, rfl⟩ | ⟨h, rfl⟩ | ⟨h, rfl⟩ | ⟨h, rfl⟩ | ⟨h, rfl⟩ | ⟨h, rfl⟩
  · exact C53_by_name (path := "django.db.backends") (name := "sqlite3") (by simp [engineNames]) (by rw [h]; simp) hs
  · exact C53_by_name (path := "django.db.backends") (name := "mysql") (by simp [engineNames]) (by rw [h]; simp) hs
  · exact C53_by_name (path := "django.db.backends") (name := "postgresql") (by simp [engineNames]) (by rw [h]; simp) hs
  · exact C53_by_name (path := "django.db.backends") (name := "postgresql_psycopg2") (by simp [engineNames]) (by rw [h]; simp) hs
  · exact absurd h hg
  · exact C53_by_name (path := "django.contrib.gis.db.backends") (name := "mysql") (by simp [engineNames]) (by rw [h]; simp) hs
  · exact C53_by_name (path := "django.contrib.gis.db.backends") (name := "postgis") (by simp [engineNames]) (by rw [h]; simp) hs

/-- C53. The setting DENORM_BACKEND of the default database decides, whatever the engine. -/
theorem C53_setting (cfg : DbConfig) (b : Backend) (hs : (cfg defaultAlias).denormBackend =
      some (match b with | .sqlite => "denorm.db.sqlite3" | .mysql => "denorm.db.mysql" | .postgresql => "denorm.db.postgresql")) :
    triggersModule cfg = .ok b := by
  unfold triggersModule backendName
  rw [hs]
  cases b <;> simp

/-- C53 is violated by SpatiaLite, an engine of Django's for sqlite: the library cannot be imported. -/
theorem C53_violated_spatialite (cfg : DbConfig) (he : (cfg defaultAlias).engine = "django.contrib.gis.db.backends.spatialite")
    (hs : (cfg defaultAlias).denormBackend = none) :
    (cfg defaultAlias).Is .sqlite ∧ triggersModule cfg = .error (.importError "denorm.db.spatialite") := by
  refine ⟨by unfold DbSettings.Is; rw [he]; simp [djangoEngines], ?_⟩
  unfold triggersModule backendName
  rw [hs, he]
  have : afterLastDot "django.contrib.gis.db.backends.spatialite" = some "spatialite" :=
    afterLastDot_path "django.contrib.gis.db.backends" "spatialite" (by decide)
  rw [this]
  simp [backendForDbname]

/-- C53 is violated by an engine module that is not in a package: IndexError. -/
theorem C53_violated_toplevel (cfg : DbConfig) (he : '.' ∉ (cfg defaultAlias).engine.toList) (hs : (cfg defaultAlias).denormBackend = none) :
    triggersModule cfg = .error .indexError := by
  unfold triggersModule backendName afterLastDot
  rw [hs, if_neg he]

/-- A project with a default database of one kind and another database of another kind. -/
def twoKinds (engine engine' : String) : DbConfig := fun a => if a = defaultAlias then ⟨engine, none⟩ else ⟨engine', none⟩

def Backend.engineOf : Backend → String
  | .sqlite => "django.db.backends.sqlite3"
  | .mysql => "django.db.backends.mysql"
  | .postgresql => "django.db.backends.postgresql"

set_option maxRecDepth 100000 in
/-- The text that the module for one kind of database writes for the second trigger of a project with one `@denormalized` field. -/
theorem wrong_dialect {b b' : Backend} (h : b ≠ b') :
    ((sentTexts b Texts.hash Texts.draws [Texts.label "entry" []])[1]?).map (fun t => parseTrigger (Texts.dialect b') (lex b' t)) = some none := by
  have hb : (buildTriggerset b [Texts.label "entry" []])[1]? = some ("denorm_after_row_insert_on_entry", Texts.insertTrigger "entry") := by
    cases b <;> decide +kernel
  rw [sentTexts, triggerTexts_get, hb, Option.map_some, Option.map_some, lex_chars, plainC_eq b _ _ (by decide) rfl]
  cases b <;> cases b' <;> first | exact absurd rfl h | decide +kernel

/-- C53 is violated whenever the default database and the database given with `--database` are of different kinds: the triggers are written for the
default database, and the other one cannot read them, although it could read those that its own module writes (C48). -/
theorem C53_violated_other_kind {b b' : Backend} (h : b ≠ b') : ∃ (cfg : DbConfig) (D : List Denorm), (cfg defaultAlias).Is b ∧ (cfg "other").Is b' ∧
    triggersModule cfg = .ok b ∧ (∀ d ∈ D, d.Writable (Texts.dialect b')) ∧
    ∃ t ∈ sentTexts b Texts.hash Texts.draws D, parseTrigger (Texts.dialect b') (lex b' t) = none := by
  have hd : (twoKinds b.engineOf b'.engineOf defaultAlias).Is b := by cases b <;> simp [DbSettings.Is, twoKinds, Backend.engineOf, djangoEngines]
  have hu : (twoKinds b.engineOf b'.engineOf "other").Is b' := by cases b' <;> simp [DbSettings.Is, twoKinds, Backend.engineOf, djangoEngines, defaultAlias]
  refine ⟨twoKinds b.engineOf b'.engineOf, [Texts.label "entry" []], hd, hu, ?_, by cases b' <;> decide +kernel, ?_⟩
  · exact C53_same_kind_partial (using_ := defaultAlias) hd hd rfl (by cases b <;> simp [twoKinds, Backend.engineOf])
  · have := wrong_dialect h
    obtain ⟨t, ht, hr⟩ := Option.map_eq_some_iff.1 this
    exact ⟨t, List.mem_of_getElem? ht, hr⟩

example : (twoKinds "django.contrib.gis.db.backends.postgis" "django.db.backends.postgresql" defaultAlias).Is .postgresql ∧
    (twoKinds "django.contrib.gis.db.backends.postgis" "django.db.backends.postgresql" "other").Is .postgresql := by
  simp [DbSettings.Is, twoKinds, djangoEngines, defaultAlias]

/-! ## C54: flush() and the other databases -/

section
variable {S : Site} {D : List Denorm} {om : OrmModel} {cb : Callback} {dbs dbs' : String → Db} {n : Nat}

/-- C54 for the default database: there flush() leaves nothing stale (under the conditions of C01). -/
theorem C54_default_partial (hF : Flushable (S defaultAlias) D om cb (dbs defaultAlias)) (hu : KeysUnique (S defaultAlias) (dbs defaultAlias))
    (hK : KeysOk cb (dbs defaultAlias)) (hS : StaleMarked cb (dbs defaultAlias)) (h : S.flush n dbs = .ok (some dbs')) :
    (dbs' defaultAlias).dirty = [] ∧ ∀ r ∈ (dbs' defaultAlias).rows cb.model.table, r cb.field = cb.value (dbs' defaultAlias) r := by
  unfold Site.flush at h
  split at h
  · cases h
  · cases h
  · rename_i db hdb
    cases h
    simpa using C01_flush_partial hF hu hK hS hdb

/-- The same for rebuildall(), which needs no markers (under the conditions of C24). -/
theorem C54_rebuild_partial {modelName fieldName : Option String} (hF : Flushable (S defaultAlias) D om cb (dbs defaultAlias))
    (hu : KeysUnique (S defaultAlias) (dbs defaultAlias)) (hK : KeysOk cb (dbs defaultAlias)) {dn : Denorm} (hdn : dn ∈ D) (hask : Asked modelName fieldName dn)
    (hmod : dn.model = cb.model) (h : S.rebuildall D modelName fieldName n dbs = .ok (some dbs')) :
    (dbs' defaultAlias).dirty = [] ∧ ∀ r ∈ (dbs' defaultAlias).rows cb.model.table, r cb.field = cb.value (dbs' defaultAlias) r := by
  unfold Site.rebuildall at h
  split at h
  · cases h
  · cases h
  · rename_i db hdb
    cases h
    simpa using C24_rebuild_partial hF hu hK hdn hask hmod hdb

/-- C54 is violated in every other database: flush() leaves it as it is, with its markers and its outdated values. -/
theorem C54_violated_flush (h : S.flush n dbs = .ok (some dbs')) {a : String} (ha : a ≠ defaultAlias) : dbs' a = dbs a := by
  unfold Site.flush at h
  split at h
  · cases h
  · cases h
  · cases h
    simp [ha]

/-- C54 is violated by rebuildall() in the same way. -/
theorem C54_violated_rebuildall {modelName fieldName : Option String} (h : S.rebuildall D modelName fieldName n dbs = .ok (some dbs')) {a : String}
    (ha : a ≠ defaultAlias) : dbs' a = dbs a := by
  unfold Site.rebuildall at h
  split at h
  · cases h
  · cases h
  · cases h
    simp [ha]

end

namespace Chain
set_option maxRecDepth 100000

def site (b : Backend) : Site := fun _ => app b

/-- C54: the triggers are installed in both databases, the same changes were made in both; after flush() the default database is up to date and the
other one still has a marked, outdated entry. -/
example (b : Backend) : ∃ dbs', (site b).flush 2 (fun _ => staleDb) = .ok (some dbs') ∧ (dbs' defaultAlias).dirty = [] ∧
    (∀ r ∈ (dbs' defaultAlias).rows "entry", label.Fresh (dbs' defaultAlias) r) ∧
    ∃ r ∈ (dbs' "other").rows "entry", ¬ label.Fresh (dbs' "other") r ∧ Marked label.model (dbs' "other") r := by
  obtain ⟨db', h, _⟩ : ∃ db', (app b).flush 2 staleDb = .ok (some db') ∧ True := flush_of (by cases b <;> decide +kernel)
  have hf : (site b).flush 2 (fun _ => staleDb) = .ok (some fun a => if a = defaultAlias then db' else staleDb) := by
    unfold Site.flush site
    simp only [h]
  have h1 := C54_default_partial (S := site b) (dbs := fun _ => staleDb) (flushable_label b _ _) (stale_unique b _) (by unfold KeysOk; decide)
    (by unfold StaleMarked; decide) hf
  have h2 := C54_violated_flush hf (a := "other") (by decide)
  refine ⟨_, hf, h1.1, h1.2, ?_⟩
  rw [h2]
  decide

/-- C54_rebuild_partial: the same with nothing marked. -/
example (b : Backend) : ∃ dbs', (site b).rebuildall decls (some "Entry") none 3 (fun _ => wrongDb) = .ok (some dbs') ∧ wrongDb.dirty = [] ∧
    (∃ r ∈ wrongDb.rows "entry", ¬ label.Fresh wrongDb r) ∧ ∀ r ∈ (dbs' defaultAlias).rows "entry", r "label" = label.value (dbs' defaultAlias) r := by
  obtain ⟨db', h, _⟩ : ∃ db', (app b).rebuildall decls (some "Entry") none 3 wrongDb = .ok (some db') ∧ True := flush_of (by cases b <;> decide +kernel)
  have hf : (site b).rebuildall decls (some "Entry") none 3 (fun _ => wrongDb) = .ok (some fun a => if a = defaultAlias then db' else wrongDb) := by
    unfold Site.rebuildall site
    simp only [h]
  exact ⟨_, hf, rfl, by decide, (C54_rebuild_partial (S := site b) (dbs := fun _ => wrongDb) (flushable_label b _ _) (by unfold KeysUnique; cases b <;> decide) (by unfold KeysOk; decide)
    (dn := label.denorm) (by simp [decls]) ⟨.inr (.inr (.inl rfl)), .inl rfl⟩ rfl hf).2⟩

end Chain

/-! ## C55: Django versions -/

section
variable {A : App} {version : Nat × Nat}

def liftErr : Except OrmErr (Option Db) → Except FlushErr (Option Db)
  | .ok x => .ok x
  | .error e => .error (.orm e)

/-- C55. On PostgreSQL, and everywhere before Django 2.1, flush() does what the other properties say about it. -/
theorem C55_flush_partial (h : A.engine.backend = .postgresql ∨ version.1 < 2 ∨ version.1 = 2 ∧ version.2 < 1) : ∀ (n : Nat) (db : Db),
    A.flushIn version n db = liftErr (A.flush n db) := by
  have hd : distinctOn version A.engine.backend ≠ .notSupportedError := by
    unfold distinctOn
    rcases h with h | h
    · simp [h]
    · split <;> simp [h]
  intro n
  induction n with
  | zero =>
    intro db
    unfold App.flushIn App.flush
    split
    · contradiction
    · split <;> rfl
  | succ n ih =>
    intro db
    unfold App.flushIn App.flush
    split
    · contradiction
    · split
      · rfl
      · simp only
        cases A.pass db with
        | ok db' => exact ih db'
        | error e => rfl

/-- C55 is violated on sqlite and MySQL from Django 2.1 on: flush() always raises, with or without markers, and nothing is flushed. -/
theorem C55_violated (hb : A.engine.backend ≠ .postgresql) (hv : 2 < version.1 ∨ version.1 = 2 ∧ 1 ≤ version.2) (n : Nat) (db : Db) :
    A.flushIn version n db = .error .notSupported := by
  have hd : distinctOn version A.engine.backend = .notSupportedError := by
    unfold distinctOn
    rw [if_neg hb, if_neg (by omega)]
  unfold App.flushIn
  rw [hd]

end

example : (Chain.app .sqlite).engine.backend ≠ .postgresql ∧ (2 < (2, 1).1 ∨ (2, 1).1 = 2 ∧ 1 ≤ (2, 1).2) := by decide

/-- With Django 1.11 a flush on sqlite comes to its end. -/
example : ∃ db', (Chain.app .sqlite).flushIn (1, 11) 2 Chain.staleDb = .ok (some db') ∧ db'.dirty = [] := by
  set_option maxRecDepth 100000 in
  obtain ⟨db', h, h1⟩ : ∃ db', (Chain.app .sqlite).flush 2 Chain.staleDb = .ok (some db') ∧ db'.dirty = [] := flush_of (by decide +kernel)
  exact ⟨db', by rw [C55_flush_partial (.inr (by decide)), h]; rfl, h1⟩

end Denorm
