import Verif.Lemmas.Install
import Verif.DemoFacts
/-!
# Creating and dropping the triggers (C32, C33)
-/
namespace Denorm

section
variable {b : Backend} {fails : Nat → Bool} {u : String} {s s' s'' : Server} {D : List Denorm} {hash : String → String} {draws : Nat → String}

/-! ## C32: denorm_drop -/

/-- C32, nothing is left: whatever was installed, with whatever declarations, and whatever failed in between, after `drop_triggers()` has
returned there is no trigger of django-denorm in that database. -/
theorem C32_none_left (hs : Administered b s) (h : dropTriggers b fails u s = (s', true)) : ∀ t ∈ s' u, t.own = false := by
  obtain ⟨h1, rfl⟩ := transact_using h
  obtain ⟨q, h2, _, h3⟩ := drop_catalog (b := b) (fails := fails) (c := s u)
  intro t ht
  rw [Server.set_same, h2] at ht
  obtain ⟨ht, hq⟩ := List.mem_filter.1 ht
  cases ho : t.own with
  | false => rfl
  | true => exact absurd (administered_reserved hs u t ht ho) ((h3 h1 t ht).1 hq)

/-- C32, the other triggers: exactly the triggers with a reserved name are removed, and nothing changes in the other databases. What is missing:
triggers of other programs whose names begin with `denorm`; see `C32_violated`. -/
theorem C32_others_kept_partial (h : dropTriggers b fails u s = (s', true)) :
    (∀ t ∈ s u, ¬ Reserved b t.name → t ∈ s' u) ∧ (s' u).Sublist (s u) ∧ (∀ t ∈ s' u, ¬ Reserved b t.name) ∧ ∀ a, a ≠ u → s' a = s a := by
  obtain ⟨h1, rfl⟩ := transact_using h
  obtain ⟨q, h2, h3, h4⟩ := drop_catalog (b := b) (fails := fails) (c := s u)
  rw [Server.set_same, h2]
  refine ⟨fun t ht hr => List.mem_filter.2 ⟨ht, h3 t hr⟩, List.filter_sublist, fun t ht => ?_, fun a ha => Server.set_other s _ ha⟩
  obtain ⟨ht, hq⟩ := List.mem_filter.1 ht
  exact (h4 h1 t ht).1 hq

/-- C32, a drop that fails: other programs' triggers with names that are not reserved are still there. -/
theorem C32_failed_kept (h : dropTriggers b fails u s = (s', false)) : ∀ a, ∀ t ∈ s a, ¬ Reserved b t.name → t ∈ s' a := by
  have h' : s' = (transact b fails u (dropStmts b (s u)) s).1 := by rw [show transact b fails u (dropStmts b (s u)) s = (s', false) from h]
  obtain ⟨q, h2, h3, h4⟩ := drop_catalog (b := b) (fails := fails) (c := s u)
  intro a t ht hr
  have hin : t ∈ s.set u (runDdl b fails 0 (dropStmts b (s u)) (s u)).1 a := by
    simp only [Server.set]
    split
    · rename_i he
      rw [h2]
      exact List.mem_filter.2 ⟨he ▸ ht, h3 t hr⟩
    · exact ht
  rw [h']
  unfold transact
  simp only
  split
  · exact hin
  · split
    · exact hin
    · simp only [Server.set] at hin ⊢
      split
      · rename_i he; rw [← he]; exact ht
      · exact hin

/-! ## C33: denorm_init -/

/-- C33, all or nothing, in the default database of sqlite or PostgreSQL: either every trigger of the set is there afterwards, in addition
to what was there, or `install_triggers()` raises and nothing has changed, whichever statement fails. What is missing: MySQL and other databases of
the project; see `C33_violated_mysql` and `C33_violated_other_database`. -/
theorem C33_all_or_nothing_partial (hb : b ≠ .mysql) :
    installTriggers b hash draws fails defaultAlias D s = (s, false) ∨
    installTriggers b hash draws fails defaultAlias D s =
      (s.set defaultAlias (s defaultAlias ++ expectedTriggers b hash draws 0 (buildTriggerset b D)), true) := by
  obtain ⟨l, h1, h2, h3⟩ := run_creates (b := b) (fails := fails) (hash := hash) (draws := draws) (ts := buildTriggerset b D) (n := 0) (m := 0)
    (c := s defaultAlias)
  unfold installTriggers transact
  simp only
  split
  · rename_i hr
    rw [h2, h3 hr]
    exact .inr rfl
  · refine .inl ?_
    cases b with
    | mysql => exact absurd rfl hb
    | sqlite => simp only [Server.set_set, Server.set_self]
    | postgresql => simp only [Server.set_set, Server.set_self]

/-- C33, the triggers that are created, in every database: when `install_triggers()` returns, all of them and nothing else has been added. -/
theorem C33_installed (h : installTriggers b hash draws fails u D s = (s', true)) :
    s' = s.set u (s u ++ expectedTriggers b hash draws 0 (buildTriggerset b D)) := by
  obtain ⟨h1, h2⟩ := transact_using h
  obtain ⟨l, _, h3, h4⟩ := run_creates (b := b) (fails := fails) (hash := hash) (draws := draws) (ts := buildTriggerset b D) (n := 0) (m := 0) (c := s u)
  rw [h2, h3, h4 h1]

/-- C33, a second time: where the first name is short enough not to be randomised, `install_triggers()` without a drop raises at its first
statement, and changes nothing. What is missing: long names in MySQL; see `C33_violated_mysql_twice`. -/
theorem C33_second_fails_partial {fails2 : Nat → Bool} {draws2 : Nat → String} (h : installTriggers b hash draws fails u D s = (s', true))
    (hne : buildTriggerset b D ≠ []) (hb : b = .mysql → ∀ p ∈ buildTriggerset b D, p.1.length ≤ 50) :
    installTriggers b hash draws2 fails2 u D s' = (s', false) := by
  have h1 := C33_installed h
  cases hts : buildTriggerset b D with
  | nil => exact absurd hts hne
  | cons p ts =>
    rw [hts] at h1 hb
    have hin : createdTrigger b hash (draws 0) p ∈ s' u := by
      rw [h1, Server.set_same]
      exact List.mem_append_right _ (List.mem_cons_self ..)
    have hcl : (createdTrigger b hash (draws 0) p).named b (createdTrigger b hash (draws2 0) p).name (createdTrigger b hash (draws2 0) p).table = true := by
      have : createdTrigger b hash (draws2 0) p = createdTrigger b hash (draws 0) p := by
        cases b with
        | sqlite => rfl
        | postgresql => rfl
        | mysql =>
          have := hb rfl p (List.mem_cons_self ..)
          have hn : ¬ p.1.length > 50 := by omega
          simp only [createdTrigger, createdName, if_neg hn]
      rw [this]
      exact named_self ..
    have hrun : runDdl b fails2 0 (installStmts b hash draws2 0 (p :: ts)) (s' u) = (s' u, false) := by
      simp only [installStmts, runDdl]
      split
      · rfl
      · have : (s' u).any (fun t' => t'.named b (createdTrigger b hash (draws2 0) p).name (createdTrigger b hash (draws2 0) p).table) = true :=
          List.any_eq_true.2 ⟨_, hin, hcl⟩
        simp [Ddl.run, this]
    unfold installTriggers transact
    rw [hts, hrun]
    simp only [Server.set_self, Bool.false_eq_true, if_false]
    cases b <;> simp [Server.set_self]

/-- C33, after a drop: if two databases have the same triggers apart from those with reserved names, then drop and install bring them to the same
state, whatever django-denorm triggers each of them had before. In MySQL the names of the new triggers are random. -/
theorem C33_drop_install {s1 s1' s1'' s2 s2' s2'' : Server} {fails1 fails1' fails2 fails2' : Nat → Bool} {draws2 : Nat → String}
    (hsame : (s1 u).filter (fun t => !dropsName b t.name) = (s2 u).filter (fun t => !dropsName b t.name)) (hd : b ≠ .mysql ∨ draws2 = draws)
    (h1 : dropTriggers b fails1 u s1 = (s1', true)) (h1' : installTriggers b hash draws fails1' u D s1' = (s1'', true))
    (h2 : dropTriggers b fails2 u s2 = (s2', true)) (h2' : installTriggers b hash draws2 fails2' u D s2' = (s2'', true)) :
    s1'' u = s2'' u := by
  have key : ∀ {s s' : Server} {fails : Nat → Bool}, dropTriggers b fails u s = (s', true) →
      s' u = (s u).filter fun t => !dropsName b t.name := by
    intro s s' fails h
    obtain ⟨h1, rfl⟩ := transact_using h
    obtain ⟨q, h2, _, h4⟩ := drop_catalog (b := b) (fails := fails) (c := s u)
    rw [Server.set_same, h2]
    refine List.filter_congr fun t ht => ?_
    have e1 := h4 h1 t ht
    have e2 := dropsName_iff b t.name
    cases hq : q t <;> cases hn : dropsName b t.name <;> simp_all
  rw [C33_installed h1', C33_installed h2', Server.set_same, Server.set_same, key h1, key h2, hsame]
  have : expectedTriggers b hash draws 0 (buildTriggerset b D) = expectedTriggers b hash draws2 0 (buildTriggerset b D) := by
    rcases hd with hb | hd
    · have : ∀ (ts : TriggerSet) (n : Nat), expectedTriggers b hash draws n ts = expectedTriggers b hash draws2 n ts := by
        intro ts
        induction ts with
        | nil => intro n; rfl
        | cons p ts ih =>
          intro n
          simp only [expectedTriggers, ih]
          cases b with
          | mysql => exact absurd rfl hb
          | sqlite => rfl
          | postgresql => rfl
      exact this _ _
    · rw [hd]
  rw [this]

/-- C33, install does succeed: when no statement fails for an outside reason, every UPDATE trigger watches a column, and no two of the new
triggers, or a new one and one that is there, have the same name. -/
theorem C33_succeeds (hf : ∀ n, fails n = false)
    (hw : ∀ t ∈ expectedTriggers b hash draws 0 (buildTriggerset b D), t.wellFormed b = true)
    (hd : (s u ++ expectedTriggers b hash draws 0 (buildTriggerset b D)).Pairwise fun t t' => t.named b t'.name t'.table = false) :
    (installTriggers b hash draws fails u D s).2 = true := by
  have : ∀ (ts : TriggerSet) (n m : Nat) (c : Catalog), (∀ t ∈ expectedTriggers b hash draws m ts, t.wellFormed b = true) →
      (c ++ expectedTriggers b hash draws m ts).Pairwise (fun t t' => t.named b t'.name t'.table = false) →
      (runDdl b fails n (installStmts b hash draws m ts) c).2 = true := by
    intro ts
    induction ts with
    | nil => intro n m c _ _; rfl
    | cons p ts ih =>
      intro n m c hw hd
      simp only [installStmts, runDdl, hf, Bool.false_eq_true, if_false]
      have h1 := hw _ (List.mem_cons_self ..)
      have h2 : c.any (fun t' => t'.named b (createdTrigger b hash (draws m) p).name (createdTrigger b hash (draws m) p).table) = false := by
        rw [Bool.eq_false_iff]
        intro h
        obtain ⟨t', ht', hn⟩ := List.any_eq_true.1 h
        rw [List.pairwise_append] at hd
        have := hd.2.2 t' ht' _ (List.mem_cons_self ..)
        rw [hn] at this
        simp at this
      simp only [Ddl.run, h1, h2, Bool.not_false, Bool.and_self, if_true]
      refine ih (n + 1) (m + 1) _ (fun t ht => hw t (List.mem_cons_of_mem _ ht)) ?_
      simpa [expectedTriggers] using hd
  unfold installTriggers transact
  simp only
  rw [if_pos (this _ _ _ _ hw hd)]

/-- C33, what is installed does what the declarations ask for: after a drop and an install, statements have the effects they have with the
triggers of `installedTriggers`, which the other properties are about, although in PostgreSQL and MySQL long names are shortened. -/
theorem C33_behaviour (hs : Administered b s) (h1 : dropTriggers b fails u s = (s', true)) {fails' : Nat → Bool}
    (h2 : installTriggers b hash draws fails' u D s' = (s'', true)) (rand : Nat → Int) (fuel : Nat) (st : Stmt) (db : Db) :
    ((s'' u).engine b rand).exec fuel st db = Engine.exec ⟨b, installedTriggers b D, rand⟩ fuel st db := by
  have h3 := denormTriggers_none (C32_none_left hs h1)
  have h4 : (s'' u).denormTriggers = Catalog.denormTriggers (expectedTriggers b hash draws 0 (buildTriggerset b D)) := by
    rw [C33_installed h2, Server.set_same, Catalog.denormTriggers, List.filterMap_append]
    simp only [Catalog.denormTriggers] at h3
    rw [h3]
    rfl
  cases b with
  | sqlite => rw [Catalog.engine, h4, expected_sqlite]; rfl
  | mysql =>
    refine exec_forget (E := (s'' u).engine .mysql rand) (E' := ⟨.mysql, installedTriggers .mysql D, rand⟩) (by simp [Catalog.engine]) rfl rfl ?_ ..
    simp only [Catalog.engine, h4, expected_anonymous]
    rfl
  | postgresql =>
    refine exec_forget (E := (s'' u).engine .postgresql rand) (E' := ⟨.postgresql, installedTriggers .postgresql D, rand⟩) (by simp [Catalog.engine]) rfl rfl ?_ ..
    simp only [Catalog.engine, h4, expected_anonymous]
    rfl

end

/-! ## A project with long table names -/

namespace Long
set_option maxRecDepth 100000
open Demo (fld fkf row)

def department : Model :=
  { repr := "<class 'org.Department'>", appLabel := "org", name := "Department", table := "organisation_department",
    pkTable := "organisation_department", pk := "id", ct := 1, fields := [fld "id", fld "name", fld "members"] }

def fk : Field := fkf "department" "<class 'org.Department'>"

def member : Model :=
  { repr := "<class 'org.Member'>", appLabel := "org", name := "Member", table := "organisation_department_membership",
    pkTable := "organisation_department_membership", pk := "id", ct := 2, fields := [fld "id", fk, fld "label"] }

/-- `Department.members`, a CountField, and `Member.label`, which depends on the department. -/
def decls : List Denorm :=
  [ .aggregate { model := department, fieldname := "members", related := member, fk := fk, agg := .count },
    .callback false member "label" [] [⟨member, department, .forward fk, []⟩] ]

/-- A trigger of someone else. -/
def audit : CatTrigger := ⟨"audit_department", "organisation_department", .other "..."⟩

def start : Server := fun a => if a = "default" ∨ a = "archive" then [audit] else []

def hash (s : String) : String := if s.length % 2 = 0 then "00aa" else "11bb"
def draws (n : Nat) : String := if n % 2 = 0 then "AAAAA" else "BBBBB"
def draws2 (n : Nat) : String := if n % 2 = 0 then "CCCCC" else "DDDDD"

def never (_ : Nat) : Bool := false
def second (n : Nat) : Bool := n == 1

/-- After `denorm_init`. -/
def installed (b : Backend) : Server := (installTriggers b hash draws never "default" decls start).1

/-- C33_installed, C33_second_fails_partial: install returns, and there are six new triggers. -/
example (b : Backend) : (installTriggers b hash draws never "default" decls start).2 = true ∧ (installed b "default").length = 7 := by
  cases b <;> decide +kernel
example : buildTriggerset .sqlite decls ≠ [] := by decide +kernel
/-- C32: drop returns, and leaves the other trigger. -/
example (b : Backend) : (dropTriggers b never "default" (installed b)).2 = true ∧
    (dropTriggers b never "default" (installed b)).1 "default" = [audit] := by
  cases b <;> decide +kernel
example (b : Backend) : Administered b (installed b) :=
  .install hash draws never "default" decls (.start fun a t ht => by
    unfold start at ht
    split at ht
    · rw [List.mem_singleton.1 ht]; rfl
    · simp at ht)
/-- C33_succeeds: its hypotheses are met. -/
example (b : Backend) : (∀ t ∈ expectedTriggers b hash draws 0 (buildTriggerset b decls), t.wellFormed b = true) ∧
    (start "default" ++ expectedTriggers b hash draws 0 (buildTriggerset b decls)).Pairwise fun t t' => t.named b t'.name t'.table = false := by
  cases b <;> decide +kernel
/-- Long names are shortened. -/
example : ((installed .postgresql "default").map (·.name)).take 2 = ["audit_department", "denorm_after_row_update_on_organisation_department_mem11bb"]
    := by decide +kernel

/-- Triggers of other programs. -/
def foreign (name : String) : CatTrigger := ⟨name, "organisation_department", .other "..."⟩

/-- `INSERT INTO organisation_department_membership VALUES (1, 1, '')` -/
def hire : Stmt := .insert "organisation_department_membership" [row [("id", .int 1), ("department_id", .int 1), ("label", .text "")]]

def db : Db :=
  ⟨fun t => if t = "organisation_department" then [row [("id", .int 1), ("name", .text "x"), ("members", .int 0)]] else [], [], 0⟩

end Long

set_option maxRecDepth 100000

/-- C32 is violated: a trigger of someone else whose name only begins with `denorm` is dropped too, in sqlite and PostgreSQL because `_` stands for any
character in LIKE, in sqlite also when the case differs, and in MySQL when it begins with `denorm_`. -/
theorem C32_violated :
    dropTriggers .sqlite Long.never "default" (fun _ => [Long.foreign "denormalise_totals", Long.foreign "DENORM2"]) =
      (fun a => if a = "default" then [] else [Long.foreign "denormalise_totals", Long.foreign "DENORM2"], true) ∧
    dropTriggers .postgresql Long.never "default" (fun _ => [Long.foreign "denormalise_totals"]) =
      (fun a => if a = "default" then [] else [Long.foreign "denormalise_totals"], true) ∧
    dropTriggers .mysql Long.never "default" (fun _ => [Long.foreign "denorm_audit"]) =
      (fun a => if a = "default" then [] else [Long.foreign "denorm_audit"], true) := by
  have h : ∀ (b : Backend) (c : Catalog), runDdl b Long.never 0 (dropStmts b c) c = ([], true) →
      dropTriggers b Long.never "default" (fun _ => c) = (fun a => if a = "default" then [] else c, true) := by
    intro b c h
    unfold dropTriggers transact
    simp only [h, if_true]
    rfl
  exact ⟨h _ _ (by decide +kernel), h _ _ (by decide +kernel), h _ _ (by decide +kernel)⟩

/-- C33 is violated in the other databases of a project: `transaction.atomic()` does not name the database, so when the second
statement of `denorm_init --database=archive` fails, the first trigger stays. -/
theorem C33_violated_other_database (b : Backend) (hb : b ≠ .mysql) :
    (installTriggers b Long.hash Long.draws Long.second "archive" Long.decls Long.start).2 = false ∧
    ((installTriggers b Long.hash Long.draws Long.second "archive" Long.decls Long.start).1 "archive").length = 2 ∧
    (Long.start "archive").length = 1 := by
  cases b with
  | mysql => exact absurd rfl hb
  | sqlite => decide +kernel
  | postgresql => decide +kernel

/-- C33 is violated in MySQL: when the second statement fails, the first trigger stays, also in the default database. -/
theorem C33_violated_mysql :
    (installTriggers .mysql Long.hash Long.draws Long.second "default" Long.decls Long.start).2 = false ∧
    ((installTriggers .mysql Long.hash Long.draws Long.second "default" Long.decls Long.start).1 "default").length = 2 := by
  decide +kernel

/-- C33 is violated in MySQL by long names: they end in five random characters, so a second `denorm_init` does not notice that the
trigger is there, and creates it once more. In a project with long names only it even returns; from then on a CountField counts
every row twice. -/
theorem C33_violated_mysql_twice :
    (installTriggers .mysql Long.hash Long.draws2 Long.never "default" (Long.decls.take 1) (Long.installed .mysql)).2 = true ∧
    (∃ db', ((Long.installed .mysql "default").engine .mysql (fun _ => 0)).exec 50 Long.hire Long.db = .ok db' ∧
      (db'.rows "organisation_department").map (fun r => r "members") = [.int 1]) ∧
    ∃ db', (((installTriggers .mysql Long.hash Long.draws2 Long.never "default" (Long.decls.take 1) (Long.installed .mysql)).1
        "default").engine .mysql (fun _ => 0)).exec 50 Long.hire Long.db = .ok db' ∧
      (db'.rows "organisation_department").map (fun r => r "members") = [.int 2] := by
  refine ⟨by decide +kernel, ok_of (by decide +kernel), ok_of (by decide +kernel)⟩

/-- C33: an UPDATE trigger that watches nothing is not valid SQL in sqlite and PostgreSQL, and the install as a whole fails. -/
theorem C33_empty_watch_list (b : Backend) (hb : b ≠ .mysql) {hash : String → String} {draws : Nat → String} {fails : Nat → Bool} {u : String}
    {D : List Denorm} {s : Server} (h : ∃ p ∈ buildTriggerset b D, p.2.event = .update ∧ p.2.fields = []) :
    (installTriggers b hash draws fails u D s).2 = false := by
  have key : ∀ (ts : TriggerSet) (n m : Nat) (c : Catalog), (∃ p ∈ ts, p.2.event = .update ∧ p.2.fields = []) →
      (runDdl b fails n (installStmts b hash draws m ts) c).2 = false := by
    intro ts
    induction ts with
    | nil => intro n m c ⟨p, hp, _⟩; simp at hp
    | cons q ts ih =>
      intro n m c ⟨p, hp, h1, h2⟩
      simp only [installStmts, runDdl]
      split
      · rfl
      · rcases List.mem_cons.1 hp with rfl | hp
        · have : (createdTrigger b hash (draws m) p).wellFormed b = false := by
            simp [CatTrigger.wellFormed, createdTrigger, PyTrigger.compile, h1, h2, hb]
          simp [Ddl.run, this]
        · split
          · rfl
          · exact ih _ _ _ ⟨p, hp, h1, h2⟩
  unfold installTriggers transact
  simp only [key _ 0 0 (s u) h]
  cases b <;> simp

end Denorm
