import Verif.Sql.Run
import Verif.Spec.SqlText
import Verif.Props.CondText
import Verif.Lemmas.Install
import Verif.Lemmas.Finishes
/-!
# A database that runs texts behaves like the engine
-/
namespace Denorm

/-- Two lists of the same length, related element by element. -/
inductive Each {α β : Type _} (R : α → β → Prop) : List α → List β → Prop
  | nil : Each R [] []
  | cons {a b as bs} : R a b → Each R as bs → Each R (a :: as) (b :: bs)

theorem ReadTrigger.Means.runs {b : Backend} {r : ReadTrigger} {tr : DbTrigger} (h : r.Means b tr) (ch : Change) :
    r.Runs ch ↔ tr.fires b ch = true := by
  unfold ReadTrigger.Runs
  cases hc : r.cond with
  | none => exact ⟨fun _ => h.always hc ch, fun _ => trivial⟩
  | some ts =>
    obtain ⟨e, he, hch⟩ := h.cond ts hc
    constructor
    · rintro ⟨e', he', hv⟩
      rw [he'.unique he] at hv
      exact (hch ch).1 hv
    · exact fun hv => ⟨e, he, (hch ch).2 hv⟩

theorem enters_text {b : Backend} {rs : List ReadTrigger} {trs : List DbTrigger} {rand : Nat → Int} {r : ReadTrigger} {tr : DbTrigger}
    (h : r.Means b tr) (fr : Frame) (ch : Change) : (⟨b, rs, rand⟩ : TextDb).enters fr ch r = (⟨b, trs, rand⟩ : Engine).enters fr ch tr := by
  unfold TextDb.enters Engine.enters
  have : ∀ (_ : Decidable (r.Runs ch)), decide (r.Runs ch) = tr.fires b ch := by
    intro _
    rw [Bool.eq_iff_iff, decide_eq_true_eq]
    exact h.runs ch
  rw [this, h.table, h.event, h.name]

theorem fired_text {b : Backend} {rand : Nat → Int} {rs' : List ReadTrigger} {trs' : List DbTrigger} (fr : Frame) (ch : Change) :
    ∀ {rs : List ReadTrigger} {trs : List DbTrigger}, Each (ReadTrigger.Means b) rs trs →
    (rs.filter ((⟨b, rs', rand⟩ : TextDb).enters fr ch)).flatMap (fun r => r.actions.map (Item.act ⟨r.name :: fr.trigs, ch.table :: fr.tables⟩ ch)) =
    (trs.filter ((⟨b, trs', rand⟩ : Engine).enters fr ch)).flatMap fun tr => tr.actions.map (Item.act ⟨tr.name :: fr.trigs, ch.table :: fr.tables⟩ ch)
  | _, _, .nil => rfl
  | r :: rs, tr :: trs, .cons h hs => by
    rw [List.filter_cons, List.filter_cons, enters_text (trs := trs') h fr ch]
    have ih := fired_text (rand := rand) (rs' := rs') (trs' := trs') fr ch hs
    split
    · rw [List.flatMap_cons, List.flatMap_cons, ih, h.actions, h.name]
    · exact ih

theorem step_text {b : Backend} {rs : List ReadTrigger} {trs : List DbTrigger} {rand : Nat → Int} (h : Each (ReadTrigger.Means b) rs trs)
    (it : Item) (db : Db) : (⟨b, rs, rand⟩ : TextDb).step it db = (⟨b, trs, rand⟩ : Engine).step it db := by
  cases it with
  | write fr t ops =>
    have hops : ∀ ops db, applyOps (⟨b, [], rand⟩ : Engine) t ops db = applyOps (⟨b, trs, rand⟩ : Engine) t ops db := by
      intro ops
      induction ops with
      | nil => intro db; rfl
      | cons op ops ih =>
        intro db
        have : applyOp (⟨b, [], rand⟩ : Engine) t op db = applyOp (⟨b, trs, rand⟩ : Engine) t op db := by cases op <;> rfl
        simp only [applyOps, this, ih]
    simp only [TextDb.step, Engine.step, TextDb.plain, hops]
    congr 3
    funext ch
    exact fired_text fr ch h
  | act fr ch a => cases a <;> rfl

theorem drain_text {b : Backend} {rs : List ReadTrigger} {trs : List DbTrigger} {rand : Nat → Int} (h : Each (ReadTrigger.Means b) rs trs) :
    ∀ (n : Nat) (W : List Item) (db : Db), (⟨b, rs, rand⟩ : TextDb).drain n W db = (⟨b, trs, rand⟩ : Engine).drain n W db
  | 0, [], db => rfl
  | 0, _ :: _, db => rfl
  | n + 1, [], db => rfl
  | n + 1, it :: W, db => by
    unfold TextDb.drain Engine.drain
    rw [step_text h]
    cases (⟨b, trs, rand⟩ : Engine).step it db with
    | ok p => exact drain_text h n _ _
    | error e => rfl

/-- Two databases, one of which has read what the other one runs. -/
theorem exec_text {b : Backend} {rs : List ReadTrigger} {trs : List DbTrigger} {rand : Nat → Int} (h : Each (ReadTrigger.Means b) rs trs)
    (fuel : Nat) (s : Stmt) (db : Db) : (⟨b, rs, rand⟩ : TextDb).exec fuel s db = (⟨b, trs, rand⟩ : Engine).exec fuel s db :=
  drain_text h fuel _ db

theorem run_text {X : TextDb} {E : Engine} {fuel : Nat} (h : ∀ s db, X.exec fuel s db = E.exec fuel s db) :
    ∀ (ss : List Stmt) (db : Db), X.run fuel ss db = E.run fuel ss db
  | [], _ => rfl
  | s :: ss, db => by
    unfold TextDb.run Engine.run
    rw [h]
    cases E.exec fuel s db with
    | ok p => exact run_text h ss _
    | error e => exact run_text h ss _

/-- A table without triggers. -/
theorem drain_untouched {X : TextDb} {t : TableName} (h : ∀ r ∈ X.triggers, r.table ≠ t) : ∀ (n : Nat) (W : List Item) (db : Db),
    (∀ it ∈ W, ∃ fr ops, it = .write fr t ops) → X.drain n W db = X.plain.drain n W db
  | 0, [], db, _ => rfl
  | 0, _ :: _, db, _ => rfl
  | n + 1, [], db, _ => rfl
  | n + 1, it :: W, db, hW => by
    obtain ⟨fr, ops, rfl⟩ := hW it (List.mem_cons_self ..)
    have h1 : (applyOps X.plain t ops db).2.flatMap (X.fired fr) = [] := by
      rw [List.flatMap_eq_nil_iff]
      intro ch hch
      have ht := applyOps_table hch
      unfold TextDb.fired
      rw [List.flatMap_eq_nil_iff]
      intro r hr
      obtain ⟨hr1, hr2⟩ := List.mem_filter.1 hr
      simp only [TextDb.enters, Bool.and_eq_true, decide_eq_true_eq] at hr2
      exact absurd (hr2.1.1.1.trans ht) (h r hr1)
    have h2 : (applyOps X.plain t ops db).2.flatMap (X.plain.fired fr) = [] := by
      rw [List.flatMap_eq_nil_iff]
      intro ch _
      rfl
    unfold TextDb.drain Engine.drain
    simp only [TextDb.step, Engine.step, h1, h2, List.nil_append]
    exact drain_untouched h n W _ fun it hit => hW it (List.mem_cons_of_mem _ hit)

theorem exec_untouched {X : TextDb} {t : TableName} (h : ∀ r ∈ X.triggers, r.table ≠ t) (fuel : Nat) {s : Stmt} (hs : s.table = t) {db : Db} :
    X.exec fuel s db = X.plain.exec fuel s db := by
  subst hs
  refine drain_untouched h fuel _ db fun it hit => ?_
  unfold writes at hit
  split at hit
  · exact ⟨_, _, List.mem_singleton.1 hit⟩
  · obtain ⟨op, _, rfl⟩ := List.mem_map.1 hit
    exact ⟨_, _, rfl⟩

/-- Shortened names make no difference. -/
theorem exec_expected {b : Backend} {hash : String → String} {draws : Nat → String} {D : List Denorm} {rand : Nat → Int} (fuel : Nat) (st : Stmt)
    (db : Db) : Engine.exec ⟨b, Catalog.denormTriggers (expectedTriggers b hash draws 0 (buildTriggerset b D)), rand⟩ fuel st db =
      Engine.exec ⟨b, installedTriggers b D, rand⟩ fuel st db := by
  cases b with
  | sqlite => rw [expected_sqlite]; rfl
  | mysql =>
    refine exec_forget (E := ⟨.mysql, Catalog.denormTriggers (expectedTriggers .mysql hash draws 0 (buildTriggerset .mysql D)), rand⟩)
      (E' := ⟨.mysql, installedTriggers .mysql D, rand⟩) (by simp) rfl rfl ?_ fuel st db
    simp only [expected_anonymous]
    rfl
  | postgresql =>
    refine exec_forget (E := ⟨.postgresql, Catalog.denormTriggers (expectedTriggers .postgresql hash draws 0 (buildTriggerset .postgresql D)), rand⟩)
      (E' := ⟨.postgresql, installedTriggers .postgresql D, rand⟩) (by simp) rfl rfl ?_ fuel st db
    simp only [expected_anonymous]
    rfl

theorem mapM_each {α β γ : Type _} {f : α → Option β} {R : β → γ → Prop} : ∀ {as : List α} {cs : List γ}, as.length = cs.length →
    (∀ (i : Nat) a c, as[i]? = some a → cs[i]? = some c → ∃ b, f a = some b ∧ R b c) → ∃ bs, as.mapM f = some bs ∧ Each R bs cs
  | [], [], _, _ => ⟨[], rfl, .nil⟩
  | a :: as, c :: cs, hl, h => by
    obtain ⟨b, h1, h2⟩ := h 0 a c rfl rfl
    obtain ⟨bs, h3, h4⟩ := mapM_each (as := as) (cs := cs) (by simpa using hl) fun i a' c' ha hc => h (i + 1) a' c' ha hc
    exact ⟨b :: bs, by simp [List.mapM_cons, h1, h3], .cons h2 h4⟩

theorem expected_get {b : Backend} {hash : String → String} {draws : Nat → String} : ∀ (ts : TriggerSet) (m i : Nat),
    (Catalog.denormTriggers (expectedTriggers b hash draws m ts))[i]? = ts[i]?.map fun p => p.2.compile (createdName b hash (draws (m + i)) p.1)
  | [], _, _ => by simp [expectedTriggers, Catalog.denormTriggers]
  | p :: ts, m, 0 => by simp [expectedTriggers, Catalog.denormTriggers, createdTrigger]
  | p :: ts, m, i + 1 => by
    have ih := expected_get ts (m + 1) i (hash := hash) (draws := draws) (b := b)
    simp only [Catalog.denormTriggers, expectedTriggers, createdTrigger, List.filterMap_cons] at ih ⊢
    rw [List.getElem?_cons_succ, List.getElem?_cons_succ, ih, Nat.add_assoc, Nat.add_comm 1 i]

theorem expected_length {b : Backend} {hash : String → String} {draws : Nat → String} (ts : TriggerSet) (m : Nat) :
    (Catalog.denormTriggers (expectedTriggers b hash draws m ts)).length = ts.length := by
  induction ts generalizing m with
  | nil => rfl
  | cons p ts ih =>
    have := ih (m + 1)
    simp only [Catalog.denormTriggers, expectedTriggers, createdTrigger, List.filterMap_cons, List.length_cons] at this ⊢
    rw [this]

end Denorm
