import Verif.Code.Deploy
import Verif.Lemmas.Run
import Verif.Props.Install
/-!
# Lemmas on deployments
-/
namespace Denorm

section
variable {A A' : App} (he : ∀ s db, A'.engine.exec A'.fuel s db = A.engine.exec A.fuel s db) (hb : A'.engine.backend = A.engine.backend) (hm : A'.models = A.models)
  (ha : A'.arrange = A.arrange) (hr : A'.pyRand = A.pyRand)
include hr in
theorem deploy_preSave_same (m : Model) (db : Db) (add : Bool) (mem : Row) (f : SaveField) : f.preSave A' m db add mem = f.preSave A m db add mem := by
  unfold SaveField.preSave
  cases f.kind <;> simp only [hr]

include hr in
theorem deploy_preSaveAll_same (m : Model) (db : Db) (add : Bool) : ∀ (fs : List SaveField) (mem : Row), preSaveAll A' m db add fs mem = preSaveAll A m db add fs mem
  | [], _ => rfl
  | f :: fs, mem => by
    simp only [preSaveAll, deploy_preSave_same hr]
    cases f.preSave A m db add mem with
    | error e => rfl
    | ok v => exact deploy_preSaveAll_same m db add fs _

include he in
theorem deploy_appExec_same (s : Stmt) (db : Db) : A'.exec s db = A.exec s db := by
  unfold App.exec
  rw [he]

include he hr in
theorem deploy_save_same (om : OrmModel) (mem : Row) (db : Db) : A'.save om mem db = A.save om mem db := by
  unfold App.save
  simp only [deploy_preSaveAll_same hr, deploy_appExec_same he]

include he hm hr in
theorem deploy_flushOne_same (m : Mark) (db : Db) : A'.flushOne m db = A.flushOne m db := by
  unfold App.flushOne App.saveObject App.contentObject
  simp only [hm, deploy_save_same he hr]

include he hm hr in
theorem deploy_flushList_same : ∀ (ms : List Mark) (db : Db), A'.flushList ms db = A.flushList ms db
  | [], _ => rfl
  | m :: ms, db => by
    simp only [App.flushList, deploy_flushOne_same he hm hr]
    cases A.flushOne m db with
    | error e => rfl
    | ok db' => exact deploy_flushList_same ms db'

include he hb hm ha hr in
theorem deploy_flush_same : ∀ (n : Nat) (db : Db), A'.flush n db = A.flush n db
  | 0, db => by unfold App.flush; rfl
  | n + 1, db => by
    unfold App.flush
    have hp : A'.pass db = A.pass db := by
      unfold App.pass App.snapshot
      rw [deploy_flushList_same he hm hr, hb, ha]
    rw [hp]
    split
    · rfl
    · cases A.pass db with
      | error e => rfl
      | ok db' => exact deploy_flush_same n db'
end

/-- Running a history needs the effects of single statements only. -/
theorem deploy_run_same {E E' : Engine} {fuel : Nat} (he : ∀ s db, E'.exec fuel s db = E.exec fuel s db) : ∀ (ss : List Stmt) (db : Db), E'.run fuel ss db = E.run fuel ss db
  | [], _ => rfl
  | s :: ss, db => by
    simp only [Engine.run, he]
    cases E.exec fuel s db with
    | error e => exact deploy_run_same he ss db
    | ok db' => exact deploy_run_same he ss db'

/-- CREATE TRIGGER does not succeed where a trigger of that name is. -/
theorem creates_fail {b : Backend} {hash : String → String} {draws : Nat → String} {fails : Nat → Bool} {t : CatTrigger} : ∀ {ts : TriggerSet} {n m : Nat} {c : Catalog},
    t ∈ c → (∃ x ∈ expectedTriggers b hash draws m ts, t.named b x.name x.table = true) → (runDdl b fails n (installStmts b hash draws m ts) c).2 = false
  | [], n, m, c, _, ⟨x, hx, _⟩ => by simp [expectedTriggers] at hx
  | p :: ts, n, m, c, ht, ⟨x, hx, hn⟩ => by
    simp only [installStmts, runDdl]
    split
    · rfl
    · simp only [Ddl.run]
      split
      · rename_i hs
        split at hs
        · cases hs
        · rfl
      · rename_i c' hs
        split at hs
        · rename_i hok
          cases hs
          refine creates_fail (List.mem_append_left _ ht) ⟨x, ?_, hn⟩
          rcases List.mem_cons.1 hx with rfl | hx
          · exfalso
            have : c.any (fun t' => t'.named b (createdTrigger b hash (draws m) p).name (createdTrigger b hash (draws m) p).table) = true := List.any_eq_true.2 ⟨t, ht, hn⟩
            simp [this] at hok
          · exact hx
        · cases hs

theorem administered_migrate {b : Backend} {s : Server} (h : Administered b s) (tables : List TableName) :
    Administered b (s.set defaultAlias (remake b tables (s defaultAlias))) := by
  refine .others h fun a t ht _ => ?_
  unfold Server.set at ht
  split at ht
  · rename_i ha
    subst ha
    cases b with
    | sqlite => exact (List.mem_filter.1 ht).1
    | postgresql => exact ht
    | mysql => exact ht
  · exact ht

/-- The catalogue says which table a trigger is on. -/
theorem administered_table {b : Backend} {s : Server} (h : Administered b s) : ∀ a, ∀ t ∈ s a, ∀ d, t.body = .denorm d → d.table = t.table := by
  induction h with
  | start h =>
    intro a t ht d hd
    have := h a t ht
    simp [CatTrigger.own, hd] at this
  | others _ h ih => intro a t ht d hd; exact ih a t (h a t ht (by simp [CatTrigger.own, hd])) d hd
  | install hash draws fails u D _ ih =>
    intro a t ht d hd
    rcases transact_mem ht with ht | ht
    · exact ih a t ht d hd
    · obtain ⟨l, h1, h2, _⟩ := run_creates (b := b) (fails := fails) (hash := hash) (draws := draws) (ts := buildTriggerset b D) (n := 0) (m := 0)
      rw [h2] at ht
      rcases List.mem_append.1 ht with ht | ht
      · exact ih u t ht d hd
      · have key : ∀ (ts : TriggerSet) (n : Nat), t ∈ expectedTriggers b hash draws n ts → d.table = t.table := by
          intro ts
          induction ts with
          | nil => intro n h; simp [expectedTriggers] at h
          | cons p ts ih =>
            intro n h
            simp only [expectedTriggers, List.mem_cons] at h
            rcases h with rfl | h
            · simp only [createdTrigger, TriggerBody.denorm.injEq] at hd
              rw [← hd]
              rfl
            · exact ih _ h
        exact key _ _ (h1.subset ht)
  | drop fails u _ ih =>
    intro a t ht d hd
    rcases transact_mem ht with ht | ht
    · exact ih a t ht d hd
    · obtain ⟨q, h1, _⟩ := drop_catalog (b := b) (fails := fails)
      rw [h1] at ht
      exact ih u t (List.mem_filter.1 ht).1 d hd

end Denorm
