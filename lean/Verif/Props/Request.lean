import Verif.Spec.Request
import Verif.Props.Hooks
/-!
# Requests (C72)
-/
namespace Denorm

section
variable {A : App} {D : List Denorm} {om : OrmModel} {cb : Callback} {S : FlushSettings} {r : Request} {db db' : Db}

theorem good_run (hF : ∀ db, Flushable A D om cb db) {ss : List Stmt} (hL : LegalRun A.engine cb A.fuel ss db) (hG : Good A D om cb db)
    (hu : KeysUnique A (A.engine.run A.fuel ss db)) : Good A D om cb (A.engine.run A.fuel ss db) := by
  obtain ⟨hK, hg⟩ := track_run (tracks_of_installed (hF db).installed (hF db).declared) (hF db).noReentry (freshTracked cb) ss db hL hG.keysOk (staleMarked_iff.1 hG.stale)
  exact ⟨hF _, hu, hK, staleMarked_iff.2 hg⟩

theorem good_middleware (ht : ∀ x om row, om.model = cb.model → r.hooks.truth x om row = true) (hF : ∀ db, Flushable A D om cb db) (hL : LegalRequest A S cb r db) (hG : Good A D om cb db) :
    Good A D om cb (A.runMiddleware S r (A.runView r db)).1 ∧
      ((A.runMiddleware S r (A.runView r db)).2 = some .returned → (A.runMiddleware S r (A.runView r db)).1.dirty = []) := by
  have hV : Good A D om cb (A.runView r db) := by
    have hu := hL.viewKeys
    unfold App.runView at hu ⊢
    split
    · exact hG
    · rename_i h
      rw [if_neg h] at hu
      exact good_run hF hL.view hG hu
  unfold App.runMiddleware
  split
  · have := good_flushWith (D := D) (om := om) ht r.passes hV (Prod.ext rfl rfl : A.flushWith r.hooks r.passes (A.runView r db) = (_, _))
    exact ⟨this.1, fun h => this.2 (by simpa using h)⟩
  · exact ⟨hV, fun h => by cases h⟩

theorem good_serve (ht : ∀ x om row, om.model = cb.model → r.hooks.truth x om row = true) (hF : ∀ db, Flushable A D om cb db) (hL : LegalRequest A S cb r db) (hG : Good A D om cb db) :
    Good A D om cb (A.serve S r db).1 ∧
      ((A.serve S r db).2 = some .returned → S.connected = true ∨ r.later = [] → (A.serve S r db).1.dirty = []) := by
  obtain ⟨hM, hd⟩ := good_middleware ht hF hL hG
  have hlater := hL.later
  have hkeys := hL.laterKeys
  unfold App.serve
  split
  · rename_i db2 heq
    rw [heq] at hM
    exact ⟨hM, fun h => by cases h⟩
  · rename_i db2 o hno heq
    rw [heq] at hM hd hlater hkeys
    have hR := good_run hF hlater hM hkeys
    unfold App.requestFinished
    split
    · have := good_flushWith (D := D) (om := om) ht r.passes hR (Prod.ext rfl rfl : A.flushWith r.hooks r.passes _ = (_, _))
      exact ⟨this.1, fun h _ => this.2 (by simpa using h)⟩
    · rename_i hc
      refine ⟨hR, fun h hl => ?_⟩
      rcases hl with hl | hl
      · exact absurd hl hc
      · rw [hl]
        exact hd h

theorem good_serveAll (hF : ∀ db, Flushable A D om cb db) : ∀ (rs : List Request) {db : Db}, (∀ r ∈ rs, ∀ x om row, om.model = cb.model → r.hooks.truth x om row = true) →
    LegalRequests A S cb rs db → Good A D om cb db → Good A D om cb (A.serveAll S rs db)
  | [], _, _, _, hG => hG
  | r :: rs, _, ht, hL, hG =>
    good_serveAll hF rs (fun r hr => ht r (List.mem_cons_of_mem _ hr)) hL.2 (good_serve (ht r (List.mem_cons_self ..)) hF hL.1 hG).1

/-- C72, in any sequence of requests, whatever their statements are, whether they are rolled back, and however their calls of flush() end: every outdated value is marked. -/
theorem C72_nothing_lost_partial (hF : ∀ db, Flushable A D om cb db) {rs : List Request} (ht : ∀ r ∈ rs, ∀ x om row, om.model = cb.model → r.hooks.truth x om row = true)
    (hL : LegalRequests A S cb rs db) (hu : KeysUnique A db) (hK : KeysOk cb db) (hS : StaleMarked cb db) :
    ∀ o ∈ (A.serveAll S rs db).rows cb.model.table, o cb.field = cb.value (A.serveAll S rs db) o ∨ Marked cb.model (A.serveAll S rs db) o := by
  intro o ho
  have := (staleMarked_iff.1 (good_serveAll hF rs ht hL ⟨hF db, hu, hK, hS⟩).stale) o ho
  exact this.symm

/-- C72, at the end of each request of any sequence, if its (last) flush() has returned: every `@denormalized` field that one save makes right (`Flushable`) is right and nothing is marked, with
DENORM_FLUSH_AFTER_REQUEST; with the middleware, if nothing is written after `process_response`. Missing: what is written after it, see `C72_violated_streaming`. -/
theorem C72_after_request_partial (hF : ∀ db, Flushable A D om cb db) {rs : List Request} (ht : ∀ r' ∈ rs ++ [r], ∀ x om row, om.model = cb.model → r'.hooks.truth x om row = true)
    (hL : LegalRequests A S cb rs db) (hLr : LegalRequest A S cb r (A.serveAll S rs db)) (hu : KeysUnique A db) (hK : KeysOk cb db) (hS : StaleMarked cb db)
    (hset : S.flushAfterRequest = some true ∨ r.later = []) (h : A.serve S r (A.serveAll S rs db) = (db', some .returned)) :
    db'.dirty = [] ∧ ∀ o ∈ db'.rows cb.model.table, o cb.field = cb.value db' o := by
  have hG := good_serveAll hF rs (fun r' hr => ht r' (List.mem_append_left _ hr)) hL ⟨hF db, hu, hK, hS⟩
  obtain ⟨hG', hd⟩ := good_serve (ht r (List.mem_append_right _ (List.mem_singleton.2 rfl))) hF hLr hG
  rw [h] at hG' hd
  have hd : db'.dirty = [] := hd rfl (hset.imp (fun h => by simp [FlushSettings.connected, h]) id)
  refine ⟨hd, fun o ho => ?_⟩
  rcases staleMarked_iff.1 hG'.stale o ho with hm | hf
  · simp [Marked, hd] at hm
  · exact hf

/-- C72: a request in a transaction that ends with an exception changes nothing, if nothing was marked before it and it writes nothing outside of the transaction. -/
theorem C72_rolled_back (h1 : r.atomic = true) (h2 : r.raises = true) (h3 : r.later = []) (hd : db.dirty = []) : (A.serve S r db).1 = db := by
  have hv : A.runView r db = db := by simp [App.runView, h1, h2]
  have hf : A.flushWith r.hooks r.passes db = (db, .returned) := by unfold App.flushWith; rw [if_pos hd]
  have hm : (A.runMiddleware S r db).1 = db ∧ (A.runMiddleware S r db).2 ≠ some .running := by
    unfold App.runMiddleware
    split <;> simp [hf]
  unfold App.serve
  rw [hv]
  split
  · rename_i db2 heq
    rw [heq] at hm
    exact hm.1
  · rename_i db2 o hno heq
    rw [heq] at hm
    have := hm.1
    subst this
    rw [h3]
    unfold App.requestFinished Engine.run
    split <;> simp [hf]

/-- C72: with the middleware or with DENORM_FLUSH_AFTER_REQUEST, flush() is called in every request, also in one whose view has raised an exception. -/
theorem C72_called (h : S.middleware = true ∨ S.flushAfterRequest = some true) : ∃ o, (A.serve S r db).2 = some o := by
  unfold App.serve
  split
  · exact ⟨_, rfl⟩
  · rename_i db2 o hno heq
    unfold App.requestFinished
    by_cases hc : S.connected = true
    · rw [if_pos hc]; exact ⟨_, rfl⟩
    · rw [if_neg hc]
      rcases h with h | h
      · have : o = some (A.flushWith r.hooks r.passes (A.runView r db)).2 := by
          unfold App.runMiddleware at heq
          rw [if_pos h] at heq
          exact (Prod.mk.inj heq).2.symm
        exact ⟨_, this⟩
      · exact absurd (by simp [FlushSettings.connected, h]) hc

/-- C72: with neither of them (DENORM_FLUSH_AFTER_REQUEST = False is as good as none) a request does what its statements do, without those of a view that is rolled back, and flush() is not
called. -/
theorem C72_switched_off (h1 : S.middleware = false) (h2 : S.flushAfterRequest ≠ some true) :
    A.serve S r db = (A.engine.run A.fuel ((if r.atomic = true ∧ r.raises = true then [] else r.view) ++ r.later) db, none) := by
  have run_append : ∀ (ss ss' : List Stmt) (db : Db), A.engine.run A.fuel (ss ++ ss') db = A.engine.run A.fuel ss' (A.engine.run A.fuel ss db) := by
    intro ss
    induction ss with
    | nil => intro _ _; rfl
    | cons s ss ih =>
      intro ss' db
      simp only [List.cons_append, Engine.run]
      cases A.engine.exec A.fuel s db <;> exact ih ..
  have hc : S.connected = false := by
    unfold FlushSettings.connected
    cases hs : S.flushAfterRequest with
    | none => rfl
    | some v => cases v with
      | false => rfl
      | true => exact absurd hs h2
  have hm : A.runMiddleware S r (A.runView r db) = (A.runView r db, none) := by simp [App.runMiddleware, h1]
  unfold App.serve
  rw [hm]
  simp only [App.requestFinished, hc, Bool.false_eq_true, if_false, Prod.mk.injEq, and_true, run_append]
  congr 1
  unfold App.runView
  by_cases ha : r.atomic = true ∧ r.raises = true
  · rw [if_pos ha, if_pos (by simp [ha])]; rfl
  · rw [if_neg ha, if_neg (by simpa using ha)]

end

namespace Chain
set_option maxRecDepth 100000

def plain : Hooks := ⟨fun _ _ _ => true, fun _ _ _ => false, fun _ _ _ => false⟩

/-- The view renames the blog. -/
def renameBlog : Stmt := .update "blog" (fun _ => true) fun _ r => r.set "title" (.text "Z")
/-- A view that sets the title to something else. -/
def retitleBlog : Stmt := .update "blog" (fun _ => true) fun _ r => r.set "title" (.text "Y")

def byMiddleware : FlushSettings := ⟨true, none⟩
def bySignal : FlushSettings := ⟨false, some true⟩

/-- A request that renames the blog, and one that does so while its content is streamed. -/
def renames : Request := ⟨[renameBlog], false, false, [], plain, 5⟩
def streams : Request := ⟨[], false, false, [renameBlog], plain, 5⟩

theorem serve_of {A : App} {S : FlushSettings} {r : Request} {db : Db} {P : Db → Prop} {o : Option Outcome} (h : (A.serve S r db).2 = o ∧ P (A.serve S r db).1) :
    ∃ db', A.serve S r db = (db', o) ∧ P db' := ⟨_, Prod.ext rfl h.1, h.2⟩

/-- C72 is violated by the middleware: a streaming response changes the blog's title after `process_response`; when the request has been answered in full the entry's label is wrong. Its flush()
has returned without an error. The setting DENORM_FLUSH_AFTER_REQUEST, which the middleware is to replace, does better (`C72_after_request_partial`). -/
theorem C72_violated_streaming (b : Backend) : ∃ db', (app b).serve byMiddleware streams db = (db', some .returned) ∧ (∀ r ∈ db.rows "entry", label.Fresh db r) ∧
    ∃ r ∈ db'.rows "entry", r "label" ≠ label.value db' r := by
  obtain ⟨db', h, h'⟩ : ∃ db', (app b).serve byMiddleware streams db = (db', some .returned) ∧ ∃ r ∈ db'.rows "entry", r "label" ≠ label.value db' r :=
    serve_of (by cases b <;> decide +kernel)
  exact ⟨db', h, by decide, h'⟩

/-- A request in a transaction that renames the blog and then fails. -/
def fails : Request := ⟨[renameBlog], true, true, [], plain, 5⟩

theorem legal_one (b : Backend) {s : Stmt} (h : s = renameBlog ∨ s = retitleBlog) (db : Db) : LegalRun (engine b) label 100 [s] db := by
  apply legalRun_of_all
  intro s' hs' db
  rw [List.mem_singleton.1 hs']
  rcases h with rfl | rfl <;> exact legal_set (by decide) (by decide)

/-- `C72_nothing_lost_partial`, `C72_after_request_partial`: the hypotheses are met, by the middleware after a request, and by the setting after a request with a streaming response. -/
example (b : Backend) : LegalRequest (app b) byMiddleware label renames db ∧ LegalRequests (app b) bySignal label [fails, renames] db ∧
    LegalRequest (app b) bySignal label { streams with later := [retitleBlog] } ((app b).serveAll bySignal [fails, renames] db) ∧ KeysUnique (app b) db ∧ KeysOk label db ∧ StaleMarked label db ∧
    (∃ db', (app b).serve byMiddleware renames db = (db', some .returned) ∧ (db'.rows "entry").map (fun r => r "label") = [.text "Z"]) ∧
    ∃ db', (app b).serve bySignal { streams with later := [retitleBlog] } ((app b).serveAll bySignal [fails, renames] db) = (db', some .returned) ∧
      (db'.rows "entry").map (fun r => r "label") = [.text "Y"] := by
  refine ⟨⟨legal_one b (.inl rfl) _, ?_, trivial, ?_⟩, ⟨⟨legal_one b (.inl rfl) _, ?_, trivial, ?_⟩, ⟨legal_one b (.inl rfl) _, ?_, trivial, ?_⟩, trivial⟩,
    ⟨trivial, ?_, legal_one b (.inr rfl) _, ?_⟩, ?_, by unfold KeysOk; decide, by unfold StaleMarked; decide, serve_of ?_, serve_of ?_⟩
  all_goals first
    | (unfold KeysUnique; cases b <;> decide +kernel)
    | (cases b <;> decide +kernel)

/-- `C72_called`, `C72_switched_off`: a view that raises without a transaction keeps what it wrote; with the middleware the entry is flushed, without it is not. -/
example (b : Backend) : (((app b).serve byMiddleware { fails with atomic := false } db).1.rows "entry").map (fun r => r "label") = [.text "Z"] := by
  cases b <;> decide +kernel
example (b : Backend) : (app b).serve ⟨false, some false⟩ { fails with atomic := false } db = ((engine b).run 100 [renameBlog] db, none) :=
  C72_switched_off rfl (by decide)

/-- `C72_rolled_back` applies. -/
example (b : Backend) : (∃ r ∈ ((engine b).run 100 fails.view db).rows "blog", r "title" = .text "Z") ∧ ((app b).serve byMiddleware fails db).1 = db :=
  ⟨by cases b <;> decide +kernel, C72_rolled_back rfl rfl rfl rfl⟩

end Chain

end Denorm
