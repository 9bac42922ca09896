import Verif.Lemmas.TxnAgg
import Verif.Props.Save
import Verif.Props.Transactions
/-!
# C64: aggregates and transactions

Sessions change data in transactions that overlap in time, and flush() runs in between. The CountFields and SumFields that are committed are right all the time.
-/
namespace Denorm

section
variable {A : App} {S : Schema} {D : List Denorm} {a : AggDenorm} {Z : List (TableName × Col)}

/-- Save()'s UPDATE with the aggregates of the row keeps aggregates right. -/
theorem agg_writesBack (hE : Installed A.engine D) (hD : AggDeclared A.engine.backend D a) (hN : NoReentry A.engine) (hZ : IntClosed A.engine.backend D Z)
    (hmZ : (a.model.table, a.fieldname) ∈ Z) {om : OrmModel} (hP : om.Proper) (hH : om.Holds a) {db db' : Db} (hu : om.Unique db) {mem r : Row}
    (hn : mem om.model.pk ≠ .null) (hr : r ∈ db.rows om.model.table) (hk : r om.model.pk = mem om.model.pk)
    (ha : ∀ f ∈ om.saved, f.kind.isAggregate = true → mem f.col = r f.col) (hi : ∀ c ∈ om.otherCols, (om.model.table, c) ∈ Z → ∃ i, mem c = .int i)
    (hI : Ints Z db) (hok : AggOk a db) (h : A.exec (saveUpdate om mem) db = .ok db') : AggOk a db' ∧ Ints Z db' := by
  have he := exec_ok h
  rw [saveUpdate_eq_only hu hr hk hn ha] at he
  have hL : AggLegal a Z db (updateOnly om.model (mem om.model.pk) om.otherCols mem) := by
    refine ⟨fun x r' hr' c hc => ?_, updateOnly_legal (db := db) (k := mem om.model.pk) hP hH⟩
    simp only
    split
    · rename_i hco
      exact hi c hco hc
    · exact hr' c hc
  exact agg_exec hE hD hN hZ hmZ hL hI hok he

/-- C64 for any aggregate; the theorems below say which statements sessions may execute. -/
theorem aggFine_moves (hE : Installed A.engine D) (hD : AggDeclared A.engine.backend D a) (hN : NoReentry A.engine) (hZ : IntClosed A.engine.backend D Z)
    (hmZ : (a.model.table, a.fieldname) ∈ Z) (hP : ∀ om ∈ A.models, om.Proper ∧ om.Holds a)
    (hc : ∀ om ∈ A.models, ∀ f ∈ om.saved, ∀ cb, f.kind = .callback cb → (om.model.table, f.col) ∈ Z → ∀ own rel, ∃ i, cb.fn own rel = .int i)
    (hS : ∀ om ∈ A.models, S.key om.model.table = om.model.pk) (hSa : S.key a.model.table = a.model.pk) (hm : ∀ t, ¬ Managed A.engine t (S.key t))
    {legal : Db → Stmt → Prop} (hlegal : ∀ s db db', KeysDistinct S db → legal db s → AggOk a db → Ints Z db → A.exec s db = .ok db' → AggOk a db' ∧ Ints Z db') :
    ∀ (μs : List Move) {X : DbServer}, AllOk S (AggFine a Z) X → AggOrderly A S a legal μs X → AllOk S (AggFine a Z) (A.moves S μs X)
  | [], _, hX, _ => hX
  | μ :: μs, X, hX, ho => by
    refine aggFine_moves hE hD hN hZ hmZ hP hc hS hSa hm hlegal μs ?_ ho.2
    have hC := aggFine_closed (Z := Z) hSa
    cases μ with
    | stmt i s =>
      obtain ⟨⟨h1, h2, h3⟩, _⟩ := ho
      refine allOk_stmt hC hX hN hm h2 fun v hv hs => ?_
      obtain ⟨h4, h5⟩ := hlegal s _ v (allOk_sight hC hX i).1 h1 hs.right hs.ints hv
      exact ⟨h4, noOrphans_of (h3 v hv), h5⟩
    | commit i => exact allOk_commit hC hX i
    | rollback i => exact allOk_close hX i
    | flushOne m =>
      refine allOk_flushOne hX hN hm (fun om hom => (hP om hom).1.pk) hS fun db' hf hnow => ?_
      have hR := ho.1 db' hf
      simp only [App.flushOne] at hf
      cases h1 : A.saveObject m X.db with
      | error e => rw [h1] at hf; simp at hf
      | ok db1 =>
        rw [h1] at hf
        simp only [Except.ok.injEq] at hf
        have hrows : db'.rows = db1.rows := by rw [← hf]; rfl
        have key : AggOk a db1 ∧ Ints Z db1 := by
          rcases saveObject_update (S := S) (fun om hom => (hP om hom).1.pk) hS h1 with rfl | ⟨om, hom, r, mem, hr, hn, hp, hs, he, _, _⟩
          · exact ⟨hnow.right, hnow.ints⟩
          · have hu : om.Unique X.db := by
              have := hX.keys om.model.table
              rw [hS om hom] at this
              exact this
            have hmem : r ∈ X.db.rows om.model.table := List.mem_of_find?_eq_some hr
            have hpk := preSaveAll_pk (hP om hom).1 hp
            refine agg_writesBack hE hD hN hZ hmZ (hP om hom).1 (hP om hom).2 hu (by rw [hpk]; exact hn) hmem hpk.symm
              (C13_save (hP om hom).1 hu hn hmem rfl hs).1 ?_ hnow.ints hnow.right he
            intro c hco hcZ
            obtain ⟨f, hf, rfl, hagg⟩ := mem_otherCols.1 hco
            cases hkind : f.kind with
            | plain =>
              have : mem f.col = r f.col := by
                refine preSaveAll_plain hr hp rfl (fun g hg e => (hP om hom).1.pk (List.mem_map.2 ⟨g, hg, e⟩)) f.col ?_ rfl
                intro g hg hgc e
                have : g = f := col_inj (hP om hom).1.cols hg hf e
                subst this
                simp [hkind, Kind.computed] at hgc
              rw [this]
              exact hnow.ints _ r hmem _ hcZ
            | callback cb =>
              obtain ⟨mid, _, h2⟩ := preSaveAll_at hp (hP om hom).1.cols (hP om hom).1.pk f hf
              simp only [SaveField.preSave, hkind, Except.ok.injEq] at h2
              rw [← h2]
              exact hc om hom f hf cb hkind hcZ _ _
            | aggregate => simp [hkind, Kind.isAggregate] at hagg
            | cacheKey =>
              obtain ⟨mid, _, h2⟩ := preSaveAll_at hp (hP om hom).1.cols (hP om hom).1.pk f hf
              simp only [SaveField.preSave, hkind, Except.ok.injEq] at h2
              exact ⟨_, h2.symm⟩
        refine ⟨?_, noOrphans_of hR, ?_⟩
        · have := key.1
          unfold AggOk AggDenorm.total at this ⊢
          rw [hrows]
          exact this
        · unfold Ints
          rw [hrows]
          exact key.2

theorem fine_sights (hSa : S.key a.model.table = a.model.pk) {X : DbServer} (h : AllOk S (AggFine a Z) X) : AggOk a X.db ∧ ∀ i, AggOk a (X.sight S i).1 :=
  ⟨h.now.right, fun i => (allOk_sight (aggFine_closed hSa) h i).2.1.right⟩

/-- C64 (partial), CountField with any `filter=` and `exclude=`. Whatever sessions do in transactions, with flush() in between: the count of every committed instance is the
number of committed rows it counts, and what a session sees within its transaction is right, too. The foreign key constraint is needed (`Demo.C64_violated_unconstrained`),
and a save() has to write back the count that is in the row (`Demo.C64_violated_save`). -/
theorem C64_count_partial (hE : Installed A.engine D) (hD : AggDeclared A.engine.backend D a) (hN : NoReentry A.engine) (hcount : a.agg = .count)
    (hP : ∀ om ∈ A.models, om.Proper ∧ om.Holds a) (hS : ∀ om ∈ A.models, S.key om.model.table = om.model.pk) (hSa : S.key a.model.table = a.model.pk)
    (hm : ∀ t, ¬ Managed A.engine t (S.key t)) {db : Db} {n : Nat} {μs : List Move} (hU : KeysDistinct S db) (hok : AggOk a db) (hR : Refers a db)
    (ho : AggOrderly A S a (fun db s => CountLegal a db s ∨ WritesBack A [] db s) μs ⟨db, List.replicate n none⟩) :
    AggOk a (A.moves S μs ⟨db, List.replicate n none⟩).db ∧ ∀ i, AggOk a ((A.moves S μs ⟨db, List.replicate n none⟩).sight S i).1 := by
  have hone : ∀ om ∈ A.models, ∀ f ∈ om.saved, (om.model.table, f.col) ∈ [(a.model.table, a.fieldname)] → f.kind.isAggregate = true := by
    intro om hom f hf h
    simp only [List.mem_singleton, Prod.mk.injEq] at h
    obtain ⟨_, g, hg, hgc, hga⟩ := (hP om hom).2 h.1
    rw [col_inj (hP om hom).1.cols hf hg (h.2.trans hgc.symm)]
    exact hga
  refine fine_sights hSa (aggFine_moves hE hD hN (count_closed hD hcount) (by simp) hP ?_ hS hSa hm ?_ μs (allOk_start hU ⟨hok, noOrphans_of hR, aggOk_ints hok⟩) ho)
  · intro om hom f hf cb hkind h
    have := hone om hom f hf h
    rw [hkind] at this
    simp [Kind.isAggregate] at this
  · intro s db db' hu hl hok hi he
    rcases hl with hl | ⟨om, hom, mem, rfl, hn, _, r, hr, hk, hag⟩
    · exact agg_exec hE hD hN (count_closed hD hcount) (by simp) (countLegal_agg hl) hi hok (exec_ok he)
    · refine agg_writesBack hE hD hN (count_closed hD hcount) (by simp) (hP om hom).1 (hP om hom).2 ?_ hn hr hk hag ?_ hi hok he
      · have := hu om.model.table
        rw [hS om hom] at this
        exact this
      · intro c hc hcZ
        obtain ⟨f, hf, rfl, hagg⟩ := mem_otherCols.1 hc
        rw [hone om hom f hf hcZ] at hagg
        simp at hagg

/-- C64 (partial), CountField or SumField, where the summed columns `Z` hold integers (C12): what sessions write there, and what callbacks return
if it is a `@denormalized` field that is summed. -/
theorem C64_sum_partial (hE : Installed A.engine D) (hD : AggDeclared A.engine.backend D a) (hN : NoReentry A.engine) (hZ : IntClosed A.engine.backend D Z)
    (hmZ : (a.model.table, a.fieldname) ∈ Z) (hP : ∀ om ∈ A.models, om.Proper ∧ om.Holds a)
    (hc : ∀ om ∈ A.models, ∀ f ∈ om.saved, ∀ cb, f.kind = .callback cb → (om.model.table, f.col) ∈ Z → ∀ own rel, ∃ i, cb.fn own rel = .int i)
    (hS : ∀ om ∈ A.models, S.key om.model.table = om.model.pk) (hSa : S.key a.model.table = a.model.pk) (hm : ∀ t, ¬ Managed A.engine t (S.key t))
    {db : Db} {n : Nat} {μs : List Move} (hU : KeysDistinct S db) (hok : AggOk a db) (hR : Refers a db) (hI : Ints Z db)
    (ho : AggOrderly A S a (fun db s => AggLegal a Z db s ∨ WritesBack A Z db s) μs ⟨db, List.replicate n none⟩) :
    AggOk a (A.moves S μs ⟨db, List.replicate n none⟩).db ∧ ∀ i, AggOk a ((A.moves S μs ⟨db, List.replicate n none⟩).sight S i).1 := by
  refine fine_sights hSa (aggFine_moves hE hD hN hZ hmZ hP hc hS hSa hm ?_ μs (allOk_start hU ⟨hok, noOrphans_of hR, hI⟩) ho)
  intro s db db' hu hl hok hi he
  rcases hl with hl | ⟨om, hom, mem, rfl, hn, him, r, hr, hk, hag⟩
  · exact agg_exec hE hD hN hZ hmZ hl hi hok (exec_ok he)
  · refine agg_writesBack hE hD hN hZ hmZ (hP om hom).1 (hP om hom).2 ?_ hn hr hk hag (fun c _ hcZ => him c hcZ) hi hok he
    have := hu om.model.table
    rw [hS om hom] at this
    exact this

end

namespace Demo
set_option maxRecDepth 100000

/-- The tables' primary keys, without constraints. -/
def schema : Schema := ⟨fun _ => "id", fun _ => []⟩

theorem models_id (b : Backend) : ∀ om ∈ (app b).models, schema.key om.model.table = om.model.pk := by
  intro om hom
  simp only [app, List.mem_cons, List.not_mem_nil, or_false] at hom
  rcases hom with rfl | rfl | rfl | rfl <;> rfl

theorem models_hold (b : Backend) : ∀ om ∈ (app b).models, om.Proper ∧ om.Holds postCount := by
  intro om hom
  simp only [app, List.mem_cons, List.not_mem_nil, or_false] at hom
  rcases hom with rfl | rfl | rfl | rfl
  · exact ⟨forumProper, forumHolds⟩
  · exact ⟨⟨by decide, by decide⟩, postHolds⟩
  · exact ⟨⟨by decide, by decide⟩, fun h => absurd h (by decide)⟩
  · exact ⟨⟨by decide, by decide⟩, fun h => absurd h (by decide)⟩

theorem ids_unmanaged (b : Backend) (t : TableName) : ¬ Managed (app b).engine t (schema.key t) := by
  intro h
  obtain ⟨dn, hdn, hw⟩ := managed_writes (installed b) h
  revert hw
  simp only [decls, List.mem_cons, List.not_mem_nil, or_false] at hdn
  rcases hdn with rfl | rfl | rfl | rfl | rfl <;> simp [Denorm.writes, Callback.denorm, postCount, schema]

theorem distinct_ids : KeysDistinct schema db := by
  intro t
  simp only [schema, db]
  repeat' split
  all_goals decide

/-- A new post in a forum. -/
def enterPost (id forum : Int) (title : String) : Stmt := .insert "post" [prow id forum title "" 0]
/-- Delete a post. -/
def removePost (id : Int) : Stmt := .delete "post" fun r => decide (r "id" = .int id)
/-- Move a post to another forum. -/
def shiftPost (id forum : Int) : Stmt := .update "post" (fun r => decide (r "id" = .int id)) fun _ r => r.set "forum_id" (.int forum)
/-- Save a forum with a new title. -/
def saveForum (id : Int) (title : String) (n : Int) : Stmt := saveUpdate forumOrm (frow id title "" "" n)

abbrev ForumLegal (b : Backend) (db : Db) (s : Stmt) : Prop := CountLegal postCount db s ∨ WritesBack (app b) [] db s

/-- Three sessions. The second one has to wait when it wants to count a post in a forum that the first one has written to; the third one is rolled back; flush() saves forums
in between. -/
def crowded : List Move :=
  [.stmt 0 (enterPost 3 1 "z"), .stmt 1 (shiftPost 2 2), .stmt 2 (enterPost 5 2 "v"), .commit 0, .stmt 1 (shiftPost 2 2), .flushOne ⟨1, .int 1⟩, .commit 1, .rollback 2,
    .stmt 1 (shiftPost 2 2), .stmt 1 (saveForum 2 "C" 1), .commit 1, .stmt 0 (removePost 1), .flushOne ⟨1, .int 2⟩, .commit 0, .flushOne ⟨1, .int 1⟩]

/-- The constraint holds in the result, if there is one. -/
def refersIn (x : Except OrmErr Db) : Bool :=
  match x with
  | .ok v => decide (Refers postCount v)
  | .error _ => true

theorem refers_ok {x : Except OrmErr Db} (h : refersIn x = true) : ∀ v, x = .ok v → Refers postCount v := by
  rintro v rfl
  simpa [refersIn] using h

section
variable {b : Backend} {X : DbServer} {i : Nat} {μs : List Move}

theorem orderly_enterPost {id forum : Int} {title : String} (h1 : (((X.sight schema i).1.rows "post" ++ [prow id forum title "" 0]).map fun r => r "id").Nodup)
    (h2 : refersIn ((app b).exec (enterPost id forum title) (X.sight schema i).1) = true)
    (h : AggOrderly (app b) schema postCount (ForumLegal b) μs ((app b).move schema X (.stmt i (enterPost id forum title)))) :
    AggOrderly (app b) schema postCount (ForumLegal b) (.stmt i (enterPost id forum title) :: μs) X :=
  ⟨⟨.inl fun e => absurd e (by decide), h1, refers_ok h2⟩, h⟩

theorem orderly_removePost {id : Int} (h2 : refersIn ((app b).exec (removePost id) (X.sight schema i).1) = true)
    (h : AggOrderly (app b) schema postCount (ForumLegal b) μs ((app b).move schema X (.stmt i (removePost id)))) :
    AggOrderly (app b) schema postCount (ForumLegal b) (.stmt i (removePost id) :: μs) X :=
  ⟨⟨.inl trivial, trivial, refers_ok h2⟩, h⟩

theorem orderly_shiftPost {id forum : Int} (h2 : refersIn ((app b).exec (shiftPost id forum) (X.sight schema i).1) = true)
    (h : AggOrderly (app b) schema postCount (ForumLegal b) μs ((app b).move schema X (.stmt i (shiftPost id forum)))) :
    AggOrderly (app b) schema postCount (ForumLegal b) (.stmt i (shiftPost id forum) :: μs) X := by
  refine ⟨⟨.inl fun e => absurd e (by decide), fun x r => ?_, refers_ok h2⟩, h⟩
  simp [schema, Row.set]

theorem orderly_saveForum {id : Int} {title : String} {n : Int}
    (h1 : ∃ r ∈ (X.sight schema i).1.rows "forum", r "id" = .int id ∧ ∀ f ∈ forumOrm.saved, f.kind.isAggregate = true → frow id title "" "" n f.col = r f.col)
    (h2 : refersIn ((app b).exec (saveForum id title n) (X.sight schema i).1) = true)
    (h : AggOrderly (app b) schema postCount (ForumLegal b) μs ((app b).move schema X (.stmt i (saveForum id title n)))) :
    AggOrderly (app b) schema postCount (ForumLegal b) (.stmt i (saveForum id title n) :: μs) X := by
  refine ⟨⟨.inr ⟨forumOrm, by simp [app], frow id title "" "" n, rfl, ?_, by simp [IntRow], h1⟩, fun x r => ?_, refers_ok h2⟩, h⟩
  · simp [forumOrm, forum, frow, row]
  · exact if_neg (by decide)

theorem orderly_flushForum {m : Mark} (h2 : refersIn ((app b).flushOne m X.db) = true)
    (h : AggOrderly (app b) schema postCount (ForumLegal b) μs ((app b).move schema X (.flushOne m))) :
    AggOrderly (app b) schema postCount (ForumLegal b) (.flushOne m :: μs) X :=
  ⟨refers_ok h2, h⟩

end

theorem orderly_crowded (b : Backend) : AggOrderly (app b) schema postCount (ForumLegal b) crowded ⟨db, List.replicate 3 none⟩ := by
  refine orderly_enterPost ?_ ?_ (orderly_shiftPost ?_ (orderly_enterPost ?_ ?_ ⟨trivial, orderly_shiftPost ?_ (orderly_flushForum ?_ ⟨trivial, trivial,
    orderly_shiftPost ?_ (orderly_saveForum ?_ ?_ ⟨trivial, orderly_removePost ?_ (orderly_flushForum ?_ ⟨trivial, orderly_flushForum ?_ trivial⟩)⟩)⟩)⟩))
  all_goals cases b <;> decide +kernel

/-- C64 applies to that schedule, on each database; and what it does. -/
example (b : Backend) : AggOk postCount ((app b).moves schema crowded ⟨db, List.replicate 3 none⟩).db ∧
    (((app b).moves schema crowded ⟨db, List.replicate 3 none⟩).db.rows "forum").map (fun r => (r "title", r "post_count")) =
      [(.text "A", .int 1), (.text "C", .int 1)] :=
  ⟨(C64_count_partial (installed b) (ad_postCount b) (noReentry b) rfl (models_hold b) (models_id b) rfl (ids_unmanaged b) distinct_ids (by decide) (by decide)
    (orderly_crowded b)).1, by cases b <;> decide +kernel⟩

/-- One session creates a forum, another one a post in it; neither sees what the other one has not committed. -/
def unseenForum : List Move :=
  [.stmt 0 (.insert "forum" [frow 3 "N" "" "" 0]), .stmt 1 (enterPost 3 3 "z"), .commit 0, .commit 1]

/-- C64 refuted without the foreign key constraint (`db_constraint=False`, or MySQL's MyISAM tables), on databases with several writers. -/
theorem C64_violated_unconstrained (b : Backend) (hb : b ≠ .sqlite) :
    AggOk postCount db ∧ Refers postCount db ∧
    (∀ i ∈ [0, 1, 2, 3], ∀ j s, unseenForum[i]? = some (.stmt j s) →
      CountLegal postCount (((app b).moves schema (unseenForum.take i) ⟨db, List.replicate 2 none⟩).sight schema j).1 s ∧
      KeepsKeys schema (((app b).moves schema (unseenForum.take i) ⟨db, List.replicate 2 none⟩).sight schema j).1 s) ∧
    ¬ AggOk postCount ((app b).moves schema unseenForum ⟨db, List.replicate 2 none⟩).db := by
  refine ⟨by decide, by decide, ?_, ?_⟩
  · intro i hi j s hs
    simp only [List.mem_cons, List.not_mem_nil, or_false] at hi
    rcases hi with rfl | rfl | rfl | rfl
    · simp only [unseenForum, List.getElem?_cons_zero, Option.some.injEq, Move.stmt.injEq] at hs
      obtain ⟨rfl, rfl⟩ := hs
      refine ⟨fun _ => ⟨?_, fun h => absurd h (by decide)⟩, ?_⟩
      · show ∀ r ∈ _, _ ∧ ∀ o ∈ db.rows _, _
        decide
      · show ((db.rows "forum" ++ _).map _).Nodup
        decide
    · simp only [unseenForum, List.getElem?_cons_succ, List.getElem?_cons_zero, Option.some.injEq, Move.stmt.injEq] at hs
      obtain ⟨rfl, rfl⟩ := hs
      refine ⟨fun h => absurd h (by decide), ?_⟩
      show (List.map (fun r => r "id") ((((app b).moves schema (unseenForum.take 1) ⟨db, List.replicate 2 none⟩).sight schema 1).1.rows "post" ++ _)).Nodup
      cases b <;> decide +kernel
    · simp [unseenForum] at hs
    · simp [unseenForum] at hs
  · cases b
    · exact absurd rfl hb
    · decide +kernel
    · decide +kernel

/-- One session loads a forum and changes its title. Before it saves, another one creates a post in the forum. -/
def lateSave : List Move := [.stmt 1 (enterPost 3 2 "z"), .commit 1, .stmt 0 (saveForum 2 "C" 0), .commit 0]

/-- C64 refuted for save(), on each database: `pre_save()` reads the count with a query of its own, which takes no lock; another session's post is counted before the
UPDATE of save() writes the count back that was read. -/
theorem C64_violated_save (b : Backend) : AggOk postCount db ∧ Refers postCount db ∧ WritesBack (app b) [] db (saveForum 2 "C" 0) ∧
    CountLegal postCount db (enterPost 3 2 "z") ∧ ¬ AggOk postCount ((app b).moves schema lateSave ⟨db, List.replicate 2 none⟩).db := by
  refine ⟨by decide, by decide, ⟨forumOrm, by simp [app], frow 2 "C" "" "" 0, rfl, by decide, by simp [IntRow], ?_⟩, fun e => absurd e (by decide), ?_⟩
  · show ∃ r ∈ db.rows "forum", r "id" = .int 2 ∧ ∀ f ∈ forumOrm.saved, f.kind.isAggregate = true → frow 2 "C" "" "" 0 f.col = r f.col
    decide
  · cases b <;> decide +kernel

end Demo

namespace Team
set_option maxRecDepth 100000

def ints : List (TableName × Col) := [("team", "total"), ("player", "score")]

theorem ad_total (b : Backend) : AggDeclared b decls total where
  declared := by simp [decls]
  covered := fun g hg => covered_of_agree (agree b) (List.mem_flatMap.2 ⟨.aggregate total, by simp [decls], hg⟩)
  only := by simp [decls, Denorm.writes, Callback.denorm]
  pk := by simp [decls, Denorm.writes, Callback.denorm, total, team]
  fk := by simp [decls, Denorm.writes, Callback.denorm, total, team, player]
  watched := by decide
  fkcol := rfl
  conds := by simp [total]

theorem closed_ints (b : Backend) : IntClosed b decls ints := by
  intro a ha _
  simp only [decls, List.mem_cons, List.not_mem_nil, or_false, Denorm.aggregate.injEq, Callback.denorm, reduceCtorEq] at ha
  subst ha
  refine ⟨(ad_total b).covered, fun f hf => ?_⟩
  simp only [total, Agg.sum.injEq] at hf
  subst hf
  decide

theorem models_hold (b : Backend) : ∀ om ∈ (app b).models, om.Proper ∧ om.Holds total := by
  intro om hom
  simp only [app, List.mem_cons, List.not_mem_nil, or_false] at hom
  rcases hom with rfl | rfl
  · exact ⟨⟨by decide, by decide⟩, fun _ => ⟨rfl, ⟨"total", .aggregate⟩, by simp [teamOrm], rfl, rfl⟩⟩
  · exact ⟨⟨by decide, by decide⟩, fun h => absurd h (by decide)⟩

theorem models_id (b : Backend) : ∀ om ∈ (app b).models, Demo.schema.key om.model.table = om.model.pk := by
  intro om hom
  simp only [app, List.mem_cons, List.not_mem_nil, or_false] at hom
  rcases hom with rfl | rfl <;> rfl

theorem callbacks_ints (b : Backend) : ∀ om ∈ (app b).models, ∀ f ∈ om.saved, ∀ cb, f.kind = .callback cb → (om.model.table, f.col) ∈ ints →
    ∀ own rel, ∃ i, cb.fn own rel = .int i := by
  intro om hom f hf cb hk hZ own rel
  simp only [app, List.mem_cons, List.not_mem_nil, or_false] at hom
  rcases hom with rfl | rfl
  · simp only [teamOrm, List.mem_singleton] at hf
    subst hf
    simp at hk
  · simp only [playerOrm, List.mem_cons, List.not_mem_nil, or_false] at hf
    rcases hf with rfl | rfl | rfl | rfl
    · simp at hk
    · simp at hk
    · simp only [Kind.callback.injEq] at hk
      subst hk
      simp only [score, scoreFn]
      split <;> exact ⟨_, rfl⟩
    · exact absurd hZ (by decide)

theorem ids_unmanaged (b : Backend) (t : TableName) : ¬ Managed (app b).engine t (Demo.schema.key t) := by
  intro h
  obtain ⟨dn, hdn, hw⟩ := managed_writes (D := decls) (E := engine b) rfl h
  revert hw
  simp only [decls, List.mem_cons, List.not_mem_nil, or_false] at hdn
  rcases hdn with rfl | rfl | rfl <;> simp [Denorm.writes, Callback.denorm, total, Demo.schema]

/-- flush() is about to correct a player's score, which changes the team's total; one session enters another player, another one deletes that player and rolls back. -/
def season : List Move :=
  [.stmt 0 (.insert "player" [prow 2 1 3 6 0]), .flushOne ⟨42, .int 1⟩, .commit 0, .flushOne ⟨42, .int 1⟩, .stmt 1 (.delete "player" fun r => decide (r "id" = .int 2)), .rollback 1]

def refersIn (x : Except OrmErr Db) : Bool :=
  match x with
  | .ok v => decide (Refers total v)
  | .error _ => true

theorem refers_ok {x : Except OrmErr Db} (h : refersIn x = true) : ∀ v, x = .ok v → Refers total v := by
  rintro v rfl
  simpa [refersIn] using h

theorem orderly_season (b : Backend) :
    AggOrderly (app b) Demo.schema total (fun db s => AggLegal total ints db s ∨ WritesBack (app b) ints db s) season ⟨db, List.replicate 2 none⟩ := by
  refine ⟨⟨.inl ⟨?_, fun e => absurd e (by decide)⟩, ?_, refers_ok ?_⟩, refers_ok ?_, trivial, refers_ok ?_, ⟨.inl trivial, trivial, refers_ok ?_⟩, trivial, trivial⟩
  · intro r hr c hc
    simp only [List.mem_singleton] at hr
    subst hr
    simp only [ints, List.mem_cons, Prod.mk.injEq, List.not_mem_nil, or_false] at hc
    rcases hc with ⟨h, _⟩ | ⟨_, rfl⟩
    · exact absurd h (by decide)
    · exact ⟨6, rfl⟩
  · show ((db.rows "player" ++ _).map _).Nodup
    decide
  all_goals cases b <;> decide +kernel

/-- C64 applies to that schedule; the first attempt of flush() has to wait for the first session (sqlite: for any session). -/
example (b : Backend) : AggOk total ((app b).moves Demo.schema season ⟨db, List.replicate 2 none⟩).db ∧
    (((app b).moves Demo.schema season ⟨db, List.replicate 2 none⟩).db.rows "team").map (fun r => r "total") = [.int 16] := by
  refine ⟨(C64_sum_partial (A := app b) (D := decls) (Z := ints) rfl (ad_total b) (noReentry b) (closed_ints b) (by decide) (models_hold b) (callbacks_ints b) (models_id b) rfl (ids_unmanaged b)
    ?_ (by decide) (by decide) ?_ (orderly_season b)).1, by cases b <;> decide +kernel⟩
  · intro t
    simp only [Demo.schema, db]
    repeat' split
    all_goals decide
  · intro t r hr c hc
    simp only [ints, List.mem_cons, Prod.mk.injEq, List.not_mem_nil, or_false] at hc
    rcases hc with ⟨rfl, rfl⟩ | ⟨rfl, rfl⟩
    · simp only [db, if_true, List.mem_singleton] at hr
      subst hr
      exact ⟨0, rfl⟩
    · simp only [db, String.reduceEq, if_false, if_true, List.mem_singleton] at hr
      subst hr
      exact ⟨0, rfl⟩

end Team

end Denorm
