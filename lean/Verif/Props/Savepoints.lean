import Verif.Lemmas.Savepoints
import Verif.Props.TxnBound
import Verif.Props.TxnAgg
/-!
# Nested `atomic()` blocks (C96)
-/
namespace Denorm
section
variable {A : App} {S : Schema} {D : List Denorm} {om : OrmModel} {cb : Callback} {a : AggDenorm} {Z : List (TableName × Col)}

/-- C96: a session enters a block, does something there (other blocks included), and leaves it by an exception. Whatever other sessions and flush() do meanwhile: afterwards the
session has written what it had written before, markers and counts included, and has the same savepoints. -/
theorem C96_undone_among_others {i : Nat} {τ : List NestMove} (hτ : InBlock i τ) {X : NestServer} {T : NestSession} (hT : X.sessions[i]? = some T) :
    ∃ T', (A.nestMoves S (.enter i :: (τ ++ [.fail i])) X).sessions[i]? = some T' ∧ T'.txn = T.txn ∧ T'.saves = T.saves := by
  rw [App.nestMoves, nestMoves_append, enter_get hT]
  obtain ⟨T1, h1, e1⟩ := inBlock_saves (A := A) (S := S) hτ (X := ⟨X.db, X.sessions.set i { T with saves := T.txn :: T.saves }⟩) (List.getElem?_set_self (lt_of_get hT))
  rw [App.nestMoves, App.nestMoves, fail_get h1 e1]
  exact ⟨_, List.getElem?_set_self (lt_of_get h1), rfl, rfl⟩

/-- C96: if no other session is at work meanwhile, a block that is left by an exception leaves no trace at all: neither in what is committed nor in what any session sees. -/
theorem C96_undone {i : Nat} {τ : List NestMove} (hτ : InBlock i τ) (ho : OnlySession i τ) (X : NestServer) :
    (A.nestMoves S (.enter i :: (τ ++ [.fail i])) X).plain = X.plain := by
  have hall : OnlySession i (.enter i :: (τ ++ [.fail i])) := by
    intro σ hσ
    simp only [List.mem_cons, List.mem_append, List.not_mem_nil, or_false] at hσ
    rcases hσ with rfl | hσ | rfl
    · rfl
    · exact ho σ hσ
    · rfl
  obtain ⟨h1, h2, h3⟩ := onlySession_frame (A := A) (S := S) hall X
  refine dbServer_ext h1 ?_
  apply List.ext_getElem?
  intro j
  simp only [NestServer.plain, List.getElem?_map]
  by_cases hj : j = i
  · subst hj
    cases hT : X.sessions[j]? with
    | none =>
      have := List.getElem?_eq_none_iff.1 hT
      rw [List.getElem?_eq_none_iff.2 (by omega)]
    | some T =>
      obtain ⟨T', hT', e, _⟩ := C96_undone_among_others (A := A) (S := S) hτ hT
      rw [hT', Option.map_some, Option.map_some, e]
  · rw [h3 j hj]

/-- C96: entering a block and leaving it without an exception changes nothing that is committed or seen. -/
theorem C96_kept (X : NestServer) (i : Nat) : (A.nestMove S X (.enter i)).plain = X.plain ∧ (A.nestMove S X (.leave i)).plain = X.plain := by
  have hset : ∀ T U : NestSession, X.sessions[i]? = some T → U.txn = T.txn → (NestServer.mk X.db (X.sessions.set i U)).plain = X.plain := by
    intro T U hT e
    refine dbServer_ext rfl ?_
    simp only [NestServer.plain, List.map_set, e]
    exact set_self (by simp [hT])
  cases hT : X.sessions[i]? with
  | none => unfold App.nestMove; simp [hT]
  | some T => rw [enter_get hT, leave_get hT]; exact ⟨hset T _ hT rfl, hset T _ hT rfl⟩

/-- C96: whatever sessions do in nested blocks, the outcome is that of a schedule without any, in which some of the statements, commits, rollbacks and steps of flush() are left
out. -/
theorem C96_as_if_never {db : Db} {n : Nat} (σs : List NestMove) :
    ∃ μs : List Move, μs.Sublist (plainMoves σs) ∧ (A.nestMoves S σs (.start db n)).plain = A.moves S μs ⟨db, List.replicate n none⟩ := by
  have hall : ∀ (σs : List NestMove) (X : NestServer), NestAlong A S (fun _ _ => True) σs X := by
    intro σs
    induction σs with
    | nil => exact fun _ => trivial
    | cons σ σs ih => exact fun X => ⟨fun _ _ _ _ _ => trivial, ih _⟩
  obtain ⟨μs, h1, h2, _⟩ := along_start (hall σs (.start db n))
  exact ⟨μs, h1, h2.symm⟩

/-- C96 (partial), where flush() is called only while no session has uncommitted changes, on all databases: whatever sessions do in nested blocks, every committed value is
right, or its row has a committed marker. -/
theorem C96_alone_partial (hE : Installed A.engine D) (hD : WellDeclared A.engine.backend D cb) (hN : NoReentry A.engine) (hk : S.key cb.model.table = cb.model.pk)
    (hS : ∀ om ∈ A.models, S.key om.model.table = om.model.pk) (hm : ∀ t, ¬ Managed A.engine t (S.key t)) {db : Db} {n : Nat} {σs : List NestMove}
    (hU : KeysDistinct S db) (hK : KeysOk cb db) (h0 : StaleMarked cb db) (ho : NestOrderly A S D om cb σs (.start db n)) (hf : NestFlushAlone A S σs (.start db n)) :
    ∀ r ∈ (A.nestMoves S σs (.start db n)).db.rows cb.model.table,
      r cb.field = cb.value (A.nestMoves S σs (.start db n)).db r ∨ ⟨cb.model.ct, r cb.model.pk⟩ ∈ (A.nestMoves S σs (.start db n)).db.dirty := by
  obtain ⟨μs, _, h2, h3⟩ := along_start ((along_of_orderly ho).and (along_of_flushAlone hf))
  have := C58_alone_partial hE hD hN hk hS hm hU hK h0 (orderly_of_along h3.and.1) (flushAlone_of_along h3.and.2)
  rw [h2] at this
  exact this

/-- C96 (partial) on sqlite, with flush() at any time. -/
theorem C96_sqlite_partial (hb : A.engine.backend = .sqlite) (hE : Installed A.engine D) (hD : WellDeclared A.engine.backend D cb) (hN : NoReentry A.engine)
    (hk : S.key cb.model.table = cb.model.pk) (hS : ∀ om ∈ A.models, S.key om.model.table = om.model.pk) (hm : ∀ t, ¬ Managed A.engine t (S.key t))
    {db : Db} {n : Nat} {σs : List NestMove} (hU : KeysDistinct S db) (hK : KeysOk cb db) (h0 : StaleMarked cb db) (ho : NestOrderly A S D om cb σs (.start db n)) :
    ∀ r ∈ (A.nestMoves S σs (.start db n)).db.rows cb.model.table,
      r cb.field = cb.value (A.nestMoves S σs (.start db n)).db r ∨ ⟨cb.model.ct, r cb.model.pk⟩ ∈ (A.nestMoves S σs (.start db n)).db.dirty := by
  obtain ⟨μs, _, h2, h3⟩ := along_start (along_of_orderly ho)
  have := C58_sqlite_partial hb hE hD hN hk hS hm hU hK h0 (orderly_of_along h3)
  rw [h2] at this
  exact this

/-- C96 (partial) on all databases with flush() at any time, for fields whose related rows refer to the instance. -/
theorem C96_by_value_partial (hB : ByValue cb) (hE : Installed A.engine D) (hD : WellDeclared A.engine.backend D cb) (hN : NoReentry A.engine)
    (hk : S.key cb.model.table = cb.model.pk) (hS : ∀ om ∈ A.models, S.key om.model.table = om.model.pk) (hm : ∀ t, ¬ Managed A.engine t (S.key t))
    {db : Db} {n : Nat} {σs : List NestMove} (hU : KeysDistinct S db) (hK : KeysOk cb db) (h0 : StaleMarked cb db) (ho : NestOrderly A S D om cb σs (.start db n)) :
    ∀ r ∈ (A.nestMoves S σs (.start db n)).db.rows cb.model.table,
      r cb.field = cb.value (A.nestMoves S σs (.start db n)).db r ∨ ⟨cb.model.ct, r cb.model.pk⟩ ∈ (A.nestMoves S σs (.start db n)).db.dirty := by
  obtain ⟨μs, _, h2, h3⟩ := along_start (along_of_orderly ho)
  have := C58_by_value_partial hB hE hD hN hk hS hm hU hK h0 (orderly_of_along h3)
  rw [h2] at this
  exact this

/-- C96 (partial) on MySQL with flush() at any time, for all kinds of dependencies, if the foreign keys by which related rows are found have constraints in the database. -/
theorem C96_mysql_partial (hb : A.engine.backend = .mysql) (hC : Constrained S cb) (hL : LinksKept A cb) (hE : Installed A.engine D)
    (hD : WellDeclared A.engine.backend D cb) (hN : NoReentry A.engine) (hk : S.key cb.model.table = cb.model.pk)
    (hS : ∀ om ∈ A.models, S.key om.model.table = om.model.pk) (hm : ∀ t, ¬ Managed A.engine t (S.key t)) {db : Db} {n : Nat} {σs : List NestMove}
    (hU : KeysDistinct S db) (hK : KeysOk cb db) (h0 : StaleMarked cb db) (hl : ∀ i s, NestMove.move (.stmt i s) ∈ σs → LinksStay cb s)
    (ho : NestOrderly A S D om cb σs (.start db n)) :
    ∀ r ∈ (A.nestMoves S σs (.start db n)).db.rows cb.model.table,
      r cb.field = cb.value (A.nestMoves S σs (.start db n)).db r ∨ ⟨cb.model.ct, r cb.model.pk⟩ ∈ (A.nestMoves S σs (.start db n)).db.dirty := by
  obtain ⟨μs, h1, h2, h3⟩ := along_start (along_of_orderly ho)
  have hl' : ∀ i s, Move.stmt i s ∈ μs → LinksStay cb s := by
    intro i s hs
    obtain ⟨σ, hσ, e⟩ := List.mem_filterMap.1 (h1.subset hs)
    cases σ with
    | move μ => cases e; exact hl i s hσ
    | enter j => cases e
    | leave j => cases e
    | fail j => cases e
  have := C58_mysql_partial hb hC hL hE hD hN hk hS hm hU hK h0 hl' (orderly_of_along h3)
  rw [h2] at this
  exact this

/-- C96 (partial), CountField with any `filter=` and `exclude=`: whatever sessions do in nested blocks, with flush() in between, the count of every committed instance is the number of
committed rows it counts, and what a session sees within its transaction is right, too. (The conditions are those of C64.) -/
theorem C96_count_partial (hE : Installed A.engine D) (hD : AggDeclared A.engine.backend D a) (hN : NoReentry A.engine) (hcount : a.agg = .count)
    (hP : ∀ om ∈ A.models, om.Proper ∧ om.Holds a) (hS : ∀ om ∈ A.models, S.key om.model.table = om.model.pk) (hSa : S.key a.model.table = a.model.pk)
    (hm : ∀ t, ¬ Managed A.engine t (S.key t)) {db : Db} {n : Nat} {σs : List NestMove} (hU : KeysDistinct S db) (hok : AggOk a db) (hR : Refers a db)
    (ho : NestAggOrderly A S a (fun db s => CountLegal a db s ∨ WritesBack A [] db s) σs (.start db n)) :
    AggOk a (A.nestMoves S σs (.start db n)).db ∧ ∀ i, AggOk a ((A.nestMoves S σs (.start db n)).plain.sight S i).1 := by
  obtain ⟨μs, _, h2, h3⟩ := along_start (along_of_aggOrderly ho)
  have := C64_count_partial hE hD hN hcount hP hS hSa hm hU hok hR (aggOrderly_of_along h3)
  rw [h2] at this
  exact this

/-- C96 (partial), CountField or SumField, where the summed columns `Z` hold integers. -/
theorem C96_sum_partial (hE : Installed A.engine D) (hD : AggDeclared A.engine.backend D a) (hN : NoReentry A.engine) (hZ : IntClosed A.engine.backend D Z)
    (hmZ : (a.model.table, a.fieldname) ∈ Z) (hP : ∀ om ∈ A.models, om.Proper ∧ om.Holds a)
    (hc : ∀ om ∈ A.models, ∀ f ∈ om.saved, ∀ cb, f.kind = .callback cb → (om.model.table, f.col) ∈ Z → ∀ own rel, ∃ i, cb.fn own rel = .int i)
    (hS : ∀ om ∈ A.models, S.key om.model.table = om.model.pk) (hSa : S.key a.model.table = a.model.pk) (hm : ∀ t, ¬ Managed A.engine t (S.key t))
    {db : Db} {n : Nat} {σs : List NestMove} (hU : KeysDistinct S db) (hok : AggOk a db) (hR : Refers a db) (hI : Ints Z db)
    (ho : NestAggOrderly A S a (fun db s => AggLegal a Z db s ∨ WritesBack A Z db s) σs (.start db n)) :
    AggOk a (A.nestMoves S σs (.start db n)).db ∧ ∀ i, AggOk a ((A.nestMoves S σs (.start db n)).plain.sight S i).1 := by
  obtain ⟨μs, _, h2, h3⟩ := along_start (along_of_aggOrderly ho)
  have := C64_sum_partial hE hD hN hZ hmZ hP hc hS hSa hm hU hok hR hI (aggOrderly_of_along h3)
  rw [h2] at this
  exact this

end

namespace Chain
set_option maxRecDepth 100000

/-- Session 0 renames blog 1, and in a nested block renames it again and inserts an entry with the new label, which another nested block renames once more; the outer one of the two
fails. Session 1 renames blog 2. Both commit, and flush() handles the markers. -/
def nested : List NestMove :=
  [.move (.stmt 0 (rename 1 "Y")), .enter 0, .move (.stmt 0 (rename 1 "X")), .enter 0, .move (.stmt 0 (post 2 1 "X")), .leave 0, .fail 0, .move (.stmt 1 (rename 2 "C")),
    .move (.commit 0), .move (.commit 1), .move (.flushOne ⟨12, .int 1⟩), .move (.flushOne ⟨12, .int 2⟩), .move (.flushOne ⟨13, .int 1⟩)]

section
variable {b : Backend} {fk : Bool} {X : NestServer} {i : Nat} {σs : List NestMove}

theorem nest_rename {id : Int} {title : String}
    (h : NestOrderly (app b) (schema fk) decls entryOrm label σs ((app b).nestMove (schema fk) X (.move (.stmt i (rename id title))))) :
    NestOrderly (app b) (schema fk) decls entryOrm label (.move (.stmt i (rename id title)) :: σs) X := by
  have := orderly_rename b fk (X := X.plain) (i := i) (id := id) (title := title) (μs := []) trivial
  exact ⟨this.1, h⟩

theorem nest_post {id blog : Int} {title : String} (hk : (((X.plain.sight (schema fk) i).1.rows "entry" ++ [erow id blog title]).map fun r => r "id").Nodup)
    (h : NestOrderly (app b) (schema fk) decls entryOrm label σs ((app b).nestMove (schema fk) X (.move (.stmt i (post id blog title))))) :
    NestOrderly (app b) (schema fk) decls entryOrm label (.move (.stmt i (post id blog title)) :: σs) X := by
  have := orderly_post b fk (X := X.plain) (i := i) (id := id) (blog := blog) (title := title) (μs := []) hk trivial
  exact ⟨this.1, h⟩

theorem nest_flush {m : Mark} (hu : KeysUnique (app b) X.db)
    (h : NestOrderly (app b) (schema fk) decls entryOrm label σs ((app b).nestMove (schema fk) X (.move (.flushOne m)))) :
    NestOrderly (app b) (schema fk) decls entryOrm label (.move (.flushOne m) :: σs) X :=
  ⟨⟨flushable_label b _ _, hu⟩, h⟩

end

theorem orderly_nested (b : Backend) (fk : Bool) : NestOrderly (app b) (schema fk) decls entryOrm label nested (.start db 2) := by
  refine nest_rename ⟨trivial, nest_rename ⟨trivial, nest_post ?_ ⟨trivial, trivial, nest_rename ⟨trivial, trivial, nest_flush (unique_of_ids b ?_) (nest_flush (unique_of_ids b ?_)
    (nest_flush (unique_of_ids b ?_) trivial))⟩⟩⟩⟩
  all_goals cases b <;> cases fk <;> decide +kernel

theorem alone_of {X : NestServer} (h : (X.sessions.all fun T => T.txn.isNone && T.saves.all Option.isNone) = true) :
    ∀ T ∈ X.sessions, T.txn = none ∧ ∀ t ∈ T.saves, t = none := by
  intro T hT
  have := List.all_eq_true.1 h T hT
  simp only [Bool.and_eq_true, Option.isNone_iff_eq_none, List.all_eq_true] at this
  exact this

theorem alone_nested (b : Backend) (fk : Bool) : NestFlushAlone (app b) (schema fk) nested (.start db 2) := by
  refine ⟨trivial, trivial, trivial, trivial, trivial, trivial, trivial, trivial, trivial, trivial, alone_of ?_, alone_of ?_, alone_of ?_, trivial⟩
  all_goals cases b <;> cases fk <;> decide +kernel

/-- C96 applies to that schedule, on each database; and what it does: the first renaming is committed and flushed, and nothing of the block that failed is there. -/
example (b : Backend) (fk : Bool) : (∀ r ∈ ((app b).nestMoves (schema fk) nested (.start db 2)).db.rows label.model.table,
      r label.field = label.value ((app b).nestMoves (schema fk) nested (.start db 2)).db r ∨
      ⟨label.model.ct, r label.model.pk⟩ ∈ ((app b).nestMoves (schema fk) nested (.start db 2)).db.dirty) ∧
    ((app b).nestMoves (schema fk) nested (.start db 2)).db.dirty = [] ∧
    (((app b).nestMoves (schema fk) nested (.start db 2)).db.rows "entry").map (fun r => (r "id", r "label")) = [(.int 1, .text "Y")] ∧
    (((app b).nestMoves (schema fk) (nested.take 6) (.start db 2)).plain.sight (schema fk) 0).1.dirty.length = 3 ∧
    (((app b).nestMoves (schema fk) (nested.take 7) (.start db 2)).plain.sight (schema fk) 0).1.dirty.length = 1 :=
  ⟨C96_alone_partial (installed_app b) (wd_label b) (noReentry b) rfl (models_keys b fk) (fun t => unmanaged b t _) (distinct_db fk) (by unfold KeysOk; decide)
    (by unfold StaleMarked; decide) (orderly_nested b fk) (alone_nested b fk), by cases b <;> cases fk <;> decide +kernel⟩

/-- So does C96 on sqlite, and on MySQL with constraints. -/
example : (∀ fk, ∀ r ∈ ((app .sqlite).nestMoves (schema fk) nested (.start db 2)).db.rows label.model.table,
      r label.field = label.value ((app .sqlite).nestMoves (schema fk) nested (.start db 2)).db r ∨
      ⟨label.model.ct, r label.model.pk⟩ ∈ ((app .sqlite).nestMoves (schema fk) nested (.start db 2)).db.dirty) ∧
    ∀ r ∈ ((app .mysql).nestMoves (schema true) nested (.start db 2)).db.rows label.model.table,
      r label.field = label.value ((app .mysql).nestMoves (schema true) nested (.start db 2)).db r ∨
      ⟨label.model.ct, r label.model.pk⟩ ∈ ((app .mysql).nestMoves (schema true) nested (.start db 2)).db.dirty :=
  ⟨fun fk => C96_sqlite_partial rfl (installed_app _) (wd_label _) (noReentry _) rfl (models_keys _ fk) (fun t => unmanaged _ t _) (distinct_db fk)
    (by unfold KeysOk; decide) (by unfold StaleMarked; decide) (orderly_nested _ fk),
   C96_mysql_partial rfl constrained (linksKept _) (installed_app _) (wd_label _) (noReentry _) rfl (models_keys _ true) (fun t => unmanaged _ t _)
    (distinct_db true) (by unfold KeysOk; decide) (by unfold StaleMarked; decide) (fun _ s _ => linksStay s) (orderly_nested _ true)⟩

/-- What session 0 does in its block is something `C96_undone` is about. -/
example : InBlock 0 ((nested.drop 2).take 4) ∧ OnlySession 0 ((nested.drop 2).take 4) :=
  ⟨.stmt (.block (τ := [.move (.stmt 0 (post 2 1 "X"))]) (τ' := []) (.stmt .nil) (.inl rfl) .nil), by
    intro σ hσ
    simp only [nested, List.drop, List.take, List.mem_cons, List.not_mem_nil, or_false] at hσ
    rcases hσ with rfl | rfl | rfl | rfl <;> rfl⟩

/-- The schedule of `C58_violated`, with the entry inserted in a nested block. -/
def nestedUncommitted : List NestMove :=
  [.move (.stmt 0 (rename 1 "Z")), .enter 1, .move (.stmt 1 (post 2 1 "A")), .leave 1, .move (.commit 1), .move (.flushOne ⟨12, .int 2⟩), .move (.commit 0),
    .move (.flushOne ⟨12, .int 1⟩), .move (.flushOne ⟨13, .int 1⟩)]

/-- **C96 is violated** for flush() at any time, on PostgreSQL, and on MySQL without foreign key constraints, as C58 is: nothing is marked, yet an entry has the label of the old
title. -/
theorem C96_violated (b : Backend) (fk : Bool) (hb : b = .postgresql ∨ (b = .mysql ∧ fk = false)) :
    NestOrderly (app b) (schema fk) decls entryOrm label nestedUncommitted (.start db 2) ∧
    ((app b).nestMoves (schema fk) nestedUncommitted (.start db 2)).db.dirty = [] ∧
    ∃ r ∈ ((app b).nestMoves (schema fk) nestedUncommitted (.start db 2)).db.rows label.model.table,
      r label.field ≠ label.value ((app b).nestMoves (schema fk) nestedUncommitted (.start db 2)).db r := by
  refine ⟨?_, ?_⟩
  · refine nest_rename ⟨trivial, nest_post ?_ ⟨trivial, trivial, nest_flush (unique_of_ids b ?_) ⟨trivial, nest_flush (unique_of_ids b ?_) (nest_flush (unique_of_ids b ?_) trivial)⟩⟩⟩
    all_goals cases b <;> cases fk <;> decide +kernel
  · rcases hb with rfl | ⟨rfl, rfl⟩
    · cases fk <;> decide +kernel
    · decide +kernel

end Chain

namespace Shelf
set_option maxRecDepth 100000

/-- The schedule `hidden`, with a second book in a block that fails. -/
def nested : List NestMove :=
  [.move (.stmt 0 (.insert "book" [brow 2 2 "B"])), .enter 0, .move (.stmt 0 (.insert "book" [brow 3 2 "C"])), .move (.stmt 1 (.insert "shelf" [srow 2 ""])), .move (.commit 1), .fail 0,
    .move (.flushOne ⟨21, .int 2⟩), .move (.commit 0)]

/-- C96 for fields whose related rows refer to the instance applies; on PostgreSQL and MySQL the new shelf is out of date after the last commit, and marked. -/
example : (∀ b, ∀ r ∈ ((app b).nestMoves schema nested (.start db 2)).db.rows summary.model.table,
      r summary.field = summary.value ((app b).nestMoves schema nested (.start db 2)).db r ∨
      ⟨summary.model.ct, r summary.model.pk⟩ ∈ ((app b).nestMoves schema nested (.start db 2)).db.dirty) ∧
    ∀ b ∈ [Backend.postgresql, .mysql], (((app b).nestMoves schema nested (.start db 2)).db.rows "book").length = 2 ∧
      (((app b).nestMoves schema nested (.start db 2)).db.rows "shelf").length = 2 ∧
      ((app b).nestMoves schema nested (.start db 2)).db.dirty = [⟨21, .int 2⟩] := by
  have ho : ∀ b, NestOrderly (app b) schema decls shelfOrm summary nested (.start db 2) := by
    intro b
    refine ⟨⟨legal_insert b _ (by decide), ?_⟩, trivial, ⟨legal_insert b _ (by decide), ?_⟩, ⟨legal_insert b _ (by decide), ?_⟩, trivial, trivial,
      ⟨flushable b _, unique_of_ids b ?_⟩, trivial, trivial⟩
    all_goals cases b <;> (try simp only [KeepsKeys, schema]) <;> decide +kernel
  refine ⟨fun b => C96_by_value_partial ?_ (installed_app b) (wd b) (noReentry b) rfl ?_ (fun t => unmanaged b t _) ?_ (by unfold KeysOk; decide)
    (by unfold StaleMarked; decide) (ho b), by decide +kernel⟩
  · intro d hd
    simp only [summary, List.mem_singleton] at hd
    subst hd
    exact .inl ⟨_, rfl⟩
  · intro om hom
    simp only [app, List.mem_cons, List.not_mem_nil, or_false] at hom
    rcases hom with rfl | rfl <;> rfl
  · intro t
    simp only [schema, db]
    split
    · decide
    · split <;> decide

end Shelf

namespace Demo
set_option maxRecDepth 100000

/-- Session 0 enters a post and, in a block that fails, deletes another one and enters a third one. Session 1 wants to move post 2 meanwhile, and does so after the commit. -/
def nested : List NestMove :=
  [.move (.stmt 0 (enterPost 3 1 "z")), .enter 0, .move (.stmt 0 (removePost 1)), .enter 0, .move (.stmt 0 (enterPost 5 2 "v")), .leave 0, .fail 0, .move (.stmt 1 (shiftPost 2 2)),
    .move (.commit 0), .move (.stmt 1 (shiftPost 2 2)), .move (.flushOne ⟨1, .int 1⟩), .move (.commit 1)]

theorem orderly_nested (b : Backend) : NestAggOrderly (app b) schema postCount (ForumLegal b) nested (.start db 2) := by
  refine ⟨(orderly_enterPost (X := (NestServer.start db 2).plain) (μs := []) ?_ ?_ trivial).1, trivial, (orderly_removePost (X := NestServer.plain _) (μs := []) ?_ trivial).1, trivial,
    (orderly_enterPost (X := NestServer.plain _) (μs := []) ?_ ?_ trivial).1, trivial, trivial, (orderly_shiftPost (X := NestServer.plain _) (μs := []) ?_ trivial).1, trivial,
    (orderly_shiftPost (X := NestServer.plain _) (μs := []) ?_ trivial).1, refers_ok ?_, trivial, trivial⟩
  all_goals cases b <;> decide +kernel

/-- C96 for CountFields applies to that schedule, on each database; and what it does: the counts as committed, as session 0 sees them in the block, and after the block. -/
example (b : Backend) : AggOk postCount ((app b).nestMoves schema nested (.start db 2)).db ∧
    (((app b).nestMoves schema nested (.start db 2)).db.rows "forum").map (fun r => r "post_count") = [.int 2, .int 1] ∧
    ((((app b).nestMoves schema (nested.take 6) (.start db 2)).plain.sight schema 0).1.rows "forum").map (fun r => r "post_count") = [.int 2, .int 1] ∧
    ((((app b).nestMoves schema (nested.take 7) (.start db 2)).plain.sight schema 0).1.rows "forum").map (fun r => r "post_count") = [.int 3, .int 0] :=
  ⟨(C96_count_partial (installed b) (ad_postCount b) (noReentry b) rfl (models_hold b) (models_id b) rfl (ids_unmanaged b) distinct_ids (by decide) (by decide)
    (orderly_nested b)).1, by cases b <;> decide +kernel⟩

end Demo

namespace Team
set_option maxRecDepth 100000

/-- One session enters a player and deletes them again in a block that fails; flush() corrects a score. -/
def nested : List NestMove :=
  [.move (.stmt 0 (.insert "player" [prow 2 1 3 6 0])), .enter 0, .move (.stmt 0 (.delete "player" fun r => decide (r "id" = .int 2))), .fail 0, .move (.commit 0),
    .move (.flushOne ⟨42, .int 1⟩)]

theorem orderly_nested (b : Backend) :
    NestAggOrderly (app b) Demo.schema total (fun db s => AggLegal total ints db s ∨ WritesBack (app b) ints db s) nested (.start db 2) := by
  refine ⟨⟨.inl ⟨?_, fun e => absurd e (by decide)⟩, ?_, refers_ok ?_⟩, trivial, ⟨.inl trivial, trivial, refers_ok ?_⟩, trivial, trivial, refers_ok ?_, trivial⟩
  · intro r hr c hc
    simp only [List.mem_singleton] at hr
    subst hr
    simp only [ints, List.mem_cons, Prod.mk.injEq, List.not_mem_nil, or_false] at hc
    rcases hc with ⟨h, _⟩ | ⟨_, rfl⟩
    · exact absurd h (by decide)
    · exact ⟨6, rfl⟩
  · show ((db.rows "player" ++ _).map _).Nodup
    decide
  all_goals cases b <;> decide +kernel

/-- C96 for SumFields applies to that schedule. -/
example (b : Backend) : AggOk total ((app b).nestMoves Demo.schema nested (.start db 2)).db ∧
    (((app b).nestMoves Demo.schema nested (.start db 2)).db.rows "team").map (fun r => r "total") = [.int 16] := by
  refine ⟨(C96_sum_partial (A := app b) (D := decls) (Z := ints) rfl (ad_total b) (noReentry b) (closed_ints b) (by decide) (models_hold b) (callbacks_ints b) (models_id b) rfl (ids_unmanaged b)
    ?_ (by decide) (by decide) ?_ (orderly_nested b)).1, by cases b <;> decide +kernel⟩
  · intro t
    simp only [Demo.schema, db]
    repeat' split
    all_goals decide
  · intro t r hr c hc
    simp only [ints, List.mem_cons, Prod.mk.injEq, List.not_mem_nil, or_false] at hc
    rcases hc with ⟨rfl, rfl⟩ | ⟨rfl, rfl⟩
    · simp only [db, if_true, List.mem_singleton] at hr
      subst hr
      exact ⟨0, rfl⟩
    · simp only [db, String.reduceEq, if_false, if_true, List.mem_singleton] at hr
      subst hr
      exact ⟨0, rfl⟩

end Team
end Denorm
