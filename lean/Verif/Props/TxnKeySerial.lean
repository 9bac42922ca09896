import Verif.Lemmas.TxnKeySerial
import Verif.Props.TxnKey
/-!
# C76: cache keys and transactions that do not overlap, with sqlite as the case in which they never do
-/
namespace Denorm

/-- C76 (partial), for all kinds of relations, on every database, if transactions do not overlap: take the committed states after any `i` and any `j` moves. If an instance has
the same key in both, its related rows are the same in both, as far as they are watched. No foreign key constraints are needed. Missing: transactions that overlap
(`C76_same_sight_partial` for some relations, `Keys.C76_violated_forward` and `Keys.C76_violated_m2m` for the others). -/
theorem C76_serial_partial {A : App} {S : Schema} {D : List Denorm} {k : KeyField} (hA : KeySettingAll A S D k) {db : Db} {n : Nat} {μs : List Move}
    (hU : KeysDistinct S db) (hK : KeysOk k.relations db) (hold : ∀ r ∈ db.rows k.model.table, ∀ n, db.draws ≤ n → r k.field ≠ .int (A.engine.rand n))
    (ho : KeyOrderlyAll A S k [] μs ⟨db, List.replicate n none⟩) (hO : Serial A S μs ⟨db, List.replicate n none⟩) (i j : Nat) :
    ∀ r ∈ (A.moves S (μs.take i) ⟨db, List.replicate n none⟩).db.rows k.model.table,
    ∀ r' ∈ (A.moves S (μs.take j) ⟨db, List.replicate n none⟩).db.rows k.model.table,
    r k.model.pk = r' k.model.pk → r k.field = r' k.field →
      k.SameSight (A.moves S (μs.take i) ⟨db, List.replicate n none⟩).db r (A.moves S (μs.take j) ⟨db, List.replicate n none⟩).db r' := by
  have hnone : ∀ (i : Nat) T, (List.replicate n (none : Option Txn))[i]? = some (some T) → False := fun i T hi =>
    absurd (List.eq_of_mem_replicate (List.mem_of_getElem? hi)) (by simp)
  have hU' : ((db.rows k.model.table).map fun r => r k.model.pk).Nodup := by have := hU k.model.table; rw [hA.key] at this; exact this
  have h0 : SerialState A S k (newMemoAll k db fun _ _ _ _ => False) [] ⟨db, List.replicate n none⟩ :=
    ⟨allOk_start hU trivial, keySeen_new hU' hK hold, by simp, fun i T hi => (hnone i T hi).elim, fun i _ T _ hi _ => (hnone i T hi).elim⟩
  obtain ⟨memo, _, h⟩ := serial_moves hA μs h0 ho hO
  intro r hr r' hr' hpk hkey d hd x
  rw [(h i).right r hr d hd x, (h j).right r' hr' d hd x, hpk, hkey]

/-- C76 on sqlite, where there is one writer at a time: all schedules, all kinds of relations. -/
theorem C76_sqlite_partial {A : App} {S : Schema} {D : List Denorm} {k : KeyField} (hb : A.engine.backend = .sqlite) (hA : KeySettingAll A S D k) {db : Db} {n : Nat}
    {μs : List Move} (hU : KeysDistinct S db) (hK : KeysOk k.relations db)
    (hold : ∀ r ∈ db.rows k.model.table, ∀ n, db.draws ≤ n → r k.field ≠ .int (A.engine.rand n))
    (ho : KeyOrderlyAll A S k [] μs ⟨db, List.replicate n none⟩) (i j : Nat) :
    ∀ r ∈ (A.moves S (μs.take i) ⟨db, List.replicate n none⟩).db.rows k.model.table,
    ∀ r' ∈ (A.moves S (μs.take j) ⟨db, List.replicate n none⟩).db.rows k.model.table,
    r k.model.pk = r' k.model.pk → r k.field = r' k.field →
      k.SameSight (A.moves S (μs.take i) ⟨db, List.replicate n none⟩).db r (A.moves S (μs.take j) ⟨db, List.replicate n none⟩).db r' :=
  C76_serial_partial hA hU hK hold ho (serial_sqlite hb μs fun T hT => absurd (List.eq_of_mem_replicate hT) (by simp)) i j

namespace Keys
set_option maxRecDepth 100000

theorem settingAll (b : Backend) (fk : Bool) : KeySettingAll (app b) (schema fk) decls forumKey where
  installed := rfl
  declared := wd_forum b
  noReentry := noReentry b
  rand := by
    intro m n h
    have : (100 + m : Int) = 100 + n := h
    omega
  generic := by
    intro d hd g hg
    simp only [forumKey, List.mem_cons, List.not_mem_nil, or_false] at hd
    rcases hd with rfl | rfl | rfl <;> cases hg
  key := rfl
  unmanaged := by
    intro t h
    obtain ⟨dn, hdn, hw⟩ := managed_writes (D := decls) (E := engine b) rfl h
    have h2 : ∀ dn ∈ decls, ∀ p ∈ dn.writes, p.2 ≠ "id" := by decide
    exact h2 dn hdn _ hw rfl
  pks := by cases b <;> decide
  models := by cases b <;> cases fk <;> decide
  relations := by cases b <;> decide

theorem distinctAll (fk : Bool) : KeysDistinct (schema fk) db := by
  intro t
  by_cases h1 : t ∈ ["section", "forum", "post", "member", "member_bookmarks", "tag"]
  · revert t; cases fk <;> decide
  · simp only [List.mem_cons, List.not_mem_nil, or_false, not_or] at h1
    simp [db, h1]

/-- One session creates a forum in a section; another one wants to rename the section and has to wait; it tries again. -/
def newForumLater : List Move := [.stmt 0 (.insert "forum" [frow 4 1 14]), .stmt 1 rename, .commit 0, .stmt 1 rename, .commit 1]

/-- The keys are new where they have changed, and forums that keep their key keep their section. -/
def steadyIn (past : List Db) (db : Db) : Except OrmErr Db → Bool
  | .ok v => decide (forumKey.Steady db v) && decide (∀ r' ∈ v.rows "forum", (∃ r ∈ db.rows "forum", r "id" = r' "id" ∧ r "key" = r' "key") ∨
      drawable 100 db (r' "key") = true ∨ ∀ old ∈ past, ∀ r ∈ old.rows "forum", r "id" = r' "id" → r "key" ≠ r' "key")
  | .error _ => true

theorem steady_ok {b : Backend} {past : List Db} {db : Db} {x : Except OrmErr Db} (h : steadyIn past db x = true) :
    ∀ v, x = .ok v → forumKey.Steady db v ∧ forumKey.Renewed (app b).engine past db v := by
  rintro v rfl
  simp only [steadyIn, Bool.and_eq_true, decide_eq_true_eq] at h
  refine ⟨h.1, fun r' hr' => ?_⟩
  rcases h.2 r' hr' with h | h | h
  · exact .inl h
  · refine .inr (.inl ?_)
    unfold drawable at h
    split at h
    · rename_i j hj
      simp only [decide_eq_true_eq] at h
      refine ⟨(j - 100).toNat, by omega, ?_⟩
      rw [show r' forumKey.field = .int j from hj]
      show Val.int j = .int (100 + ((j - 100).toNat : Int))
      congr 1
      omega
    · simp at h
  · exact .inr (.inr h)

theorem orderly_rename (fk : Bool) {past : List Db} {X : DbServer} {i : Nat}
    (h : steadyIn ((X.sight (schema fk) i).1 :: X.db :: past) (X.sight (schema fk) i).1 ((app .sqlite).exec rename (X.sight (schema fk) i).1) = true) :
    LegalStmt (app .sqlite).engine forumKey.relations (X.sight (schema fk) i).1 rename ∧ KeepsKeys (schema fk) (X.sight (schema fk) i).1 rename ∧
    KeyLegal forumKey (X.sight (schema fk) i).1 rename ∧ forumKey.SparesDraws (app .sqlite).engine (X.sight (schema fk) i).1 rename ∧
    ∀ v, (app .sqlite).exec rename (X.sight (schema fk) i).1 = .ok v → forumKey.Steady (X.sight (schema fk) i).1 v ∧
      forumKey.Renewed (app .sqlite).engine ((X.sight (schema fk) i).1 :: X.db :: past) (X.sight (schema fk) i).1 v := by
  refine ⟨?_, ?_, fun h => absurd h (by decide), fun h => absurd h (by decide), steady_ok h⟩
  · intro q hq ht x r
    have : q.2 = "id" := by revert q; decide
    simp [this, Row.set]
  · intro x r
    simp [schema, Row.set]

theorem orderly_later (fk : Bool) : KeyOrderlyAll (app .sqlite) (schema fk) forumKey [] newForumLater ⟨db, List.replicate 2 none⟩ := by
  refine ⟨⟨?_, ?_, fun _ => ⟨?_, List.pairwise_singleton ..⟩, fun _ r hr n _ => ?_, steady_ok ?_⟩, orderly_rename fk ?_, trivial, orderly_rename fk ?_, trivial, trivial⟩
  · intro r hr
    simp only [List.mem_singleton] at hr
    subst hr
    refine ⟨fun q hq ht => ?_, fun d hd _ tbl c k hm => ?_⟩
    · have : q.2 = "id" := by revert q; decide
      rw [this]
      simp [frow, Demo.row]
    · simp only [KeyField.relations, forumKey, List.mem_cons, List.not_mem_nil, or_false] at hd
      rcases hd with rfl | rfl | rfl <;> simp [Dep.m2mTable] at hm
  · show ((db.rows "forum" ++ _).map fun r => r "id").Nodup
    decide
  · show ∀ r ∈ [frow 4 1 14], ∀ r0 ∈ db.rows "forum", _
    decide
  · simp only [List.mem_singleton] at hr
    subst hr
    show Val.int 14 ≠ .int (100 + (n : Int))
    simp only [ne_eq, Val.int.injEq]
    omega
  · cases fk <;> decide +kernel
  · cases fk <;> decide +kernel
  · cases fk <;> decide +kernel

theorem oldAll (b : Backend) : ∀ r ∈ db.rows forumKey.model.table, ∀ n, db.draws ≤ n → r forumKey.field ≠ .int ((app b).engine.rand n) := by
  have h : ∀ r ∈ db.rows "forum", r "key" ∈ [Val.int 11, .int 12, .int 13] := by decide
  intro r hr n _ e
  have h1 := h r hr
  rw [show r "key" = .int (100 + (n : Int)) from e] at h1
  simp only [List.mem_cons, Val.int.injEq, List.not_mem_nil, or_false] at h1
  omega

/-- `C76_sqlite_partial`: nothing goes wrong on sqlite. The new forum gets a new key when its section is renamed, with or without foreign key constraints. -/
example (fk : Bool) : (∀ i j, ∀ r ∈ (after .sqlite fk newForumLater i).rows "forum", ∀ r' ∈ (after .sqlite fk newForumLater j).rows "forum", r "id" = r' "id" →
      r "key" = r' "key" → forumKey.SameSight (after .sqlite fk newForumLater i) r (after .sqlite fk newForumLater j) r') ∧
    ((after .sqlite fk newForumLater 3).rows "forum").map (fun r => r "key") = [.int 11, .int 12, .int 13, .int 14] ∧
    ((after .sqlite fk newForumLater 5).rows "forum").map (fun r => r "key") = [.int 101, .int 102, .int 13, .int 103] :=
  ⟨fun i j => C76_sqlite_partial rfl (settingAll .sqlite fk) (distinctAll fk) (keysOk _ (.inl rfl)) (oldAll .sqlite) (orderly_later fk) i j,
    by cases fk <;> decide +kernel, by cases fk <;> decide +kernel⟩

end Keys

end Denorm
