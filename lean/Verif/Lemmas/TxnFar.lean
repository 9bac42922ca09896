import Verif.Lemmas.TxnInv
/-!
# Relations for which a session marks instances it cannot see
-/
namespace Denorm

theorem ByValue.ownKeys {cb : Callback} (h : ByValue cb) {d : DepRead} (hd : d ∈ cb.deps) : d.dep.ownKeys = [] := by
  rcases h d hd with ⟨f, hf⟩ | ⟨g, hf⟩ <;> simp [Dep.ownKeys, hf]

theorem ByValue.m2mTable {cb : Callback} (h : ByValue cb) {d : DepRead} (hd : d ∈ cb.deps) : d.dep.m2mTable = none := by
  rcases h d hd with ⟨f, hf⟩ | ⟨g, hf⟩ <;> simp [Dep.m2mTable, hf]

/-- The invariant: any instance, whether in the table or not, will be marked or sees the same as in the beginning. -/
structure FarInv (E : Engine) (S : Schema) (cb : Callback) (rank : String → Nat) (s : Stmt) (r : Row) (V : List (List ((Val × Val) × List (List Val))))
    (W : List Item) (db : Db) : Prop where
  legal : LegalStmt E cb db s
  keys : KeysOk cb db
  items : ∀ it ∈ W, ItemOk E rank s it
  good : Marked cb.model db r ∨ (∃ it ∈ W, Covers cb db r it) ∨ cb.keyed S db r = V

theorem farInv {E : Engine} {S : Schema} {cb : Callback} (hT : Tracks E cb) (hB : ∀ d ∈ cb.deps, d.dep.ownKeys = []) {rank : String → Nat} (hR : Ranked E rank) {s : Stmt}
    {db0 : Db} (hs : KeepsKeys S db0 s) (hm : ∀ t, ¬ Managed E t (S.key t)) (r : Row) (V) : StepInv E (FarInv E S cb rank s r V) where
  perm := by
    intro W W' db hp h
    refine ⟨h.legal, h.keys, fun it hit => h.items it (hp.mem_iff.2 hit), ?_⟩
    rcases h.good with h1 | ⟨it, h2, h3⟩ | h4
    · exact .inl h1
    · exact .inr (.inl ⟨it, hp.mem_iff.1 h2, h3⟩)
    · exact .inr (.inr h4)
  writeNil := by
    intro fr t W db h
    refine ⟨h.legal, h.keys, fun it hit => h.items it (List.mem_cons_of_mem _ hit), ?_⟩
    rcases h.good with h1 | ⟨it, h2, h3⟩ | h4
    · exact .inl h1
    · rcases List.mem_cons.1 h2 with rfl | h2
      · exact absurd h3 (by simp [Covers])
      · exact .inr (.inl ⟨it, h2, h3⟩)
    · exact .inr (.inr h4)
  writeOp := by
    intro fr t op ops W db h
    have hit := h.items _ (List.mem_cons_self ..)
    obtain ⟨x, hw, hch⟩ := writeOk_of hT.toGround h.legal h.keys hit
    have hacts : (applyOp E t op db).2.flatMap (E.fired fr) = newActs E fr t x := by rw [hch]; rfl
    refine ⟨legal_step hT.toGround h.legal hit, keysOk_step hw, ?_, ?_⟩
    · intro it hi
      rcases List.mem_cons.1 hi with rfl | hi
      · rcases hit with ⟨h1, h2, h3⟩ | ⟨col, hm, hops, hr⟩
        · exact .inl ⟨h1, h2, fun o ho => h3 o (List.mem_cons_of_mem _ ho)⟩
        · exact .inr ⟨col, hm, fun o ho => hops o (List.mem_cons_of_mem _ ho), hr⟩
      · rcases List.mem_append.1 hi with hi | hi
        · exact itemOk_fired hit it hi
        · exact h.items it (List.mem_cons_of_mem _ hi)
    · rw [hacts]
      have new : (∃ it ∈ newActs E fr t x, Covers cb (applyOp E t op db).1 r it) →
          ∃ it ∈ Item.write fr t ops :: (newActs E fr t x ++ W), Covers cb (applyOp E t op db).1 r it := by
        rintro ⟨it, hi, hc⟩
        exact ⟨it, List.mem_cons_of_mem _ (List.mem_append_left _ hi), hc⟩
      rcases h.good with h2 | ⟨it, h2, h3⟩ | h4
      · left
        unfold Marked at h2 ⊢
        rw [hw.dirty]; exact h2
      · rcases covers_step hT hw rfl (fun _ _ => rfl) h3 with h5 | h5
        · rcases List.mem_cons.1 h2 with rfl | h2
          · exact absurd h5 (by simp [Covers])
          · exact .inr (.inl ⟨it, List.mem_cons_of_mem _ (List.mem_append_right _ h2), h5⟩)
        · exact .inr (.inl (new h5))
      · rcases (viewed_keyed S hT).step r hw (keyKept_of hs hm hit hch) with h5 | h5
        · exact .inr (.inr (h5.trans h4))
        · exact .inr (.inl (new h5))
  markValues := by
    intro fr ch ct s' c q W db h
    refine ⟨TrackInv.of_rows rfl h.legal, h.keys, fun it hit => h.items it (List.mem_cons_of_mem _ hit), ?_⟩
    rcases h.good with h1 | ⟨it, h2, h3⟩ | h4
    · left; unfold Marked at h1 ⊢; simp only [Db.addMarks_dirty, List.mem_append]; exact .inl h1
    · rcases List.mem_cons.1 h2 with rfl | h2
      · obtain ⟨e1, e2⟩ := h3
        left; unfold Marked; simp [e1, e2]
      · exact .inr (.inl ⟨it, h2, (covers_rows rfl).2 h3⟩)
    · exact .inr (.inr (((viewed_keyed S hT).rows _ _ _ (Db.addMarks_rows ..)).trans h4))
  markSelect := by
    intro fr ch ct sel t k s' c q W db h
    refine ⟨TrackInv.of_rows rfl h.legal, h.keys, fun it hit => h.items it (List.mem_cons_of_mem _ hit), ?_⟩
    rcases h.good with h1 | ⟨it, h2, h3⟩ | h4
    · left; unfold Marked at h1 ⊢; simp only [Db.addMarks_dirty, List.mem_append]; exact .inl h1
    · rcases List.mem_cons.1 h2 with rfl | h2
      · left
        unfold Marked
        simp only [Db.addMarks_dirty, List.mem_append]
        right
        obtain ⟨e1, ⟨_, _, ⟨d, hd, hk⟩, _⟩ | ⟨_, y, hy, hyk, hys⟩⟩ := h3
        · rw [hB d hd] at hk; simp at hk
        · exact mem_selectMarks.2 ⟨y, hy, hyk, by rw [e1, hys]⟩
      · exact .inr (.inl ⟨it, h2, (covers_rows rfl).2 h3⟩)
    · exact .inr (.inr (((viewed_keyed S hT).rows _ _ _ (Db.addMarks_rows ..)).trans h4))
  update := by
    intro fr ch u W db _ h
    have hit := h.items _ (List.mem_cons_self ..)
    refine ⟨h.legal, h.keys, ?_, ?_⟩
    · intro it hi
      rcases List.mem_append.1 hi with hi | hi
      · exact itemOk_update hR hit it hi
      · exact h.items it (List.mem_cons_of_mem _ hi)
    · rcases h.good with h1 | ⟨it, h2, h3⟩ | h4
      · exact .inl h1
      · rcases List.mem_cons.1 h2 with rfl | h2
        · exact absurd h3 (by simp [Covers])
        · exact .inr (.inl ⟨it, List.mem_append_right _ h2, h3⟩)
      · exact .inr (.inr h4)

theorem far_exec {E : Engine} {S : Schema} {cb : Callback} (hT : Tracks E cb) (hB : ∀ d ∈ cb.deps, d.dep.ownKeys = []) (hN : NoReentry E) {fuel : Nat} {s : Stmt} {db db' : Db}
    (he : E.exec fuel s db = .ok db') (hL : LegalStmt E cb db s) {db0 : Db} (hs : KeepsKeys S db0 s) (hm : ∀ t, ¬ Managed E t (S.key t))
    (hK : KeysOk cb db) (r : Row) (V) (h : Marked cb.model db r ∨ cb.keyed S db r = V) : Marked cb.model db' r ∨ cb.keyed S db' r = V := by
  obtain ⟨rank, hR⟩ := hN.ranked
  have := (farInv hT hB hR hs hm r V).exec he ⟨hL, hK, itemOk_start E rank s db, h.imp id .inr⟩
  rcases this.good with h1 | ⟨it, h2, _⟩ | h4
  · exact .inl h1
  · simp at h2
  · exact .inr h4

/-- The session marks every instance that its changes concern, whether it can see it or not. -/
def Far (S : Schema) (cb : Callback) (T : Txn) : Prop := ∀ r, OwnMark cb T r ∨ ∀ d ∈ cb.deps, Unmoved S d T.base T.view T.base r

theorem unmoved_any {S : Schema} {d : DepRead} (h : d.dep.m2mTable = none) {base view cur cur' : Db} {r : Row} (hu : Unmoved S d base view cur r) :
    Unmoved S d base view cur' r := by
  simpa only [Unmoved, h] using hu

theorem Far.heedful {S : Schema} {cb : Callback} {T : Txn} (hB : ByValue cb) (h : Far S cb T) (cur : Db) (r : Row) : Heedful S cb T cur r :=
  (h r).imp id fun h => .inr fun d hd => unmoved_any (hB.m2mTable hd) (h d hd)

section
variable {A : App} {S : Schema} {D : List Denorm} {om : OrmModel} {cb : Callback} {X : DbServer}

theorem far_stmt (hX : ServerOk S cb X) (hB : ByValue cb) (hF : ∀ (j : Nat) T, X.sessions[j]? = some (some T) → Far S cb T)
    (hT : Tracks A.engine cb) (hN : NoReentry A.engine) (hk : S.key cb.model.table = cb.model.pk)
    (hm : ∀ t, ¬ Managed A.engine t (S.key t)) {i : Nat} {s : Stmt} (hL : LegalStmt A.engine cb (X.sight S i).1 s)
    (hs : KeepsKeys S (X.sight S i).1 s) (j : Nat) (T : Txn) (hj : (A.move S X (.stmt i s)).sessions[j]? = some (some T)) : Far S cb T := by
  simp only [App.move] at hj
  cases he : A.exec s (X.sight S i).1 with
  | error e => rw [he] at hj; exact hF j T hj
  | ok v =>
    rw [he] at hj
    simp only at hj
    split at hj
    · exact hF j T hj
    · split at hj
      · exact hF j T hj
      · rcases getElem?_set_some hj with ⟨_, h1⟩ | ⟨_, h1⟩
        · simp only [Option.some.injEq] at h1
          subst h1
          intro r
          obtain ⟨g1, _⟩ := sight_ok hX hT hk i
          obtain ⟨new, g7, g8⟩ := exec_withDirty (engine_of_exec he)
          have hsight : ∃ added, (X.sight S i).1.dirty = X.db.dirty ++ added ∧
              ((⟨cb.model.ct, r cb.model.pk⟩ : Mark) ∈ added ∨ cb.keyed S (X.sight S i).1 r = cb.keyed S X.db r) := by
            rcases sight_cases X S i with ⟨U, h1, h2⟩ | h2
            · rw [h2]
              refine ⟨U.added, rfl, (hF i U h1 r).imp id fun h => ?_⟩
              exact List.map_congr_left fun d hd => keyedView_merge ((hX.sessions i U h1).mergeable hX.keys)
                (unmoved_any (hB.m2mTable hd) (h d hd))
            · rw [h2]
              exact ⟨[], by simp, .inr rfl⟩
          obtain ⟨added, g5, g6⟩ := hsight
          have := far_exec hT (fun d hd => hB.ownKeys hd) hN (g8 added) (legal_withDirty hL added) hs hm g1 r (cb.keyed S X.db r)
            (g6.imp id fun h => ((viewed_keyed S hT).rows _ _ _ rfl).trans h)
          refine this.imp (fun h => ?_) fun h d hd => ?_
          · unfold OwnMark
            simp only [Txn.added, g7, g5, List.append_assoc, List.drop_left]
            exact h
          · refine unmoved_of_keyed ?_
            have h' : cb.keyed S v r = cb.keyed S X.db r := ((viewed_keyed S hT).rows _ _ _ rfl).symm.trans h
            exact List.map_inj_left.1 h' d hd
        · exact hF j T h1

theorem far_moves (hT : Tracks A.engine cb) (hB : ByValue cb) (hN : NoReentry A.engine) (hk : S.key cb.model.table = cb.model.pk)
    (hm : ∀ t, ¬ Managed A.engine t (S.key t)) (hS : ∀ om ∈ A.models, S.key om.model.table = om.model.pk) :
    ∀ (μs : List Move) {X : DbServer}, ServerOk S cb X → (∀ (j : Nat) T, X.sessions[j]? = some (some T) → Far S cb T) →
    Orderly A S D om cb μs X → ServerOk S cb (A.moves S μs X)
  | [], _, hX, _, _ => hX
  | μ :: μs, X, hX, hF, ho => by
    simp only [App.moves]
    have hset : ∀ (i : Nat) (db : Db) (j : Nat) T, (⟨db, X.sessions.set i none⟩ : DbServer).sessions[j]? = some (some T) → Far S cb T := by
      intro i db j T hj
      rcases getElem?_set_some hj with ⟨_, h1⟩ | ⟨_, h1⟩
      · simp at h1
      · exact hF j T h1
    refine far_moves hT hB hN hk hm hS μs ?_ ?_ ho.2
    · cases μ with
      | stmt i s => exact serverOk_stmt hX hT hN hk hm ho.1.1 ho.1.2
      | commit i => exact serverOk_commit hX hT hk i
      | rollback i => exact serverOk_close hX i
      | flushOne m =>
        refine serverOk_flushOne hX hk hm hS ho.1.1 ho.1.2 fun _ db' _ T hT' => .inr fun r _ => ?_
        obtain ⟨j, hj⟩ := List.getElem?_of_mem hT'
        exact (hF j T hj).heedful hB db' r
    · cases μ with
      | stmt i s => exact far_stmt hX hB hF hT hN hk hm ho.1.1 ho.1.2
      | commit i => exact hset i _
      | rollback i => exact hset i _
      | flushOne m =>
        intro j T hj
        refine hF j T ?_
        simp only [App.move] at hj
        split at hj
        · exact hj
        · split at hj
          · exact hj
          · exact hj

end

end Denorm
