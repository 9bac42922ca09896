import Verif.Props.Transactions
import Verif.Lemmas.TxnBound
/-!
# C58 on MySQL with foreign key constraints
-/
namespace Denorm

/-- C58 on MySQL with flush() at any time, for all kinds of dependencies, if the foreign keys by which related rows are found have constraints in the database. A reference to a
row is committed only while no other transaction that has changed this row is open. -/
theorem C58_mysql_partial {A : App} {S : Schema} {D : List Denorm} {om : OrmModel} {cb : Callback} (hb : A.engine.backend = .mysql)
    (hC : Constrained S cb) (hL : LinksKept A cb) (hE : Installed A.engine D)
    (hD : WellDeclared A.engine.backend D cb) (hN : NoReentry A.engine) (hk : S.key cb.model.table = cb.model.pk)
    (hS : ∀ om ∈ A.models, S.key om.model.table = om.model.pk) (hm : ∀ t, ¬ Managed A.engine t (S.key t)) {db : Db} {n : Nat} {μs : List Move}
    (hU : KeysDistinct S db) (hK : KeysOk cb db) (h0 : StaleMarked cb db) (hl : ∀ i s, Move.stmt i s ∈ μs → LinksStay cb s)
    (ho : Orderly A S D om cb μs ⟨db, List.replicate n none⟩) :
    ∀ r ∈ (A.moves S μs ⟨db, List.replicate n none⟩).db.rows cb.model.table,
      r cb.field = cb.value (A.moves S μs ⟨db, List.replicate n none⟩).db r ∨
      ⟨cb.model.ct, r cb.model.pk⟩ ∈ (A.moves S μs ⟨db, List.replicate n none⟩).db.dirty := by
  have hno : ∀ (i : Nat) (T : Txn), (List.replicate n (none : Option Txn))[i]? ≠ some (some T) := fun i T hi =>
    absurd (List.eq_of_mem_replicate (List.mem_of_getElem? hi)) (by simp)
  have hX : Tied S cb ⟨db, List.replicate n none⟩ :=
    ⟨⟨hU, hK, staleMarked_iff.1 h0, fun i T hi => absurd hi (hno i T), fun i _ T _ _ hi => absurd hi (hno i T)⟩, fun i _ T _ _ hi => absurd hi (hno i T),
      fun i T hi => absurd hi (hno i T), fun i T hi => absurd hi (hno i T), fun i T hi => absurd hi (hno i T)⟩
  intro r hr
  exact ((tied_moves hb hC hL (tracks_of_installed hE hD) hN hk hm hS μs hX hl ho).ok.stale r hr).symm

namespace Chain
set_option maxRecDepth 100000

theorem constrained : Constrained (schema true) label := by
  intro d hd p hp
  simp only [label, List.mem_singleton] at hd
  subst hd
  simp only [labelDep, Dep.reference, Option.mem_def, Option.some.injEq] at hp
  subst hp
  exact ⟨by decide, rfl⟩

theorem linksKept (b : Backend) : LinksKept (app b) label := by
  intro d hd p hp c hc
  simp only [label, List.mem_singleton] at hd
  subst hd
  simp only [labelDep, Dep.reference, Option.mem_def, Option.some.injEq] at hp
  subst hp
  simp at hc

theorem linksStay (s : Stmt) : LinksStay label s := by
  cases s with
  | update t w σ =>
    intro d hd p hp _ c hc
    simp only [label, List.mem_singleton] at hd
    subst hd
    simp only [labelDep, Dep.reference, Option.mem_def, Option.some.injEq] at hp
    subst hp
    simp at hc
  | insert t rs => trivial
  | delete t w => trivial

/-- C58 on MySQL applies to the schedule of `C58_violated`, with the foreign key constraint. -/
example : ∀ r ∈ ((app .mysql).moves (schema true) uncommitted ⟨db, List.replicate 2 none⟩).db.rows label.model.table,
    r label.field = label.value ((app .mysql).moves (schema true) uncommitted ⟨db, List.replicate 2 none⟩).db r ∨
    ⟨label.model.ct, r label.model.pk⟩ ∈ ((app .mysql).moves (schema true) uncommitted ⟨db, List.replicate 2 none⟩).db.dirty :=
  C58_mysql_partial rfl constrained (linksKept _) (installed_app _) (wd_label _) (noReentry _) rfl (models_keys _ true) (fun t => unmanaged _ t _)
    (distinct_db true) (by unfold KeysOk; decide) (by unfold StaleMarked; decide) (fun _ s _ => linksStay s) (orderly_overtaken _ true)

/-- And to one where flush() is at work while transactions are open: entry 1 gets its new label only after the last commit, entry 2 of another blog before. -/
example : (∀ r ∈ ((app .mysql).moves (schema true) meantime ⟨busyDb, List.replicate 2 none⟩).db.rows label.model.table,
      r label.field = label.value ((app .mysql).moves (schema true) meantime ⟨busyDb, List.replicate 2 none⟩).db r ∨
      ⟨label.model.ct, r label.model.pk⟩ ∈ ((app .mysql).moves (schema true) meantime ⟨busyDb, List.replicate 2 none⟩).db.dirty) ∧
    (((app .mysql).moves (schema true) (meantime.take 5) ⟨busyDb, List.replicate 2 none⟩).db.rows "entry").map (fun r => r "label") =
      [.text "Z", .text "C"] ∧
    (((app .mysql).moves (schema true) meantime ⟨busyDb, List.replicate 2 none⟩).db.rows "entry").map (fun r => r "label") = [.text "Y", .text "C"] :=
  ⟨C58_mysql_partial rfl constrained (linksKept _) (installed_app _) (wd_label _) (noReentry _) rfl (models_keys _ true) (fun t => unmanaged _ t _)
    (distinct_busy true) (by unfold KeysOk; decide) (by unfold StaleMarked; decide) (fun _ s _ => linksStay s) (orderly_meantime _ true),
    by decide +kernel⟩

end Chain

/-! Many-to-many: Photo(tags, labels), Tag(name), where `labels` depends on `Tag` -/
namespace Album
open Demo (fld row)
set_option maxRecDepth 100000

def tags : M2M := ⟨"tags", "<class 'album.Tag'>", "photo_tags", "photo_id", "tag_id"⟩
def photo : Model :=
  { repr := "<class 'album.Photo'>", appLabel := "album", name := "Photo", table := "photo", pkTable := "photo", pk := "id", ct := 31,
    fields := [fld "id", fld "labels"], m2ms := [tags] }
def tag : Model :=
  { repr := "<class 'album.Tag'>", appLabel := "album", name := "Tag", table := "tag", pkTable := "tag", pk := "id", ct := 32,
    fields := [fld "id", fld "name"] }
def labels : Callback :=
  { model := photo, field := "labels", own := [], fn := Demo.concatFn, deps := [⟨⟨photo, tag, .forwardM2M (.m2m tags), []⟩, ["name"]⟩] }
def decls : List Denorm := [labels.denorm]
def engine (b : Backend) : Engine := ⟨b, installedTriggers b decls, fun _ => 0⟩
def photoOrm : OrmModel := ⟨photo, [⟨"labels", .callback labels⟩]⟩
def tagOrm : OrmModel := ⟨tag, [⟨"name", .plain⟩]⟩
def app (b : Backend) : App := ⟨engine b, [photoOrm, tagOrm], fun l => l, fun db _ _ => db.draws, 100⟩

/-- With foreign key constraints on the table of links. -/
def schema : Schema := ⟨fun _ => "id", fun t => if t = "photo_tags" then [("photo_id", "photo"), ("tag_id", "tag")] else []⟩

def prow (id : Int) (l : String) : Row := row [("id", .int id), ("labels", .text l)]
def trow (id : Int) (n : String) : Row := row [("id", .int id), ("name", .text n)]
def lrow (id photo tag : Int) : Row := row [("id", .int id), ("photo_id", .int photo), ("tag_id", .int tag)]

/-- Two photos, one with a tag. -/
def db : Db :=
  ⟨fun t => if t = "photo" then [prow 1 "A", prow 2 ""] else if t = "tag" then [trow 1 "A", trow 2 "B"]
    else if t = "photo_tags" then [lrow 1 1 1] else [], [], 0⟩

def rename (id : Int) (n : String) : Stmt := .update "tag" (fun r => r "id" == .int id) fun _ r => r.set "name" (.text n)
def link (id photo tag : Int) : Stmt := .insert "photo_tags" [lrow id photo tag]
def handOver (id photo : Int) : Stmt := .update "photo_tags" (fun r => r "id" == .int id) fun _ r => r.set "photo_id" (.int photo)

theorem noUpdates (b : Backend) : ∀ tr ∈ (engine b).triggers, tr.updates = [] := by cases b <;> decide

theorem noReentry (b : Backend) : NoReentry (engine b) :=
  noReentry_of (fun _ => 0) (fun tr htr u hu => by simp [noUpdates b tr htr] at hu)

theorem not_reached (b : Backend) {om : OrmModel} {t : TableName} {c : Col} : ¬ Reached (engine b) om t c := by
  intro h
  cases h with
  | direct htr _ _ _ hu => have := DbTrigger.mem_updates.2 hu; simp [noUpdates b _ htr] at this
  | next _ htr _ _ _ hu => have := DbTrigger.mem_updates.2 hu; simp [noUpdates b _ htr] at this

theorem agree : ∀ b, AgreeOnWatch b decls
  | .sqlite => by decide
  | .mysql => by decide
  | .postgresql => by decide

theorem wd (b : Backend) : WellDeclared b decls labels where
  declared := by simp [decls]
  agree := fun _ hg => covered_of_agree (agree b) (List.mem_flatMap.2 ⟨_, by decide, hg⟩)
  table := by decide
  own := by decide
  this := by decide
  watched := by decide
  keys := by decide
  links := by decide

theorem flushable (b : Backend) (db : Db) : Flushable (app b) decls photoOrm labels db where
  installed := rfl
  declared := wd b
  noReentry := noReentry b
  found := by cases b <;> rfl
  model := rfl
  cols := by decide
  order := ⟨[], [], rfl, by decide⟩
  own := fun _ _ h => not_reached b h
  deps := by
    intro d hd
    simp only [labels, List.mem_singleton] at hd
    subst hd
    exact ⟨fun _ _ h => not_reached b h, .inl (by decide)⟩
  pks := by cases b <;> simp only [app] <;> decide
  safe := ⟨by cases b <;> simp only [app] <;> decide, fun _ _ _ _ h => not_reached b h⟩

theorem unmanaged (b : Backend) (t : TableName) (c : Col) : ¬ Managed (app b).engine t c := by
  rintro ⟨tr, htr, u, hu, _⟩
  have := DbTrigger.mem_updates.2 hu
  simp [noUpdates b tr htr] at this

theorem unique_of_ids (b : Backend) {db : Db} (h : ∀ t ∈ ["photo", "tag"],
    ((db.rows t).map fun r => r "id").Nodup ∧ ∀ r ∈ db.rows t, r "id" ≠ .null) : KeysUnique (app b) db := by
  intro om hom
  simp only [app, List.mem_cons, List.not_mem_nil, or_false] at hom
  rcases hom with rfl | rfl
  · exact h "photo" (by simp)
  · exact h "tag" (by simp)

theorem models_keys (b : Backend) : ∀ om ∈ (app b).models, schema.key om.model.table = om.model.pk := by
  intro om hom
  simp only [app, List.mem_cons, List.not_mem_nil, or_false] at hom
  rcases hom with rfl | rfl <;> rfl

theorem distinct_db : KeysDistinct schema db := by
  intro t
  simp only [schema, db]
  split
  · decide
  · split
    · decide
    · split <;> decide

theorem constrained : Constrained schema labels := by
  intro d hd p hp
  simp only [labels, List.mem_singleton] at hd
  subst hd
  simp only [Dep.reference, Dep.m2mTable, Option.mem_def, Option.some.injEq] at hp
  subst hp
  exact ⟨by decide, rfl⟩

theorem linksKept (b : Backend) : LinksKept (app b) labels := by
  intro d hd p hp c _
  simp only [labels, List.mem_singleton] at hd
  subst hd
  simp only [Dep.reference, Dep.m2mTable, Option.mem_def, Option.some.injEq] at hp
  subst hp
  refine ⟨unmanaged b _ _, ?_⟩
  intro om hom ht
  simp only [app, List.mem_cons, List.not_mem_nil, or_false] at hom
  rcases hom with rfl | rfl <;> exact absurd ht (by decide)

theorem orderly_rename (b : Backend) {X : DbServer} {i : Nat} {id : Int} {n : String} {μs : List Move}
    (h : Orderly (app b) schema decls photoOrm labels μs ((app b).move schema X (.stmt i (rename id n)))) :
    Orderly (app b) schema decls photoOrm labels (.stmt i (rename id n) :: μs) X := by
  refine ⟨⟨legal_set (by decide) (by decide), ?_⟩, h⟩
  intro x r
  simp [schema, Row.set]

theorem orderly_handOver (b : Backend) {X : DbServer} {i : Nat} {id p : Int} {μs : List Move}
    (h : Orderly (app b) schema decls photoOrm labels μs ((app b).move schema X (.stmt i (handOver id p)))) :
    Orderly (app b) schema decls photoOrm labels (.stmt i (handOver id p) :: μs) X := by
  refine ⟨⟨legal_set (by decide) (by decide), ?_⟩, h⟩
  intro x r
  simp [schema, Row.set]

theorem orderly_link (b : Backend) {X : DbServer} {i : Nat} {id p t : Int} {μs : List Move}
    (hk : (((X.sight schema i).1.rows "photo_tags" ++ [lrow id p t]).map fun r => r "id").Nodup)
    (h : Orderly (app b) schema decls photoOrm labels μs ((app b).move schema X (.stmt i (link id p t)))) :
    Orderly (app b) schema decls photoOrm labels (.stmt i (link id p t) :: μs) X := by
  refine ⟨⟨?_, hk⟩, h⟩
  intro r hr
  refine ⟨?_, ?_⟩
  · intro q hq hqt
    simp only [Callback.pks, labels, List.map_cons, List.map_nil, List.mem_cons, List.not_mem_nil, or_false] at hq
    rcases hq with rfl | rfl <;> exact absurd hqt (by decide)
  · intro d hd ht
    simp only [labels, List.mem_singleton] at hd
    subst hd
    exact absurd ht (by decide)

theorem orderly_flush (b : Backend) {X : DbServer} {m : Mark} {μs : List Move} (hu : KeysUnique (app b) X.db)
    (h : Orderly (app b) schema decls photoOrm labels μs ((app b).move schema X (.flushOne m))) :
    Orderly (app b) schema decls photoOrm labels (.flushOne m :: μs) X :=
  ⟨⟨flushable b _, hu⟩, h⟩

/-- One session renames tag 2, another one gives photo 2 the tags 1 and 2. The second tag has to wait for the first session. flush() handles photo 2 twice: first while the renamed tag is
not committed, then with both tags, while tag 1 is being renamed. -/
def tagging : List Move :=
  [.stmt 0 (rename 2 "C"), .stmt 1 (link 2 2 1), .stmt 1 (link 3 2 2), .commit 1, .flushOne ⟨31, .int 2⟩, .commit 0,
    .stmt 1 (link 3 2 2), .commit 1, .stmt 0 (rename 1 "Z"), .flushOne ⟨31, .int 2⟩, .commit 0, .flushOne ⟨31, .int 1⟩]

theorem orderly_tagging : Orderly (app .mysql) schema decls photoOrm labels tagging ⟨db, List.replicate 2 none⟩ := by
  refine orderly_rename _ (orderly_link _ ?_ (orderly_link _ ?_ ⟨trivial, orderly_flush _ (unique_of_ids _ ?_) ⟨trivial,
    orderly_link _ ?_ ⟨trivial, orderly_rename _ (orderly_flush _ (unique_of_ids _ ?_) ⟨trivial, orderly_flush _ (unique_of_ids _ ?_) trivial⟩)⟩⟩⟩))
  all_goals decide +kernel

/-- C58 on MySQL applies. flush() stores what is committed: "A", then "A" and "C" while tag 1 is being renamed; and photo 2 is marked again in the end. -/
example : (∀ r ∈ ((app .mysql).moves schema tagging ⟨db, List.replicate 2 none⟩).db.rows labels.model.table,
      r labels.field = labels.value ((app .mysql).moves schema tagging ⟨db, List.replicate 2 none⟩).db r ∨
      ⟨labels.model.ct, r labels.model.pk⟩ ∈ ((app .mysql).moves schema tagging ⟨db, List.replicate 2 none⟩).db.dirty) ∧
    (((app .mysql).moves schema (tagging.take 5) ⟨db, List.replicate 2 none⟩).db.rows "photo").map (fun r => r "labels") = [.text "A", .text "A"] ∧
    (((app .mysql).moves schema tagging ⟨db, List.replicate 2 none⟩).db.rows "photo").map (fun r => r "labels") = [.text "Z", .text "AC"] ∧
    ((app .mysql).moves schema tagging ⟨db, List.replicate 2 none⟩).db.dirty = [⟨31, .int 2⟩] := by
  refine ⟨C58_mysql_partial rfl constrained (linksKept _) rfl (wd _) (noReentry _) rfl (models_keys _) (fun t => unmanaged _ t _)
    distinct_db (by unfold KeysOk; decide) (by unfold StaleMarked; decide) ?_ orderly_tagging, by decide +kernel⟩
  intro i s h
  simp only [tagging, List.mem_cons, Move.stmt.injEq, List.not_mem_nil, or_false, reduceCtorEq, false_or] at h
  rcases h with ⟨_, rfl⟩ | ⟨_, rfl⟩ | ⟨_, rfl⟩ | ⟨_, rfl⟩ | ⟨_, rfl⟩ <;> try trivial
  all_goals
    intro d hd p hp ht
    simp only [labels, List.mem_singleton] at hd
    subst hd
    simp only [Dep.reference, Dep.m2mTable, Option.mem_def, Option.some.injEq] at hp
    subst hp
    exact absurd ht (by decide)

/-- One session renames the tag, another one hands over the link of photo 1 to photo 2. -/
def handedOver : List Move :=
  [.stmt 0 (rename 1 "Z"), .stmt 1 (handOver 1 2), .commit 1, .flushOne ⟨31, .int 1⟩, .flushOne ⟨31, .int 2⟩, .commit 0, .flushOne ⟨31, .int 1⟩]

/-- C58 refuted on MySQL with foreign key constraints, where links are handed over: this does not touch the tag, so it need not wait for the session that renames it.
Nothing is marked in the end, yet photo 2 has the old name of its tag. -/
theorem C58_violated_handed_over :
    Constrained schema labels ∧ LinksKept (app .mysql) labels ∧
    Orderly (app .mysql) schema decls photoOrm labels handedOver ⟨db, List.replicate 2 none⟩ ∧
    ((app .mysql).moves schema handedOver ⟨db, List.replicate 2 none⟩).db.dirty = [] ∧
    ∃ r ∈ ((app .mysql).moves schema handedOver ⟨db, List.replicate 2 none⟩).db.rows labels.model.table,
      r labels.field ≠ labels.value ((app .mysql).moves schema handedOver ⟨db, List.replicate 2 none⟩).db r := by
  refine ⟨constrained, linksKept _, ?_, by decide +kernel⟩
  refine orderly_rename _ (orderly_handOver _ ⟨trivial, orderly_flush _ (unique_of_ids _ ?_) (orderly_flush _ (unique_of_ids _ ?_) ⟨trivial,
    orderly_flush _ (unique_of_ids _ ?_) trivial⟩)⟩)
  all_goals decide +kernel

end Album
end Denorm
