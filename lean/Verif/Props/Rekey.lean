import Verif.Lemmas.Rekey
import Verif.Props.Cascade
import Verif.Props.TxnBound
/-!
# Changing primary keys (C92), and foreign keys that delete linked rows (C91)
-/
namespace Denorm

/-- **C92, partial.** A history may change primary keys, and may leave references pointing nowhere for a while, as transactions with deferred
constraints do. If in the end the references of the callback's relations point to rows that are there, every instance whose
`@denormalized` value is out of date has a dirty marker, if that was so before. Missing: CountField and SumField, for which it is false
(`C92_violated_count`); references that point nowhere in the end (false, `C92_violated_dangling`); rows inserted into the other table of a
many-to-many relation under a key that is linked to already (false, `C92_violated_reinserted`). -/
theorem C92_marked_partial {E : Engine} {D : List Denorm} {cb : Callback} (hE : Installed E D) (hD : WellDeclared E.backend D cb)
    (hW : KeysWatched cb) (hN : NoReentry E) {fuel : Nat} {ss : List Stmt} {db0 : Db} (hL : KeyedRun E cb fuel ss db0)
    (hK : KeysOk cb db0) (hA : KeysApart cb db0)
    (hS : ∀ r ∈ db0.rows cb.model.table, r cb.field = cb.value db0 r ∨ Marked cb.model db0 r) (hR : RefsIntact cb (E.run fuel ss db0)) :
    ∀ r ∈ (E.run fuel ss db0).rows cb.model.table,
      r cb.field ≠ cb.value (E.run fuel ss db0) r → Marked cb.model (E.run fuel ss db0) r := by
  intro r hr hne
  rcases (rekey_run hE hD hW hN (freshTracked cb) hL hK hA fun r hr => (hS r hr).symm).2 r hr with h | h | ⟨d, hd, h⟩
  · exact h
  · exact absurd h hne
  · exact absurd h (hR r hr d hd)

/-- **C92, partial.** flush() after such a history leaves nothing stale (for fields as in C01). -/
theorem C92_flush_partial {A : App} {D : List Denorm} {om : OrmModel} {cb : Callback} (hW : KeysWatched cb) {fuel : Nat} {ss : List Stmt}
    {db0 db' : Db} (hL : KeyedRun A.engine cb fuel ss db0) (hK : KeysOk cb db0) (hA : KeysApart cb db0)
    (hS : ∀ r ∈ db0.rows cb.model.table, r cb.field = cb.value db0 r ∨ Marked cb.model db0 r)
    (hR : RefsIntact cb (A.engine.run fuel ss db0)) (hF : Flushable A D om cb (A.engine.run fuel ss db0))
    (hu : KeysUnique A (A.engine.run fuel ss db0)) {n : Nat} (h : A.flush n (A.engine.run fuel ss db0) = .ok (some db')) :
    db'.dirty = [] ∧ ∀ r ∈ db'.rows cb.model.table, r cb.field = cb.value db' r := by
  obtain ⟨hK', hg⟩ := rekey_run hF.installed hF.declared hW hF.noReentry (freshTracked cb) hL hK hA fun r hr => (hS r hr).symm
  refine C01_flush_partial hF hu hK' (staleMarked_iff.2 fun r hr => ?_) h
  rcases hg r hr with h | h | ⟨d, hd, h⟩
  · exact .inl h
  · exact .inr h
  · exact absurd h (hR r hr d hd)

/-- **C91, partial.** On sqlite and PostgreSQL the foreign keys of the database may also delete rows of the other table of a many-to-many
relation, together with the links to them; and keys may change meanwhile. What is asked for is that references point to rows that are
there in the end. -/
theorem C91_references_partial {E : Engine} {D : List Denorm} {cb : Callback} (hb : E.backend ≠ .mysql) (hE : Installed E D)
    (hD : WellDeclared E.backend D cb) (hW : KeysWatched cb) (hN : NoReentry E) {fs : List ForeignRef} (hf : RefsKeepKeys cb fs) {fuel : Nat}
    {ss : List Stmt} {db0 : Db} (hL : KeyedRefs E cb fs fuel ss db0) (hK : KeysOk cb db0) (hA : KeysApart cb db0)
    (hS : ∀ r ∈ db0.rows cb.model.table, r cb.field = cb.value db0 r ∨ Marked cb.model db0 r) (hR : RefsIntact cb (E.runRefs fs fuel ss db0)) :
    ∀ r ∈ (E.runRefs fs fuel ss db0).rows cb.model.table,
      r cb.field ≠ cb.value (E.runRefs fs fuel ss db0) r → Marked cb.model (E.runRefs fs fuel ss db0) r := by
  intro r hr hne
  rcases (rekey_runRefs hb hE hD hW hN (freshTracked cb) hf hL hK hA fun r hr => (hS r hr).symm).2 r hr with h | h | ⟨d, hd, h⟩
  · exact h
  · exact absurd h hne
  · exact absurd h (hR r hr d hd)

/-- **C91, partial.** flush() after such a history leaves nothing stale (for fields as in C01). -/
theorem C91_references_flush_partial {A : App} {D : List Denorm} {om : OrmModel} {cb : Callback} (hb : A.engine.backend ≠ .mysql)
    (hW : KeysWatched cb) {fs : List ForeignRef} (hf : RefsKeepKeys cb fs) {fuel : Nat} {ss : List Stmt} {db0 db' : Db}
    (hL : KeyedRefs A.engine cb fs fuel ss db0) (hK : KeysOk cb db0) (hA : KeysApart cb db0)
    (hS : ∀ r ∈ db0.rows cb.model.table, r cb.field = cb.value db0 r ∨ Marked cb.model db0 r)
    (hR : RefsIntact cb (A.engine.runRefs fs fuel ss db0)) (hF : Flushable A D om cb (A.engine.runRefs fs fuel ss db0))
    (hu : KeysUnique A (A.engine.runRefs fs fuel ss db0)) {n : Nat} (h : A.flush n (A.engine.runRefs fs fuel ss db0) = .ok (some db')) :
    db'.dirty = [] ∧ ∀ r ∈ db'.rows cb.model.table, r cb.field = cb.value db' r := by
  obtain ⟨hK', hg⟩ := rekey_runRefs hb hF.installed hF.declared hW hF.noReentry (freshTracked cb) hf hL hK hA fun r hr => (hS r hr).symm
  refine C01_flush_partial hF hu hK' (staleMarked_iff.2 fun r hr => ?_) h
  rcases hg r hr with h | h | ⟨d, hd, h⟩
  · exact .inl h
  · exact .inr h
  · exact absurd h (hR r hr d hd)

/-! ## Photos and tags, with other keys -/
namespace Album
set_option maxRecDepth 100000

/-- `UPDATE t SET col = new WHERE col = old` -/
def setKey (t : TableName) (col : Col) (old new : Int) : Stmt := .update t (fun r => r col == .int old) fun _ r => r.set col (.int new)

/-- Tag 1 becomes tag 9 and gets another name; photo 1 becomes photo 5. Each time the link follows. -/
def rekeyed : List Stmt :=
  [setKey "tag" "id" 1 9, rename 9 "Z", setKey "photo_tags" "tag_id" 1 9, setKey "photo" "id" 1 5, setKey "photo_tags" "photo_id" 1 5]

/-- `C92_flush_partial`: afterwards photo 5 has the new name of the tag. Before flush() it is marked, and its labels are old. -/
example (b : Backend) : ∃ db', (app b).flush 2 ((engine b).run 100 rekeyed db) = .ok (some db') ∧
    (((engine b).run 100 rekeyed db).rows "photo").map (fun r => (r "id", r "labels")) = [(.int 5, .text "A"), (.int 2, .text "")] ∧
    ⟨31, .int 5⟩ ∈ ((engine b).run 100 rekeyed db).dirty ∧
    (db'.rows "photo").map (fun r => (r "id", r "labels")) = [(.int 5, .text "Z"), (.int 2, .text "")] ∧
    ∀ r ∈ db'.rows "photo", r "labels" = labels.value db' r := by
  obtain ⟨db', h, h1⟩ : ∃ db', (app b).flush 2 ((engine b).run 100 rekeyed db) = .ok (some db') ∧
      (db'.rows "photo").map (fun r => (r "id", r "labels")) = [(.int 5, .text "Z"), (.int 2, .text "")] :=
    flush_of (by cases b <;> decide +kernel)
  exact ⟨db', h, by cases b <;> decide +kernel, by cases b <;> decide +kernel, h1,
    (C92_flush_partial (A := app b) (by decide) (by cases b <;> decide +kernel) (by unfold KeysOk; decide) (by unfold KeysApart; decide) (by decide)
      (by unfold RefsIntact; cases b <;> decide +kernel) (flushable b _) (unique_of_ids b (by cases b <;> decide +kernel)) h).2⟩

/-- `photo_tags.tag_id REFERENCES tag ON DELETE CASCADE` -/
def tagRefs : List ForeignRef := [⟨"photo_tags", "tag_id", "tag", "id", .cascade⟩, ⟨"photo_tags", "photo_id", "photo", "id", .cascade⟩]

/-- `DELETE FROM tag WHERE id = 1` -/
def dropTag : Stmt := .delete "tag" fun r => decide (r "id" = .int 1)

/-- `C91_references_flush_partial`: the deleted tag takes its link with it, and after flush() photo 1 has no labels. -/
example (b : Backend) (hb : b ≠ .mysql) : ∃ db', (app b).flush 2 ((engine b).runRefs tagRefs 100 [dropTag] db) = .ok (some db') ∧
    (db'.rows "photo").map (fun r => r "labels") = [.text "", .text ""] ∧ db'.rows "photo_tags" = [] ∧
    ∀ r ∈ db'.rows "photo", r "labels" = labels.value db' r := by
  obtain ⟨db', h, h1, h2⟩ : ∃ db', (app b).flush 2 ((engine b).runRefs tagRefs 100 [dropTag] db) = .ok (some db') ∧
      ((db'.rows "photo").map (fun r => r "labels") = [.text "", .text ""] ∧ (db'.rows "photo_tags").isEmpty = true) :=
    flush_of (by cases b <;> first | exact absurd rfl hb | decide +kernel)
  have hL : KeyedRefs (engine b) labels tagRefs 100 [dropTag] db := by
    refine ⟨fun hs => absurd rfl (hs _ _), ?_⟩
    cases (engine b).execRefs tagRefs 100 dropTag db <;> trivial
  exact ⟨db', h, h1, List.isEmpty_iff.1 h2,
    (C91_references_flush_partial (A := app b) (by simpa [app, engine] using hb) (by decide) (fs := tagRefs) (by unfold RefsKeepKeys; decide) hL
      (by unfold KeysOk; decide) (by unfold KeysApart; decide) (by decide)
      (by unfold RefsIntact; cases b <;> first | exact absurd rfl hb | decide +kernel) (flushable b _)
      (unique_of_ids b (by cases b <;> first | exact absurd rfl hb | decide +kernel)) h).2⟩

/-- Tag 1 is deleted and inserted again under another name, while photo 1 is linked to it. -/
def reinserted : List Stmt := [dropTag, .insert "tag" [trow 1 "Z"]]

theorem reinserted_facts (b : Backend) : RefsIntact labels ((engine b).run 100 reinserted db) ∧ ((engine b).run 100 reinserted db).dirty = [] ∧
    ∃ r ∈ ((engine b).run 100 reinserted db).rows "photo", r "labels" ≠ labels.value ((engine b).run 100 reinserted db) r := by
  unfold RefsIntact
  cases b <;> decide +kernel

end Album

/-- **C92 is violated** for many-to-many relations if the other row is deleted and inserted again while it is linked to (with constraints that
are checked at the end of the transaction, as Django's are on PostgreSQL and sqlite): references are in order in the end, yet nothing is
marked and the stored value is out of date. There is no trigger for insertions and deletions on the other table. -/
theorem C92_violated_reinserted (b : Backend) : ∃ (E : Engine) (D : List Denorm) (cb : Callback) (ss : List Stmt) (db0 : Db),
    E.backend = b ∧ Installed E D ∧ WellDeclared E.backend D cb ∧ KeysWatched cb ∧ NoReentry E ∧ KeysOk cb db0 ∧ KeysApart cb db0 ∧
    (∀ r ∈ db0.rows cb.model.table, r cb.field = cb.value db0 r) ∧ RefsIntact cb db0 ∧ RefsIntact cb (E.run 100 ss db0) ∧
    (E.run 100 ss db0).dirty = [] ∧ ∃ r ∈ (E.run 100 ss db0).rows cb.model.table, r cb.field ≠ cb.value (E.run 100 ss db0) r := by
  obtain ⟨h1, h2, h3⟩ := Album.reinserted_facts b
  exact ⟨Album.engine b, Album.decls, Album.labels, Album.reinserted, Album.db, rfl, rfl, Album.wd b, by decide, Album.noReentry b,
    by unfold KeysOk; decide, by unfold KeysApart; decide, by decide, by unfold RefsIntact; decide, h1, h2, h3⟩

namespace Chain
set_option maxRecDepth 100000

/-- The blog gets another key, and its entry follows: with `label` this is a case of `C92_marked_partial` for a ForeignKey. -/
def moveBlog : List Stmt := [Album.setKey "blog" "id" 1 9, Album.setKey "entry" "blog_id" 1 9, .update "blog" (fun _ => true) fun _ r => r.set "title" (.text "Z")]

example (b : Backend) : ∃ db', (app b).flush 2 ((engine b).run 100 moveBlog db) = .ok (some db') ∧
    (db'.rows "entry").map (fun r => (r "blog_id", r "label")) = [(.int 9, .text "Z")] ∧ ∀ r ∈ db'.rows "entry", r "label" = label.value db' r := by
  obtain ⟨db', h, h1⟩ : ∃ db', (app b).flush 2 ((engine b).run 100 moveBlog db) = .ok (some db') ∧
      (db'.rows "entry").map (fun r => (r "blog_id", r "label")) = [(.int 9, .text "Z")] := flush_of (by cases b <;> decide +kernel)
  exact ⟨db', h, h1, (C92_flush_partial (A := app b) (by decide) (by cases b <;> decide +kernel) (by unfold KeysOk; decide)
    (by unfold KeysApart; decide) (by decide) (by unfold RefsIntact; cases b <;> decide +kernel) (flushable_label b _ _)
    (by unfold KeysUnique; cases b <;> decide +kernel) h).2⟩

/-- Only the blog gets another key. -/
def loseBlog : List Stmt := [Album.setKey "blog" "id" 1 9]

theorem loseBlog_facts (b : Backend) : KeyedRun (engine b) label 100 loseBlog db ∧ ((engine b).run 100 loseBlog db).dirty = [] ∧
    ∃ r ∈ ((engine b).run 100 loseBlog db).rows "entry", r "label" ≠ label.value ((engine b).run 100 loseBlog db) r := by
  cases b <;> decide +kernel

end Chain

/-- **C92 is violated** where nothing keeps references in order (`db_constraint=False`, MyISAM, or sqlite without `PRAGMA foreign_keys`): when the key
of a row changes, the trigger looks for instances that refer to the new key. Those that refer to the old one, whose value is out of
date now, are not marked. -/
theorem C92_violated_dangling (b : Backend) : ∃ (E : Engine) (D : List Denorm) (cb : Callback) (ss : List Stmt) (db0 : Db),
    E.backend = b ∧ Installed E D ∧ WellDeclared E.backend D cb ∧ KeysWatched cb ∧ NoReentry E ∧ KeyedRun E cb 100 ss db0 ∧ KeysOk cb db0 ∧
    KeysApart cb db0 ∧ (∀ r ∈ db0.rows cb.model.table, r cb.field = cb.value db0 r) ∧ RefsIntact cb db0 ∧
    (E.run 100 ss db0).dirty = [] ∧ ∃ r ∈ (E.run 100 ss db0).rows cb.model.table, r cb.field ≠ cb.value (E.run 100 ss db0) r := by
  obtain ⟨h1, h2, h3⟩ := Chain.loseBlog_facts b
  have hF := Chain.flushable_label b (fun l => l) Chain.db
  exact ⟨Chain.engine b, Chain.decls, Chain.label, Chain.loseBlog, Chain.db, rfl, hF.installed, hF.declared, by decide, hF.noReentry, h1,
    by unfold KeysOk; decide, by unfold KeysApart; decide, by decide, by unfold RefsIntact; decide, h2, h3⟩

namespace Crates
set_option maxRecDepth 100000

/-- Crate 1 becomes crate 9, and its things follow. -/
def moveCrate : List Stmt := [Album.setKey "crate" "id" 1 9, Album.setKey "thing" "crate_id" 1 9]

/-- First the things, then the crate. -/
def moveThings : List Stmt := [Album.setKey "thing" "crate_id" 1 9, Album.setKey "crate" "id" 1 9]

theorem moved_facts (b : Backend) :
    (∃ db', (app b).flush 2 ((engine b).run 100 moveCrate db) = .ok (some db') ∧
      (db'.rows "crate").map (fun r => (r "id", r "load", r "size", r "weight")) =
        [(.int 9, .int 7, .int 4, .int 14), (.int 2, .int 0, .int 0, .int 0)] ∧ (db'.rows "crate").map (fun r => size.total db' (r "id")) = [2, 0]) ∧
    ∃ db', (app b).flush 2 ((engine b).run 100 moveThings db) = .ok (some db') ∧
      (db'.rows "crate").map (fun r => (r "id", r "load", r "size", r "weight")) =
        [(.int 9, .int 7, .int 0, .int 0), (.int 2, .int 0, .int 0, .int 0)] ∧ (db'.rows "crate").map (fun r => size.total db' (r "id")) = [2, 0] :=
  ⟨flush_of (by cases b <;> decide +kernel), flush_of (by cases b <;> decide +kernel)⟩

end Crates

/-- **C92 is violated** for CountField and SumField on every backend: after the key of the counted instance and the references to it have been
changed, the number of related rows is counted twice, or not at all if the references were changed first. flush() does not put it right. -/
theorem C92_violated_count (b : Backend) (twice : Bool) : ∃ (A : App) (D : List Denorm) (a : AggDenorm) (ss : List Stmt) (db0 db' : Db),
    A.engine.backend = b ∧ Installed A.engine D ∧ AggDeclared A.engine.backend D a ∧ a.agg = .count ∧ NoReentry A.engine ∧ AggOk a db0 ∧
    db0.dirty = [] ∧ A.flush 2 (A.engine.run 100 ss db0) = .ok (some db') ∧
    ∃ r ∈ db'.rows a.model.table, a.total db' (r a.model.pk) = 2 ∧ r a.fieldname = .int (if twice then 4 else 0) := by
  obtain ⟨⟨d1, h1, h2, h3⟩, d2, h4, h5, h6⟩ := Crates.moved_facts b
  have pick : ∀ {d : Db} {x : Int}, (d.rows "crate").map (fun r => (r "id", r "load", r "size", r "weight")) =
      [(.int 9, .int 7, .int x, .int (x / 2 * 7)), (.int 2, .int 0, .int 0, .int 0)] →
      (d.rows "crate").map (fun r => Crates.size.total d (r "id")) = [2, 0] →
      ∃ r ∈ d.rows "crate", Crates.size.total d (r "id") = 2 ∧ r "size" = .int x := by
    intro d x e1 e2
    cases hr : d.rows "crate" with
    | nil => rw [hr] at e1; cases e1
    | cons r rs =>
      rw [hr] at e1 e2
      simp only [List.map_cons, List.cons.injEq, Prod.mk.injEq] at e1 e2
      exact ⟨r, List.mem_cons_self .., e2.1, e1.1.2.2.1⟩
  cases twice
  · exact ⟨Crates.app b, Crates.decls, Crates.size, Crates.moveThings, Crates.db, d2, rfl, Crates.installed b, Crates.ad_size b, rfl,
      Crates.noReentry b, by unfold AggOk; decide, rfl, h4, pick h5 h6⟩
  · exact ⟨Crates.app b, Crates.decls, Crates.size, Crates.moveCrate, Crates.db, d1, rfl, Crates.installed b, Crates.ad_size b, rfl,
      Crates.noReentry b, by unfold AggOk; decide, rfl, h1, pick h2 h3⟩

end Denorm
