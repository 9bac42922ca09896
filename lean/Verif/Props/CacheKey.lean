import Verif.Lemmas.KeyDeclared
import Verif.DemoFacts
/-!
# CacheKeyField is renewed when a dependency changes (C15)
-/
namespace Denorm

section
variable {E : Engine} {D : List Denorm} {k : KeyField} {fuel : Nat} {s : Stmt} {db db' : Db}

/-- C15, renewal. Take any row change `ch` that happens while a statement runs, made by the statement or by a trigger; `db1` is the
database right after it. When the statement is done, every instance the change concerned through one of the dependencies holds
a key drawn since the change, and each of them holds a draw of its own. -/
theorem C15_renewed (hE : Installed E D) (hD : KeyDeclared E.backend D k) (hN : NoReentry E) (hL : LegalStmt E k.relations db s)
    (hK : KeysOk k.relations db) (hS : KeyLegal k db s) (he : E.exec fuel s db = .ok db') {ch : Change} {db1 : Db}
    (hch : (ch, db1) ∈ E.changesOf fuel s db) :
    ∃ draw : Nat → Nat,
      (∀ (i : Nat) (r : Row), (db'.rows k.model.table)[i]? = some r → k.Concerned ch db1 (r k.model.pk) →
        r k.field = .int (E.rand (draw i)) ∧ db1.draws ≤ draw i ∧ draw i < db'.draws) ∧
      ∀ (i j : Nat) (r r' : Row), (db'.rows k.model.table)[i]? = some r → k.Concerned ch db1 (r k.model.pk) →
        (db'.rows k.model.table)[j]? = some r' → k.Concerned ch db1 (r' k.model.pk) → draw i = draw j → i = j := by
  obtain ⟨rank, hR⟩ := hN.ranked
  have hT := keyTracks_of_installed hE hD
  have h := (keyInv_begins (s := s) hT hR ch db1).exec (keyBase hT hR) (keyInv hT hR _ _) (keyBase_begin hL hK hS) he hch ⟨rfl, rfl⟩
  obtain ⟨zs, hz1, hz2, hz3, hz4⟩ := h.drawn
  have hz : ∀ (i : Nat) (r : Row), (db'.rows k.model.table)[i]? = some r → k.Concerned ch db1 (r k.model.pk) →
      ∃ n, zs[i]? = some (r, some n) := by
    intro i r hi hC
    rw [← hz1, List.getElem?_map] at hi
    cases hzi : zs[i]? with
    | none => rw [hzi] at hi; simp at hi
    | some z =>
      rw [hzi] at hi
      simp only [Option.map_some, Option.some.injEq] at hi
      subst hi
      rcases hz4 i z hzi hC with h1 | ⟨it, hit, _⟩
      · cases hn : z.2 with
        | none => exact absurd hn h1
        | some n => exact ⟨n, by rw [← hn]⟩
      · simp at hit
  refine ⟨fun i => ((zs[i]?).bind Prod.snd).getD 0, ?_, ?_⟩
  · intro i r hi hC
    obtain ⟨n, hn⟩ := hz i r hi hC
    have h1 := hz3 _ (List.mem_of_getElem? hn) n rfl
    simp only [hn, Option.bind_some, Option.getD_some]
    exact ⟨h1.2.2, h1.1, h1.2.1⟩
  · intro i j r r' hi hC hj hC' he
    obtain ⟨n, hn⟩ := hz i r hi hC
    obtain ⟨m, hm⟩ := hz j r' hj hC'
    simp only [hn, hm, Option.bind_some, Option.getD_some] at he
    subst he
    exact nodup_draws hz2 hn hm rfl rfl

/-- C15, unrelated instances. If no row change of the statement, nested ones included, is one of a row related to the instance with
primary key `v` or of a row that links it, the instance keeps its key. What is missing: for a generic relation `Touches` looks at the
object id only, not at the content type; see `C15_violated_generic`. -/
theorem C15_unrelated_kept_partial (hE : Installed E D) (hD : KeyDeclared E.backend D k) (hN : NoReentry E)
    (hL : LegalStmt E k.relations db s) (hK : KeysOk k.relations db) {v : Val} (hS : k.Spares v db s)
    (he : E.exec fuel s db = .ok db') (hQ : ∀ p ∈ E.changesOf fuel s db, ¬ k.Touches p.1 p.2 v) :
    ∀ r ∈ db'.rows k.model.table, r k.model.pk = v →
      ∃ r0 ∈ db.rows k.model.table, r0 k.model.pk = v ∧ r k.field = r0 k.field := by
  obtain ⟨rank, hR⟩ := hN.ranked
  have hT := keyTracks_of_installed hE hD
  have hs := keySource_of_installed hE hD
  exact ((keepInv hT hs hR db).exec (keepInv_begin (rank := rank) hL hK hS) he hQ).kept

/-- Without generic relations nothing is missing: `Touches` then says that the changed row is related to the instance or links it. -/
theorem touches_exact {ch : Change} {v : Val} (hg : ∀ d ∈ k.deps, ∀ g, d.dep.rel ≠ .forwardM2M (.generic g)) :
    k.Touches ch db v ↔ ∃ r ∈ db.rows k.model.table, r k.model.pk = v ∧ ∃ d ∈ k.deps,
      (ch.table = d.dep.otherTable ∧ ∃ o ∈ ch.versions, d.dep.relatedTo db r o) ∨
      ∃ x ∈ d.dep.m2mTable, ch.table = x.1 ∧ ∃ l ∈ ch.versions, Val.sqlEq (l x.2.1) (r d.dep.this.pk) = true := by
  have : ∀ d ∈ k.deps, ∀ r o, d.dep.mayRelate db r o ↔ d.dep.relatedTo db r o := by
    intro d hd r o
    unfold Dep.mayRelate
    split
    · exact absurd ‹_› (hg d hd _)
    · exact Iff.rfl
  constructor
  · rintro ⟨r, h1, h2, d, hd, h3⟩
    exact ⟨r, h1, h2, d, hd, h3.imp_left fun ⟨h4, o, h5, h6⟩ => ⟨h4, o, h5, (this d hd r o).1 h6⟩⟩
  · rintro ⟨r, h1, h2, d, hd, h3⟩
    exact ⟨r, h1, h2, d, hd, h3.imp_left fun ⟨h4, o, h5, h6⟩ => ⟨h4, o, h5, (this d hd r o).2 h6⟩⟩
end

/-! ## A project with CacheKeyFields -/

namespace Keys
set_option maxRecDepth 100000
open Demo (fld fkf row)

def section_ : Model :=
  { repr := "<class 'app.Section'>", appLabel := "app", name := "Section", table := "section", pkTable := "section", pk := "id", ct := 1,
    fields := [fld "id", fld "name"] }

def tagRel : GenericRel := ⟨"tags", some "<class 'app.Tag'>", "object_id", "content_type", "tag", "id",
  ["id", "name", "content_type_id", "object_id"]⟩

def forumSection : Field := fkf "section" "<class 'app.Section'>"

def forum : Model :=
  { repr := "<class 'app.Forum'>", appLabel := "app", name := "Forum", table := "forum", pkTable := "forum", pk := "id", ct := 2,
    fields := [fld "id", forumSection, fld "key"], privates := [tagRel] }

def postForum : Field := fkf "forum" "<class 'app.Forum'>"

def post : Model :=
  { repr := "<class 'app.Post'>", appLabel := "app", name := "Post", table := "post", pkTable := "post", pk := "id", ct := 3,
    fields := [fld "id", postForum, fld "title"] }

def bookmarks : M2M := ⟨"bookmarks", "<class 'app.Post'>", "member_bookmarks", "member_id", "post_id"⟩

def member : Model :=
  { repr := "<class 'app.Member'>", appLabel := "app", name := "Member", table := "member", pkTable := "member", pk := "id", ct := 4,
    fields := [fld "id", fld "key"], m2ms := [bookmarks] }

def tag : Model :=
  { repr := "<class 'app.Tag'>", appLabel := "app", name := "Tag", table := "tag", pkTable := "tag", pk := "id", ct := 5,
    fields := [fld "id", fld "name", fld "content_type_id", fld "object_id"] }

/-- `Forum.key`, a CacheKeyField that depends on Section (forward), Post (backward) and Tag (generic). -/
def forumKey : KeyField :=
  { model := forum, field := "key",
    deps := [⟨⟨forum, section_, .forward forumSection, []⟩, ["name"]⟩, ⟨⟨forum, post, .backward postForum, []⟩, ["title"]⟩,
      ⟨⟨forum, tag, .forwardM2M (.generic tagRel), []⟩, ["name"]⟩] }

/-- `Member.key`, a CacheKeyField that depends on Post (many-to-many). -/
def memberKey : KeyField :=
  { model := member, field := "key", deps := [⟨⟨member, post, .forwardM2M (.m2m bookmarks), []⟩, ["title"]⟩] }

def decls : List Denorm := [forumKey.denorm, memberKey.denorm]

def engine (b : Backend) : Engine := ⟨b, installedTriggers b decls, fun n => 100 + n⟩

theorem wd_forum (b : Backend) : KeyDeclared b decls forumKey where
  declared := by simp [decls]
  agree := by cases b <;> decide
  this := by simp [forumKey]
  watched := by decide
  keys := by decide
  fks := by decide
  links := by
    intro d hd l hl
    simp only [forumKey, List.mem_cons, List.not_mem_nil, or_false] at hd
    rcases hd with rfl | rfl | rfl <;> simp [Dep.m2mTable] at hl
  only := by
    intro dn hdn
    simp only [decls, List.mem_cons, List.not_mem_nil, or_false] at hdn
    rcases hdn with rfl | rfl
    · exact fun _ => rfl
    · intro h; exact absurd h (by decide)

theorem wd_member (b : Backend) : KeyDeclared b decls memberKey where
  declared := by simp [decls]
  agree := by cases b <;> decide
  this := by simp [memberKey]
  watched := by decide
  keys := by decide
  fks := by decide
  links := by
    intro d hd l hl
    simp only [memberKey, List.mem_singleton] at hd
    subst hd
    simp only [Dep.m2mTable, bookmarks, Option.mem_def, Option.some.injEq] at hl
    subst hl
    decide
  only := by
    intro dn hdn
    simp only [decls, List.mem_cons, List.not_mem_nil, or_false] at hdn
    rcases hdn with rfl | rfl
    · intro h; exact absurd h (by decide)
    · exact fun _ => rfl

theorem noReentry (b : Backend) : NoReentry (engine b) := by
  apply noReentry_of (fun _ => 0)
  cases b <;> decide

def frow (id sec key : Int) : Row := row [("id", .int id), ("section_id", .int sec), ("key", .int key)]
def prow (id forum : Int) (title : String) : Row := row [("id", .int id), ("forum_id", .int forum), ("title", .text title)]
def mrow (id key : Int) : Row := row [("id", .int id), ("key", .int key)]
def brow (id m p : Int) : Row := row [("id", .int id), ("member_id", .int m), ("post_id", .int p)]
def trow (id : Int) (name : String) (ct oid : Int) : Row :=
  row [("id", .int id), ("name", .text name), ("content_type_id", .int ct), ("object_id", .int oid)]

/-- Section 1 has forums 1 and 2, section 2 has forum 3; a post in forum 1, bookmarked by member 1; a tag on forum 1. -/
def db : Db :=
  ⟨fun t =>
    if t = "section" then [row [("id", .int 1), ("name", .text "s")], row [("id", .int 2), ("name", .text "t")]]
    else if t = "forum" then [frow 1 1 11, frow 2 1 12, frow 3 2 13]
    else if t = "post" then [prow 1 1 "x"]
    else if t = "member" then [mrow 1 21, mrow 2 22]
    else if t = "member_bookmarks" then [brow 1 1 1]
    else if t = "tag" then [trow 1 "t" 2 1]
    else [], [], 0⟩

def is (n : Int) (r : Row) : Bool := r "id" == .int n

/-- `Section.objects.filter(pk=1).update(name='u')` -/
def rename : Stmt := .update "section" (is 1) (fun _ r => r.set "name" (.text "u"))

/-- `Post.objects.filter(pk=1).update(title='y')` -/
def retitle : Stmt := .update "post" (is 1) (fun _ r => r.set "title" (.text "y"))

/-- A tag of forum 1 becomes a tag of post 2: `tag.content_object = post2; tag.save()`. -/
def retag : Stmt := .update "tag" (is 1) (fun _ r => (r.set "content_type_id" (.int 3)).set "object_id" (.int 2))

theorem legal_update {k : KeyField} {b : Backend} {t : TableName} {w : Row → Bool} {c : Col} {v : Val}
    (h : ∀ p ∈ k.relations.pks, p.1 = t → p.2 ≠ c) : LegalStmt (engine b) k.relations db (.update t w fun _ r => r.set c v) := by
  intro p hp ht x r
  simp [Row.set, h p hp ht]

theorem keysOk (k : KeyField) (hk : k = forumKey ∨ k = memberKey) : KeysOk k.relations db := by
  rcases hk with rfl | rfl <;> (unfold KeysOk; decide)

/-- The hypotheses of `C15_renewed` are met by a project on every backend; two forums are concerned. -/
example (b : Backend) : Installed (engine b) decls ∧ KeyDeclared b decls forumKey ∧ NoReentry (engine b) ∧
    LegalStmt (engine b) forumKey.relations db rename ∧ KeysOk forumKey.relations db ∧ KeyLegal forumKey db rename ∧
    (∃ db', (engine b).exec 20 rename db = .ok db' ∧
      (db'.rows "forum").map (fun r => r "key") = [.int ((engine b).rand 1), .int ((engine b).rand 2), .int 13]) ∧
    ∃ p ∈ (engine b).changesOf 20 rename db,
      (∃ r ∈ p.2.rows "forum", r "id" = .int 1 ∧ ∃ d ∈ forumKey.deps, p.1.table = d.dep.otherTable ∧ ∃ o ∈ p.1.versions, d.dep.relatedTo p.2 r o) ∧
      (∃ r ∈ p.2.rows "forum", r "id" = .int 2 ∧ ∃ d ∈ forumKey.deps, p.1.table = d.dep.otherTable ∧ ∃ o ∈ p.1.versions, d.dep.relatedTo p.2 r o) := by
  refine ⟨rfl, wd_forum b, noReentry b, legal_update (by decide), keysOk _ (.inl rfl), fun h => absurd h (by decide), ?_, ?_⟩
  · apply ok_of
    cases b <;> decide
  · cases b <;> decide

/-- The hypotheses of `C15_unrelated_kept_partial` are met: forum 3 and, for the same statement, member 2 are not touched. -/
example (b : Backend) : KeysOk memberKey.relations db ∧ forumKey.Spares (.int 3) db rename ∧
    (∀ p ∈ (engine b).changesOf 20 rename db, ¬ forumKey.Touches p.1 p.2 (.int 3)) ∧
    (∀ p ∈ (engine b).changesOf 20 retitle db, ¬ memberKey.Touches p.1 p.2 (.int 2)) ∧
    (∃ p ∈ (engine b).changesOf 20 retitle db, memberKey.Touches p.1 p.2 (.int 1)) ∧
    ∃ db', (engine b).exec 20 retitle db = .ok db' ∧
      (db'.rows "member").map (fun r => r "key") = [.int ((engine b).rand 3), .int 22] := by
  refine ⟨keysOk _ (.inr rfl), fun h => absurd h (by decide), ?_, ?_, ?_, ?_⟩
  · cases b <;> decide
  · cases b <;> decide
  · cases b <;> decide
  · apply ok_of
    cases b <;> decide

end Keys

/-- C15 is violated through generic relations, on every backend. The tag of forum 1 is moved to another type of object, one whose
primary key happens to be 2. Forum 2 is related to the tag neither before nor afterwards, and the tag is the only row the statement
changes besides keys of forums; forum 2 still gets a new key. -/
theorem C15_violated_generic (b : Backend) :
    Installed (Keys.engine b) Keys.decls ∧ KeyDeclared b Keys.decls Keys.forumKey ∧ NoReentry (Keys.engine b) ∧
    KeysOk Keys.forumKey.relations Keys.db ∧ Keys.forumKey.Spares (.int 2) Keys.db Keys.retag ∧
    (∀ p ∈ (Keys.engine b).changesOf 20 Keys.retag Keys.db, ∀ r ∈ p.2.rows "forum", r "id" = .int 2 → ∀ d ∈ Keys.forumKey.deps,
      p.1.table = d.dep.otherTable → ∀ o ∈ p.1.versions, ¬ d.dep.relatedTo p.2 r o) ∧
    ∃ db', (Keys.engine b).exec 20 Keys.retag Keys.db = .ok db' ∧
      ∃ r ∈ db'.rows "forum", r "id" = .int 2 ∧ ∀ r0 ∈ Keys.db.rows "forum", r0 "id" = .int 2 → r "key" ≠ r0 "key" := by
  refine ⟨rfl, Keys.wd_forum b, Keys.noReentry b, Keys.keysOk _ (.inl rfl), fun h => absurd h (by decide), ?_, ?_⟩
  · cases b <;> decide
  · apply ok_of
    cases b <;> decide

end Denorm
