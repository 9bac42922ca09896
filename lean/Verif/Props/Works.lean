import Verif.Lemmas.Works
import Verif.Props.Untouched
/-!
# A project whose fields form layers just works (C74)
-/
namespace Denorm

section
variable {A : App} {D : List Denorm} {cbs : List Callback} {S : List (TableName × Col)} {layer : TableName → Col → Nat} {L : Nat} {db db' : Db}

/-- flush() keeps the database in order, whether it has been interrupted before or not. -/
theorem LayeredProject.inOrder_flush (hP : LayeredProject A.engine.backend A.models D cbs S layer L) (hE : Installed A.engine D) (hI : InOrder A D cbs S db) {n : Nat}
    (h : A.flush n db = .ok (some db')) : InOrder A D cbs S db' ∧ AllRight D cbs db' := by
  obtain ⟨hT, hf⟩ := together_flush hI.unique (hP.together hE hI) h
  have hk := kept_flushWith hE hP.thisAll hP.onlyDenorms ⟨fun _ _ _ => true, fun _ _ _ => false, fun _ _ _ => false⟩ n hI.unique
  rw [(C65_plain (fun _ _ _ => rfl) (fun _ _ _ => rfl) (fun _ _ _ => rfl) n).2 h] at hk
  have hcl := flush_clean _ h
  have hc : ∀ a, .aggregate a ∈ D → a.agg = .count → AggOk a db' := fun a ha hc => hP.count_flush hE ha hc n hI.unique (hI.counts a ha hc) h
  have hs : ∀ a, .aggregate a ∈ D → ∀ f, a.agg = .sum f → AggOk a db' ∧ ∀ t, ∀ r ∈ db'.rows t, IntRow S t r := fun a ha f hf =>
    hP.sum_flush hE ha hf n hI.unique (hI.sums a ha f hf).1 (hI.sums a ha f hf).2 h
  refine ⟨⟨hk.unique hP.onlyDenorms hI.unique, fun m hm => (by rw [hcl] at hm; cases hm), fun cb hcb => ?_, fun cb hcb r hr => .inl (hf cb hcb r hr), hc, hs⟩,
    hcl, hf, fun a ha => ?_⟩
  rotate_left
  · cases hg : a.agg with
    | count => exact hc a ha hg
    | sum f => exact (hs a ha f hg).1
  obtain ⟨_, _, h2, _⟩ := hT.each cb hcb
  exact h2

/-- C74, one step: in a project whose denormalized fields are computed from plain data, or in `L` layers from each other, a program makes any calls of Django's ORM and executes any SQL.
Afterwards flush() returns, after `L + 2` passes over the markers at most and without an error, and then everything is right. (And in order again, for the next program.) -/
theorem C74_program (hP : LayeredProject A.engine.backend A.models D cbs S layer L) (hE : Installed A.engine D) (hp : ∀ l, (A.arrange l).Perm l)
    (hI : InOrder A D cbs S db) {cs : List OrmCall} (hL : LegalProgram A D cbs S cs db) :
    ∃ db' N, (∀ n, N ≤ n → (A.limit n).flush (L + 2) (A.calls cs db) = .ok (some db')) ∧ AllRight D cbs db' ∧ InOrder A D cbs S db' := by
  have hI' := hP.inOrder_calls hE hI hL
  obtain ⟨o, N, h⟩ := flush_finishes (hP.project hE) (fun s db => hP.finishes hE s db) hp (L + 2) hI'.unique hI'.known
  rcases C18_fields_layered (A := A.limit N) (project_limit (hP.project hE) N) (onlyFields_limit (hP.onlyFields hE) N) hp hI'.unique
    (together_limit (hP.together hE hI') N) (hP.layered (A.calls cs db)) with ⟨db', h1, h2⟩ | ⟨e, h1⟩
  · rw [h N (Nat.le_refl N)] at h1
    simp only [Except.ok.injEq] at h1
    subst h1
    have hx := LayeredProject.inOrder_flush (A := A.limit N) (works_limit hP N) hE
      ⟨hI'.unique, hI'.known, hI'.keys, hI'.marked, hI'.counts, hI'.sums⟩ (h N (Nat.le_refl N))
    exact ⟨db', N, h, hx.2, ⟨hx.1.unique, hx.1.known, hx.1.keys, hx.1.marked, hx.1.counts, hx.1.sums⟩⟩
  · rw [h N (Nat.le_refl N)] at h1
    simp at h1

/-- C74, every history: a new database is filled and changed by programs, and flush() is called now and then. Whatever happened, the next flush() returns and then everything is
right. -/
theorem C74_history (hP : LayeredProject A.engine.backend A.models D cbs S layer L) (hE : Installed A.engine D) (hp : ∀ l, (A.arrange l).Perm l)
    (h0 : ∀ t, db.rows t = []) (hd : db.dirty = []) (hH : History A D cbs S db db') :
    ∃ e N, (∀ n, N ≤ n → (A.limit n).flush (L + 2) db' = .ok (some e)) ∧ AllRight D cbs e := by
  have hI : InOrder A D cbs S db' := by
    induction hH with
    | start =>
      refine ⟨fun om _ => by simp [h0], fun m hm => (by rw [hd] at hm; cases hm), fun cb _ => ?_, fun cb _ r hr => (by rw [h0] at hr; cases hr),
        fun a _ _ r hr => (by rw [h0] at hr; cases hr), fun a _ _ _ => ⟨fun r hr => (by rw [h0] at hr; cases hr), fun t r hr => (by rw [h0] at hr; cases hr)⟩⟩
      intro p _ r hr
      rw [h0] at hr
      cases hr
    | program _ hL ih => exact hP.inOrder_calls hE ih hL
    | flush n k _ h ih =>
      have hx := LayeredProject.inOrder_flush (A := A.limit n) (works_limit hP n) hE ⟨ih.unique, ih.known, ih.keys, ih.marked, ih.counts, ih.sums⟩ h
      exact ⟨hx.1.unique, hx.1.known, hx.1.keys, hx.1.marked, hx.1.counts, hx.1.sums⟩
  obtain ⟨e, N, h1, h2, _⟩ := C74_program hP hE hp hI (cs := []) ⟨fun _ _ => trivial, fun _ _ _ => trivial, fun _ _ _ _ => trivial, hI.unique⟩
  exact ⟨e, N, h1, h2⟩

end

/-! ## The hypotheses are met -/

namespace Demo
set_option maxRecDepth 100000

/-- Posts without the cache key. -/
def plainPostOrm : OrmModel := ⟨post, [⟨"forum_id", .plain⟩, ⟨"title", .plain⟩, ⟨"forum_title", .callback forumTitle⟩]⟩

/-- The project with fields that look at posts, tags, forums and bookmarks, and a CountField. -/
def plainApp (b : Backend) : App := { app b with models := [forumOrm, plainPostOrm, memberOrm, tagOrm] }

def plainFields : List Callback := [titles, tagsString, forumTitle, bookmarkTitles]

theorem plain (b : Backend) (hb : b ≠ .mysql) : LayeredProject b [forumOrm, plainPostOrm, memberOrm, tagOrm] decls plainFields [] (fun _ _ => 0) 1 where
  cts := by
    intro om hom om' hom'
    simp only [List.mem_cons, List.not_mem_nil, or_false] at hom hom'
    rcases hom with rfl | rfl | rfl | rfl <;> rcases hom' with rfl | rfl | rfl | rfl <;> intro h <;> first | rfl | exact absurd h (by decide)
  tables := by
    intro om hom om' hom'
    simp only [List.mem_cons, List.not_mem_nil, or_false] at hom hom'
    rcases hom with rfl | rfl | rfl | rfl <;> rcases hom' with rfl | rfl | rfl | rfl <;> intro h <;> first | rfl | exact absurd h (by decide)
  proper := by
    intro om hom
    simp only [List.mem_cons, List.not_mem_nil, or_false] at hom
    rcases hom with rfl | rfl | rfl | rfl <;> exact ⟨by decide, by decide⟩
  computed := by
    intro om hom f hf hk
    simp only [List.mem_cons, List.not_mem_nil, or_false] at hom
    rcases hom with rfl | rfl | rfl | rfl <;> simp only [forumOrm, plainPostOrm, memberOrm, tagOrm, List.mem_cons, List.not_mem_nil, or_false] at hf
    · rcases hf with rfl | rfl | rfl | rfl
      · cases hk
      · exact ⟨titles, by simp [plainFields], rfl, rfl⟩
      · exact ⟨tagsString, by simp [plainFields], rfl, rfl⟩
      · cases hk
    · rcases hf with rfl | rfl | rfl
      · cases hk
      · cases hk
      · exact ⟨forumTitle, by simp [plainFields], rfl, rfl⟩
    · rcases hf with rfl | rfl
      · cases hk
      · exact ⟨bookmarkTitles, by simp [plainFields], rfl, rfl⟩
    · rcases hf with rfl | rfl | rfl <;> cases hk
  keys := by unfold Denormalized; decide
  fields := by
    intro cb hcb
    simp only [plainFields, List.mem_cons, List.not_mem_nil, or_false] at hcb
    rcases hcb with rfl | rfl | rfl | rfl
    · exact ⟨by simp [decls], forumOrm, by simp, rfl, [⟨"title", .plain⟩], _, rfl, by decide⟩
    · exact ⟨by simp [decls], forumOrm, by simp, rfl, [⟨"title", .plain⟩, ⟨"titles", .callback titles⟩], _, rfl, by decide⟩
    · exact ⟨by simp [decls], plainPostOrm, by simp, rfl, [⟨"forum_id", .plain⟩, ⟨"title", .plain⟩], _, rfl, by decide⟩
    · exact ⟨by simp [decls], memberOrm, by simp, rfl, [⟨"name", .plain⟩], _, rfl, by decide⟩
  kinds := by
    intro dn hdn
    simp only [decls, List.mem_cons, List.not_mem_nil, or_false] at hdn
    rcases hdn with rfl | rfl | rfl | rfl | rfl
    · exact .inl ⟨titles, by simp [plainFields], rfl⟩
    · exact .inl ⟨tagsString, by simp [plainFields], rfl⟩
    · exact .inr ⟨_, rfl⟩
    · exact .inl ⟨forumTitle, by simp [plainFields], rfl⟩
    · exact .inl ⟨bookmarkTitles, by simp [plainFields], rfl⟩
  counts := by
    intro a ha
    simp only [decls, List.mem_cons, List.not_mem_nil, or_false] at ha
    rcases ha with h | h | h | h | h
    · cases h
    · cases h
    · cases h
      refine ⟨ad_postCount b, ⟨forumOrm, by simp, rfl⟩, rfl, ?_⟩
      intro om hom
      simp only [List.mem_cons, List.not_mem_nil, or_false] at hom
      rcases hom with rfl | rfl | rfl | rfl <;> unfold OrmModel.Holds <;> decide
    · cases h
    · cases h
  once := by
    intro dn hdn dn' hdn'
    simp only [decls, List.mem_cons, List.not_mem_nil, or_false] at hdn hdn'
    rcases hdn with rfl | rfl | rfl | rfl | rfl <;> rcases hdn' with rfl | rfl | rfl | rfl | rfl <;> intro h1 h2 <;>
      first | rfl | exact absurd h1 (by decide) | exact absurd h2 (by decide)
  agree := agree b
  this := by decide
  watched := by
    intro cb hcb
    simp only [plainFields, List.mem_cons, List.not_mem_nil, or_false] at hcb
    rcases hcb with rfl | rfl | rfl | rfl
    · exact (wd_titles b).watched
    · exact (wd_tagsString b).watched
    · exact (wd_forumTitle b).watched
    · exact (wd_bookmarkTitles b).watched
  ownCols := by
    intro cb hcb
    simp only [plainFields, List.mem_cons, List.not_mem_nil, or_false] at hcb
    rcases hcb with rfl | rfl | rfl | rfl
    · exact (wd_titles b).own
    · exact (wd_tagsString b).own
    · exact (wd_forumTitle b).own
    · exact (wd_bookmarkTitles b).own
  pkTable := by decide
  others := by decide
  through := by decide
  generic := by
    intro cb hcb d hd g
    simp only [plainFields, List.mem_cons, List.not_mem_nil, or_false] at hcb
    rcases hcb with rfl | rfl | rfl | rfl <;> simp only [titles, tagsString, forumTitle, bookmarkTitles, List.mem_singleton] at hd <;> subst hd <;>
      simp [hb]
  looks := by unfold Denormalized; decide
  ownKeys := by unfold Denormalized; decide
  sums := by
    intro a ha f hf
    simp only [decls, List.mem_cons, List.not_mem_nil, or_false] at ha
    rcases ha with h | h | h | h | h <;> cases h
    cases hf
  numbers := fun om _ => ⟨fun _ h => (by cases h), fun _ _ _ _ h => (by cases h)⟩
  layers := by decide
  own := fun cb hcb c hc => .inl (by revert c; revert cb; unfold Denormalized; decide)
  reads := fun cb hcb d hd c hc => .inl (by revert c; revert d; revert cb; unfold Denormalized; decide)
  pks := by unfold Denormalized; decide
  fks := by
    intro a ha
    simp only [decls, List.mem_cons, List.not_mem_nil, or_false] at ha
    rcases ha with h | h | h | h | h <;> cases h
    unfold Denormalized
    decide
  steady := by cases b <;> first | exact absurd rfl hb | decide
  acyclic := decls_acyclic
  clear := decls_clear

theorem plain_inOrder (b : Backend) : InOrder (plainApp b) decls plainFields [] db where
  unique := by unfold KeysUnique; cases b <;> simp only [plainApp] <;> decide
  known := by unfold MarksKnown; cases b <;> simp only [plainApp] <;> decide
  keys := by unfold KeysOk; decide
  marked := by
    intro cb hcb r hr
    refine .inl ?_
    revert r
    simp only [plainFields, List.mem_cons, List.not_mem_nil, or_false] at hcb
    rcases hcb with rfl | rfl | rfl | rfl <;> decide
  counts := by
    intro a ha _
    simp only [decls, List.mem_cons, List.not_mem_nil, or_false] at ha
    rcases ha with h | h | h | h | h <;> cases h
    unfold AggOk
    decide
  sums := by
    intro a ha f hf
    simp only [decls, List.mem_cons, List.not_mem_nil, or_false] at ha
    rcases ha with h | h | h | h | h <;> cases h
    cases hf

/-- A forum is renamed, by a program whose attribute `post_count` is wrong; a post is created, with a wrong `forum_title`; post 2 moves to forum 2 by SQL; the tag is deleted; the
member bookmarks post 2. -/
def plainProgram : List OrmCall :=
  [.saveFields forumOrm ["title", "post_count"] (frow 1 "G" "" "" 7), .create plainPostOrm (prow 0 2 "z" "wrong" 0) (.int 3),
    .stmt (.update "post" (fun r => decide (r "id" = .int 2)) fun _ r => r.set "forum_id" (.int 2)), .stmt (.delete "tag" fun _ => true),
    .stmt (.insert "member_bookmarks" [brow 2 1 2])]

theorem plainProgram_legal (b : Backend) : LegalProgram (plainApp b) decls plainFields [] plainProgram db where
  legal := by
    intro cb hcb
    obtain ⟨d, h, hl⟩ : ∃ d, (plainApp b).call db (.saveFields forumOrm ["title", "post_count"] (frow 1 "G" "" "" 7)) = .ok d ∧
        ∀ r ∈ d.rows "member_bookmarks", ¬ Val.sqlEq (.int 3) (r "post_id") = true := call_of (by cases b <;> decide +kernel)
    have hid : ∀ cb ∈ plainFields, ∀ p ∈ cb.pks, p.2 = "id" ∧ p.1 ≠ "member_bookmarks" := by decide
    have htag : ∀ cb ∈ plainFields, ∀ d ∈ cb.deps, d.dep.other.table ≠ "member_bookmarks" ∧ (d.dep.other.table = "tag" → d.dep.m2mTable = none) ∧
        (d.dep.other.table = "post" → ∀ l ∈ d.dep.m2mTable, l.1 = "member_bookmarks" ∧ l.2.2 = "post_id" ∧ d.dep.other.pk = "id") := by decide
    have hu : ∀ x, LegalCall (plainApp b) cb x (.stmt (.update "post" (fun r => decide (r "id" = .int 2)) fun _ r => r.set "forum_id" (.int 2))) := by
      intro x p hp _ _ r
      rw [(hid cb hcb p hp).1]
      simp [Row.set]
    have hd : ∀ x, LegalCall (plainApp b) cb x (.stmt (.delete "tag" fun _ => true)) :=
      fun x d' hd' ht hm => absurd ((htag cb hcb d' hd').2.1 ht) hm
    have hi : ∀ x, LegalCall (plainApp b) cb x (.stmt (.insert "member_bookmarks" [brow 2 1 2])) :=
      fun x r _ => ⟨fun p hp ht => absurd ht (hid cb hcb p hp).2, fun d' hd' ht => absurd ht (htag cb hcb d' hd').1⟩
    refine ⟨by simp [LegalCall, plainApp], ?_⟩
    rw [h]
    refine ⟨?_, ?_⟩
    · intro r hr x hx
      rw [List.mem_singleton.1 hx]
      refine ⟨fun p hp ht => ?_, fun d' hd' ht tbl c k hm l hl' => ?_⟩
      · rw [(hid cb hcb p hp).1]
        rw [show r "id" = _ from hr]
        simp
      · obtain ⟨h1, h2, h3⟩ := (htag cb hcb d' hd').2.2 ht (tbl, c, k) hm
        simp only at h1 h2
        rw [h2, h3, show r "id" = _ from hr]
        exact hl l (h1 ▸ hl')
    · split <;> refine ⟨hu _, ?_⟩ <;> split <;> refine ⟨hd _, ?_⟩ <;> split <;> refine ⟨hi _, ?_⟩ <;> split <;> trivial
  counts := by
    intro a ha _
    simp only [decls, List.mem_cons, List.not_mem_nil, or_false] at ha
    rcases ha with h | h | h | h | h <;> cases h
    have hf : forumOrm.Holds postCount := by unfold OrmModel.Holds; decide
    have hp : plainPostOrm.Holds postCount := by unfold OrmModel.Holds; decide
    have hu : ∀ x, CountCall (plainApp b) postCount x (.stmt (.update "post" (fun r => decide (r "id" = .int 2)) fun _ r => r.set "forum_id" (.int 2))) :=
      fun x h => absurd h (by decide)
    have hi : ∀ x, CountCall (plainApp b) postCount x (.stmt (.insert "member_bookmarks" [brow 2 1 2])) := fun x h => absurd h (by decide)
    refine ⟨⟨⟨by decide, by decide⟩, hf, by decide, by decide⟩, ?_⟩
    split <;> refine ⟨⟨⟨by decide, by decide⟩, hp, fun h => absurd h (by decide)⟩, ?_⟩ <;> split <;> refine ⟨hu _, ?_⟩ <;> split <;>
      refine ⟨trivial, ?_⟩ <;> split <;> refine ⟨hi _, ?_⟩ <;> split <;> trivial
  sums := by
    intro a ha f hf
    simp only [decls, List.mem_cons, List.not_mem_nil, or_false] at ha
    rcases ha with h | h | h | h | h <;> cases h
    cases hf
  unique := by unfold KeysUnique; cases b <;> simp only [plainApp] <;> decide +kernel

/-- `C74_program` applies. What the program leaves behind is partly wrong; after flush() everything is right. -/
example (b : Backend) (hb : b ≠ .mysql) :
    (((plainApp b).calls plainProgram db).rows "post").map (fun r => r "forum_title") = [.text "A", .text "A", .text "B"] ∧
    ∃ db' N, (∀ n, N ≤ n → ((plainApp b).limit n).flush 3 ((plainApp b).calls plainProgram db) = .ok (some db')) ∧ AllRight decls plainFields db' := by
  refine ⟨by cases b <;> decide +kernel, ?_⟩
  obtain ⟨db', N, h, h1, _⟩ := C74_program (A := plainApp b) (plain b hb) (installed b) (fun l => List.Perm.refl l) (plain_inOrder b) (plainProgram_legal b)
  exact ⟨db', N, h, h1⟩

/-- What it computes: with the limit 100, say. -/
example (b : Backend) (hb : b ≠ .mysql) : ∃ db', (plainApp b).flush 3 ((plainApp b).calls plainProgram db) = .ok (some db') ∧
    (db'.rows "post").map (fun r => r "forum_title") = [.text "G", .text "B", .text "B"] ∧
    (db'.rows "forum").map (fun r => (r "titles", r "tags_string", r "post_count")) = [(.text "x", .text "", .int 1), (.text "yz", .text "", .int 2)] ∧
    (db'.rows "member").map (fun r => r "bookmark_titles") = [.text "xy"] := by
  cases b <;> first | exact absurd rfl hb | exact flush_of (by decide +kernel)

/-- `C74_history` applies: a database that starts empty, a forum is created, flushed. -/
example (b : Backend) (hb : b ≠ .mysql) {db' : Db} (h : History (plainApp b) decls plainFields [] ⟨fun _ => [], [], 0⟩ db') :
    ∃ e N, (∀ n, N ≤ n → ((plainApp b).limit n).flush 3 db' = .ok (some e)) ∧ AllRight decls plainFields e :=
  C74_history (A := plainApp b) (plain b hb) (installed b) (fun l => List.Perm.refl l) (fun _ => rfl) rfl h

end Demo

namespace Chain
set_option maxRecDepth 100000

/-- Two layers: an entry's label is its blog's title, a comment's path is its entry's label. -/
theorem works (b : Backend) : LayeredProject b [blogOrm, entryOrm, commentOrm] decls [label, path] [] (fun t _ => if t = "comment" then 1 else 0) 2 where
  cts := by
    intro om hom om' hom'
    simp only [List.mem_cons, List.not_mem_nil, or_false] at hom hom'
    rcases hom with rfl | rfl | rfl <;> rcases hom' with rfl | rfl | rfl <;> intro h <;> first | rfl | exact absurd h (by decide)
  tables := by
    intro om hom om' hom'
    simp only [List.mem_cons, List.not_mem_nil, or_false] at hom hom'
    rcases hom with rfl | rfl | rfl <;> rcases hom' with rfl | rfl | rfl <;> intro h <;> first | rfl | exact absurd h (by decide)
  proper := by
    intro om hom
    simp only [List.mem_cons, List.not_mem_nil, or_false] at hom
    rcases hom with rfl | rfl | rfl <;> exact ⟨by decide, by decide⟩
  computed := by
    intro om hom f hf hk
    simp only [List.mem_cons, List.not_mem_nil, or_false] at hom
    rcases hom with rfl | rfl | rfl <;> simp only [blogOrm, entryOrm, commentOrm, List.mem_cons, List.not_mem_nil, or_false] at hf
    · subst hf; cases hk
    · rcases hf with rfl | rfl
      · cases hk
      · exact ⟨label, by simp, rfl, rfl⟩
    · rcases hf with rfl | rfl
      · cases hk
      · exact ⟨path, by simp, rfl, rfl⟩
  keys := by unfold Denormalized; decide
  fields := by
    intro cb hcb
    simp only [List.mem_cons, List.not_mem_nil, or_false] at hcb
    rcases hcb with rfl | rfl
    · exact ⟨by simp [decls], entryOrm, by simp, rfl, [⟨"blog_id", .plain⟩], _, rfl, by decide⟩
    · exact ⟨by simp [decls], commentOrm, by simp, rfl, [⟨"entry_id", .plain⟩], _, rfl, by decide⟩
  kinds := by
    intro dn hdn
    simp only [decls, List.mem_cons, List.not_mem_nil, or_false] at hdn
    rcases hdn with rfl | rfl
    · exact .inl ⟨label, by simp, rfl⟩
    · exact .inl ⟨path, by simp, rfl⟩
  counts := by
    intro a ha
    simp only [decls, List.mem_cons, List.not_mem_nil, or_false] at ha
    rcases ha with h | h <;> cases h
  once := by
    intro dn hdn dn' hdn'
    simp only [decls, List.mem_cons, List.not_mem_nil, or_false] at hdn hdn'
    rcases hdn with rfl | rfl <;> rcases hdn' with rfl | rfl <;> intro h1 h2 <;> first | rfl | exact absurd h1 (by decide)
  agree := agree b
  this := by decide
  watched := by
    intro cb hcb
    simp only [List.mem_cons, List.not_mem_nil, or_false] at hcb
    rcases hcb with rfl | rfl
    · exact (wd_label b).watched
    · exact (wd_path b).watched
  ownCols := by
    intro cb hcb
    simp only [List.mem_cons, List.not_mem_nil, or_false] at hcb
    rcases hcb with rfl | rfl
    · exact (wd_label b).own
    · exact (wd_path b).own
  pkTable := by decide
  others := by decide
  through := by decide
  generic := by
    intro cb hcb d hd g
    simp only [List.mem_cons, List.not_mem_nil, or_false] at hcb
    rcases hcb with rfl | rfl <;> simp only [label, path, List.mem_singleton] at hd <;> subst hd <;> simp [labelDep, pathDep]
  looks := by unfold Denormalized; decide
  ownKeys := by unfold Denormalized; decide
  sums := by
    intro a ha
    simp only [decls, List.mem_cons, List.not_mem_nil, or_false] at ha
    rcases ha with h | h <;> cases h
  numbers := fun om _ => ⟨fun _ h => (by cases h), fun _ _ _ _ h => (by cases h)⟩
  layers := by decide
  own := by unfold Denormalized; decide
  reads := by
    intro cb hcb d hd c hc
    simp only [List.mem_cons, List.not_mem_nil, or_false] at hcb
    rcases hcb with rfl | rfl <;> simp only [label, path, List.mem_singleton] at hd <;> subst hd <;> simp only [labelDep, pathDep, List.mem_singleton] at hc <;> subst hc
    · exact .inl (by unfold Denormalized; decide)
    · exact .inr ⟨by decide, ⟨label, by simp, rfl, rfl⟩, by decide⟩
  pks := by unfold Denormalized; decide
  fks := by
    intro a ha
    simp only [decls, List.mem_cons, List.not_mem_nil, or_false] at ha
    rcases ha with h | h <;> cases h
  steady := by cases b <;> decide
  acyclic := by
    have h : ∀ t t', ¬ Feeds decls t t' := by
      intro t t' h
      induction h with
      | @direct dn t hdn ht =>
        simp only [decls, List.mem_cons, List.not_mem_nil, or_false] at hdn
        rcases hdn with rfl | rfl <;> simp [Denorm.sources, label, path, Callback.denorm] at ht
      | trans _ _ h1 _ => exact h1
    exact fun t => h t t
  clear := by
    have h0 : ∀ g ∈ generated decls, g.table ∈ ["blog", "entry", "comment"] := by decide
    intro g hg g' hg' n h
    have h3 : ∀ t ∈ ["blog", "entry", "comment"], ∀ t' ∈ ["blog", "entry", "comment"], ¬ (t' ++ "_").toList <+: t.toList := by decide
    refine h3 _ (h0 g hg) _ (h0 g' hg') ⟨(toString n).toList, ?_⟩
    rw [← String.toList_append, ← h]

/-- `C74_history` applies, to all histories of this project. -/
example (b : Backend) {db' : Db} (h : History (app b) decls [label, path] [] ⟨fun _ => [], [], 0⟩ db') :
    ∃ e N, (∀ n, N ≤ n → ((app b).limit n).flush 4 db' = .ok (some e)) ∧ AllRight decls [label, path] e :=
  C74_history (A := app b) (works b) rfl (fun l => List.Perm.refl l) (fun _ => rfl) rfl h

theorem newKey_any (b : Backend) {cb : Callback} (hcb : cb ∈ [label, path]) (db : Db) {om : OrmModel} (hom : om ∈ (app b).models) {k : Val} (hk : k ≠ .null) :
    NewKey (app b).engine cb db om k := by
  intro r hr x hx
  rw [List.mem_singleton.1 hx]
  have h1 : ∀ cb ∈ [label, path], ∀ p ∈ cb.pks, p.2 = "id" := by decide
  have h2 : ∀ cb ∈ [label, path], ∀ d ∈ cb.deps, d.dep.m2mTable = none := by decide
  have h3 : om.model.pk = "id" := by
    simp only [app, List.mem_cons, List.not_mem_nil, or_false] at hom
    rcases hom with rfl | rfl | rfl <;> rfl
  refine ⟨fun p hp _ => ?_, fun d hd _ tbl c k' hm => ?_⟩
  · rw [h1 cb hcb p hp, ← h3, hr]
    exact hk
  · rw [h2 cb hcb d hd] at hm
    cases hm

/-- Such as this one: blogs and entries by loaddata, create(), bulk_create() and save(update_fields=..); flush(). -/
theorem program_history (b : Backend) : History (app b) decls [label, path] [] emptyDb ((app b).calls program emptyDb) := by
  refine .program .start ⟨fun cb hcb => ?_, fun a ha => ?_, fun a ha => ?_, by unfold KeysUnique; cases b <;> decide +kernel⟩
  · have gen : ∀ (cs : List OrmCall), (∀ c ∈ cs, ∀ db, LegalCall (app b) cb db c) → ∀ db, LegalCalls (app b) cb cs db := by
      intro cs
      induction cs with
      | nil => exact fun _ _ => trivial
      | cons c cs ih =>
        intro h db
        refine ⟨h c (List.mem_cons_self ..) db, ?_⟩
        split <;> exact ih (fun c hc => h c (List.mem_cons_of_mem _ hc)) _
    refine gen program ?_ _
    intro c hc db
    simp only [program, List.mem_cons, List.not_mem_nil, or_false] at hc
    rcases hc with rfl | rfl | rfl | rfl | rfl
    · exact ⟨by simp [app], fun _ => newKey_any b hcb db (by simp [app]) (by decide)⟩
    · exact ⟨by simp [app], fun _ => newKey_any b hcb db (by simp [app]) (by decide)⟩
    · intro o ho
      rw [List.mem_singleton.1 ho]
      exact newKey_any b hcb db (by simp [app]) (by decide)
    · exact newKey_any b hcb db (by simp [app]) (by decide)
    · simp [LegalCall, app]
  · simp only [decls, List.mem_cons, List.not_mem_nil, or_false] at ha
    rcases ha with h | h <;> cases h
  · simp only [decls, List.mem_cons, List.not_mem_nil, or_false] at ha
    rcases ha with h | h <;> cases h

example (b : Backend) : ∃ db', History (app b) decls [label, path] [] emptyDb db' ∧ (db'.rows "entry").map (fun r => r "label") = [.text "B", .text "B"] := by
  obtain ⟨db', h, h1⟩ : ∃ db', ((app b).limit 100).flush 4 ((app b).calls program emptyDb) = .ok (some db') ∧
      (db'.rows "entry").map (fun r => r "label") = [.text "B", .text "B"] := flush_of (by cases b <;> decide +kernel)
  exact ⟨db', .flush 100 4 (program_history b) h, h1⟩

end Chain

namespace Basket
open Demo (fld fkf row)
set_option maxRecDepth 100000

/-! A shop: Product(price); Item(basket, product, quantity), whose `amount` is computed from its quantity and its product's price; Basket, whose SumField `total` sums the amounts. -/

def product : Model :=
  { repr := "<class 'basket.Product'>", appLabel := "basket", name := "Product", table := "product", pkTable := "product", pk := "id", ct := 51, fields := [fld "id", fld "price"] }
def basket : Model :=
  { repr := "<class 'basket.Basket'>", appLabel := "basket", name := "Basket", table := "basket", pkTable := "basket", pk := "id", ct := 52, fields := [fld "id", fld "total"] }
def itemProduct : Field := fkf "product" "<class 'basket.Product'>"
def itemBasket : Field := fkf "basket" "<class 'basket.Basket'>"
def item : Model :=
  { repr := "<class 'basket.Item'>", appLabel := "basket", name := "Item", table := "item", pkTable := "item", pk := "id", ct := 53,
    fields := [fld "id", itemBasket, itemProduct, fld "quantity", fld "amount"] }

def times : List Val → List (List (List Val)) → Val
  | [.int q], [[[.int p]]] => .int (q * p)
  | _, _ => .int 0

def priceDep : DepRead := ⟨⟨item, product, .forward itemProduct, []⟩, ["price"]⟩
def amount : Callback := { model := item, field := "amount", own := ["quantity"], fn := times, deps := [priceDep] }
def total : AggDenorm := { model := basket, fieldname := "total", related := item, fk := itemBasket, agg := .sum "amount" }

def decls : List Denorm := [amount.denorm, .aggregate total]

def productOrm : OrmModel := ⟨product, [⟨"price", .plain⟩]⟩
def basketOrm : OrmModel := ⟨basket, [⟨"total", .aggregate⟩]⟩
def itemOrm : OrmModel := ⟨item, [⟨"basket_id", .plain⟩, ⟨"product_id", .plain⟩, ⟨"quantity", .plain⟩, ⟨"amount", .callback amount⟩]⟩

def app (b : Backend) : App := ⟨⟨b, installedTriggers b decls, fun _ => 0⟩, [productOrm, basketOrm, itemOrm], fun l => l, fun db _ _ => db.draws, 100⟩

/-- The SumField, and what it sums. -/
def S : List (TableName × Col) := [("basket", "total"), ("item", "amount")]

theorem times_int (l : List Val) (ls : List (List (List Val))) : ∃ i, times l ls = .int i := by
  unfold times
  split <;> exact ⟨_, rfl⟩

theorem numbers : ∀ om ∈ [productOrm, basketOrm, itemOrm], om.Numbers S := by
  intro om hom
  simp only [List.mem_cons, List.not_mem_nil, or_false] at hom
  refine ⟨fun c hc => ?_, fun f hf cb hk hS => ?_⟩
  · simp only [S, List.mem_cons, Prod.mk.injEq, List.not_mem_nil, or_false] at hc
    rcases hom with rfl | rfl | rfl <;> rcases hc with ⟨h, rfl⟩ | ⟨h, rfl⟩ <;> first | exact absurd h (by decide) | decide
  · rcases hom with rfl | rfl | rfl <;> simp only [productOrm, basketOrm, itemOrm, List.mem_cons, List.not_mem_nil, or_false] at hf
    · subst hf; cases hk
    · subst hf; cases hk
    · rcases hf with rfl | rfl | rfl | rfl <;> cases hk
      exact fun db r => times_int _ _

theorem agree (b : Backend) : AgreeOnWatch b decls := by cases b <;> decide

theorem declared (b : Backend) : AggDeclared b decls total where
  declared := by simp [decls]
  covered := fun _ hg => covered_of_agree (agree b) (List.mem_flatMap.2 ⟨.aggregate total, by simp [decls], hg⟩)
  only := by
    intro dn hdn h
    simp only [decls, List.mem_cons, List.not_mem_nil, or_false] at hdn
    rcases hdn with rfl | rfl
    · exact absurd h (by decide)
    · rfl
  pk := by decide
  fk := by decide
  watched := by decide
  fkcol := rfl
  conds := by decide

theorem works (b : Backend) : LayeredProject b [productOrm, basketOrm, itemOrm] decls [amount] S (fun _ _ => 0) 1 where
  cts := by
    intro om hom om' hom'
    simp only [List.mem_cons, List.not_mem_nil, or_false] at hom hom'
    rcases hom with rfl | rfl | rfl <;> rcases hom' with rfl | rfl | rfl <;> intro h <;> first | rfl | exact absurd h (by decide)
  tables := by
    intro om hom om' hom'
    simp only [List.mem_cons, List.not_mem_nil, or_false] at hom hom'
    rcases hom with rfl | rfl | rfl <;> rcases hom' with rfl | rfl | rfl <;> intro h <;> first | rfl | exact absurd h (by decide)
  proper := by
    intro om hom
    simp only [List.mem_cons, List.not_mem_nil, or_false] at hom
    rcases hom with rfl | rfl | rfl <;> exact ⟨by decide, by decide⟩
  computed := by
    intro om hom f hf hk
    simp only [List.mem_cons, List.not_mem_nil, or_false] at hom
    rcases hom with rfl | rfl | rfl <;> simp only [productOrm, basketOrm, itemOrm, List.mem_cons, List.not_mem_nil, or_false] at hf
    · subst hf; cases hk
    · subst hf; cases hk
    · rcases hf with rfl | rfl | rfl | rfl
      · cases hk
      · cases hk
      · cases hk
      · exact ⟨amount, by simp, rfl, rfl⟩
  keys := by unfold Denormalized; decide
  fields := by
    intro cb hcb
    rw [List.mem_singleton.1 hcb]
    exact ⟨by simp [decls], itemOrm, by simp, rfl, [⟨"basket_id", .plain⟩, ⟨"product_id", .plain⟩, ⟨"quantity", .plain⟩], _, rfl, by decide⟩
  kinds := by
    intro dn hdn
    simp only [decls, List.mem_cons, List.not_mem_nil, or_false] at hdn
    rcases hdn with rfl | rfl
    · exact .inl ⟨amount, by simp, rfl⟩
    · exact .inr ⟨_, rfl⟩
  counts := by
    intro a ha
    simp only [decls, List.mem_cons, List.not_mem_nil, or_false] at ha
    rcases ha with h | h <;> cases h
    refine ⟨declared b, ⟨basketOrm, by simp, rfl⟩, rfl, ?_⟩
    intro om hom
    simp only [List.mem_cons, List.not_mem_nil, or_false] at hom
    rcases hom with rfl | rfl | rfl <;> unfold OrmModel.Holds <;> decide
  once := by
    intro dn hdn dn' hdn'
    simp only [decls, List.mem_cons, List.not_mem_nil, or_false] at hdn hdn'
    rcases hdn with rfl | rfl <;> rcases hdn' with rfl | rfl <;> intro h1 h2 <;> first | rfl | exact absurd h1 (by decide)
  agree := agree b
  this := by decide
  watched := by decide
  ownCols := by decide
  pkTable := by decide
  others := by decide
  through := by decide
  generic := by
    intro cb hcb d hd g
    rw [List.mem_singleton.1 hcb] at hd
    simp only [amount, List.mem_singleton] at hd
    subst hd
    simp [priceDep]
  looks := by unfold Denormalized; decide
  ownKeys := by unfold Denormalized; decide
  sums := by
    intro a ha f hf
    simp only [decls, List.mem_cons, List.not_mem_nil, or_false] at ha
    rcases ha with h | h <;> cases h
    cases hf
    decide
  numbers := numbers
  layers := by decide
  own := fun cb hcb c hc => .inl (by revert c; revert cb; unfold Denormalized; decide)
  reads := fun cb hcb d hd c hc => .inl (by revert c; revert d; revert cb; unfold Denormalized; decide)
  pks := by unfold Denormalized; decide
  fks := by
    intro a ha
    simp only [decls, List.mem_cons, List.not_mem_nil, or_false] at ha
    rcases ha with h | h <;> cases h
    unfold Denormalized
    decide
  steady := by cases b <;> decide
  acyclic := by
    have h : ∀ t t', Feeds decls t t' → t = "item" ∧ t' = "basket" := by
      intro t t' h
      induction h with
      | @direct dn t hdn ht =>
        simp only [decls, List.mem_cons, List.not_mem_nil, or_false] at hdn
        rcases hdn with rfl | rfl <;> simp_all [Denorm.sources, amount, Callback.denorm, total, Denorm.model, item, basket]
      | trans _ _ h1 h2 =>
        exact absurd (h1.2.symm.trans h2.1) (by decide)
    intro t ht
    exact absurd ((h t t ht).1.symm.trans (h t t ht).2) (by decide)
  clear := by
    have h0 : ∀ g ∈ generated decls, g.table ∈ ["product", "basket", "item"] := by decide
    intro g hg g' hg' n h
    have h3 : ∀ t ∈ ["product", "basket", "item"], ∀ t' ∈ ["product", "basket", "item"], ¬ (t' ++ "_").toList <+: t.toList := by decide
    refine h3 _ (h0 g hg) _ (h0 g' hg') ⟨(toString n).toList, ?_⟩
    rw [← String.toList_append, ← h]

/-- `C74_history` applies, to all histories of this project: after flush() amounts and totals are right, whatever happened to prices before. -/
example (b : Backend) {db' : Db} (h : History (app b) decls [amount] S ⟨fun _ => [], [], 0⟩ db') :
    ∃ e N, (∀ n, N ≤ n → ((app b).limit n).flush 3 db' = .ok (some e)) ∧ AllRight decls [amount] e :=
  C74_history (A := app b) (works b) rfl (fun l => List.Perm.refl l) (fun _ => rfl) rfl h

def emptyDb : Db := ⟨fun _ => [], [], 0⟩

/-- A basket; two products; two items, with wrong amounts in the program's memory; then the second product gets another price, by SQL. -/
def program : List OrmCall :=
  [.create basketOrm (row [("total", .int 77)]) (.int 1), .create productOrm (row [("price", .int 3)]) (.int 1), .create productOrm (row [("price", .int 10)]) (.int 2),
    .create itemOrm (row [("basket_id", .int 1), ("product_id", .int 1), ("quantity", .int 2), ("amount", .text "wrong")]) (.int 1),
    .create itemOrm (row [("basket_id", .int 1), ("product_id", .int 2), ("quantity", .int 1)]) (.int 2),
    .stmt (.update "product" (fun r => decide (r "id" = .int 2)) fun _ r => r.set "price" (.int 20))]

theorem basket_newKey (b : Backend) (db : Db) {om : OrmModel} (hom : om ∈ (app b).models) {k : Val} (hk : k ≠ .null) : NewKey (app b).engine amount db om k := by
  intro r hr x hx
  rw [List.mem_singleton.1 hx]
  have h1 : ∀ p ∈ amount.pks, p.2 = "id" := by decide
  have h2 : ∀ d ∈ amount.deps, d.dep.m2mTable = none := by decide
  have h3 : om.model.pk = "id" := by
    simp only [app, List.mem_cons, List.not_mem_nil, or_false] at hom
    rcases hom with rfl | rfl | rfl <;> rfl
  refine ⟨fun p hp _ => ?_, fun d hd _ tbl c k' hm => ?_⟩
  · rw [h1 p hp, ← h3, hr]
    exact hk
  · rw [h2 d hd] at hm
    cases hm

theorem basket_legal (b : Backend) : LegalProgram (app b) decls [amount] S program emptyDb where
  legal := by
    intro cb hcb
    rw [List.mem_singleton.1 hcb]
    have gen : ∀ (cs : List OrmCall), (∀ c ∈ cs, ∀ db, LegalCall (app b) amount db c) → ∀ db, LegalCalls (app b) amount cs db := by
      intro cs
      induction cs with
      | nil => exact fun _ _ => trivial
      | cons c cs ih =>
        intro h db
        refine ⟨h c (List.mem_cons_self ..) db, ?_⟩
        split <;> exact ih (fun c hc => h c (List.mem_cons_of_mem _ hc)) _
    refine gen program ?_ _
    intro c hc db
    simp only [program, List.mem_cons, List.not_mem_nil, or_false] at hc
    rcases hc with rfl | rfl | rfl | rfl | rfl | rfl
    · exact basket_newKey b db (by simp [app]) (by decide)
    · exact basket_newKey b db (by simp [app]) (by decide)
    · exact basket_newKey b db (by simp [app]) (by decide)
    · exact basket_newKey b db (by simp [app]) (by decide)
    · exact basket_newKey b db (by simp [app]) (by decide)
    · have h1 : ∀ p ∈ amount.pks, p.2 = "id" := by decide
      intro p hp _ _ r
      rw [h1 p hp]
      simp [Row.set]
  counts := by
    intro a ha hc
    simp only [decls, List.mem_cons, List.not_mem_nil, or_false] at ha
    rcases ha with h | h <;> cases h
    cases hc
  sums := by
    intro a ha f hf
    simp only [decls, List.mem_cons, List.not_mem_nil, or_false] at ha
    rcases ha with h | h <;> cases h
    have gen : ∀ (cs : List OrmCall), (∀ c ∈ cs, ∀ db, SumCall (app b) total S db c) → ∀ db, SumCalls (app b) total S cs db := by
      intro cs
      induction cs with
      | nil => exact fun _ _ => trivial
      | cons c cs ih =>
        intro h db
        refine ⟨h c (List.mem_cons_self ..) db, ?_⟩
        split <;> exact ih (fun c hc => h c (List.mem_cons_of_mem _ hc)) _
    have hp : ∀ mem k db, SumCall (app b) total S db (.create productOrm mem k) := fun mem k db =>
      ⟨⟨⟨by decide, by decide⟩, by unfold OrmModel.Holds; decide, fun h => absurd h (by decide)⟩, numbers _ (by simp), fun f hf _ hS => by
        simp only [productOrm, List.mem_singleton] at hf; subst hf; exact absurd hS (by decide)⟩
    have hi : ∀ mem k db, SumCall (app b) total S db (.create itemOrm mem k) := fun mem k db =>
      ⟨⟨⟨by decide, by decide⟩, by unfold OrmModel.Holds; decide, fun h => absurd h (by decide)⟩, numbers _ (by simp), fun f hf hk hS => by
        simp only [itemOrm, List.mem_cons, List.not_mem_nil, or_false] at hf
        rcases hf with rfl | rfl | rfl | rfl
        · exact absurd hS (by decide)
        · exact absurd hS (by decide)
        · exact absurd hS (by decide)
        · cases hk⟩
    refine ⟨⟨⟨⟨by decide, by decide⟩, by unfold OrmModel.Holds; decide, fun _ o ho => (by cases ho)⟩, numbers _ (by simp), fun f hf hk => ?_⟩, ?_⟩
    · simp only [basketOrm, List.mem_singleton] at hf
      subst hf
      cases hk
    · split <;> refine gen _ ?_ _ <;> intro c hc db <;> simp only [List.mem_cons, List.not_mem_nil, or_false] at hc <;> rcases hc with rfl | rfl | rfl | rfl | rfl <;>
        first | exact hp _ _ _ | exact hi _ _ _ | exact ⟨fun x r _ c hc => absurd hc (by simp [S]), fun h => absurd h (by decide)⟩
  unique := by unfold KeysUnique; cases b <;> decide +kernel

/-- Such as this one: before flush() the total is what it was before the price changed; after it, it is 2 times 3 plus 1 times 20. -/
example (b : Backend) : (((app b).calls program emptyDb).rows "basket").map (fun r => r "total") = [.int 16] ∧
    ∃ db', History (app b) decls [amount] S emptyDb db' ∧ (db'.rows "item").map (fun r => r "amount") = [.int 6, .int 20] ∧
      (db'.rows "basket").map (fun r => r "total") = [.int 26] := by
  obtain ⟨db', h, h1⟩ : ∃ db', ((app b).limit 100).flush 3 ((app b).calls program emptyDb) = .ok (some db') ∧
      ((db'.rows "item").map (fun r => r "amount") = [.int 6, .int 20] ∧ (db'.rows "basket").map (fun r => r "total") = [.int 26]) :=
    flush_of (by cases b <;> decide +kernel)
  exact ⟨by cases b <;> decide +kernel, db', .flush 100 3 (.program .start (basket_legal b)) h, h1⟩

end Basket
end Denorm
