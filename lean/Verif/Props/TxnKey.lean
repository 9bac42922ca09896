import Verif.Lemmas.TxnKey
import Verif.Props.TxnAgg
import Verif.Props.CacheKey
/-!
# C76: cache keys and transactions

Sessions change data in transactions that overlap in time, and flush() runs in between. What is cached under a committed cache key stays right as long as the instance has
this key.
-/
namespace Denorm

/-- C76 (partial), for relations in which the related rows refer to the instance (a ForeignKey followed backwards, or a GenericRelation). Whatever sessions do in transactions,
with flush() in between: take the committed states after any `i` and any `j` moves. If an instance has the same key in both, its related rows are the same in both, as far as
they are watched. The constraints are needed (`Notice.C76_violated_unconstrained`); for the other relations this is wrong (`Keys.C76_violated_forward`,
`Keys.C76_violated_m2m`). -/
theorem C76_same_sight_partial {A : App} {S : Schema} {D : List Denorm} {k : KeyField} (hA : KeySetting A S D k) {db : Db} {n : Nat} {μs : List Move}
    (hU : KeysDistinct S db) (hK : KeysOk k.relations db) (hR : k.Refer db)
    (hold : ∀ r ∈ db.rows k.model.table, ∀ n, db.draws ≤ n → r k.field ≠ .int (A.engine.rand n))
    (ho : KeyOrderly A S k [] μs ⟨db, List.replicate n none⟩) (i j : Nat) :
    ∀ r ∈ (A.moves S (μs.take i) ⟨db, List.replicate n none⟩).db.rows k.model.table,
    ∀ r' ∈ (A.moves S (μs.take j) ⟨db, List.replicate n none⟩).db.rows k.model.table,
    r k.model.pk = r' k.model.pk → r k.field = r' k.field →
      k.SameSight (A.moves S (μs.take i) ⟨db, List.replicate n none⟩).db r (A.moves S (μs.take j) ⟨db, List.replicate n none⟩).db r' := by
  have h0 : KeyState A S k (newMemo k db fun _ _ _ _ => False) [] ⟨db, List.replicate n none⟩ := by
    refine ⟨allOk_start hU (keyFine_new hR hK hold), by simp, fun i T hi => ?_⟩
    exact absurd (List.eq_of_mem_replicate (List.mem_of_getElem? hi)) (by simp)
  obtain ⟨memo, _, h⟩ := keyState_moves hA μs h0 ho
  intro r hr r' hr' hpk hkey d hd x
  rw [related_content hA.byValue hA.declared.this hd, related_content hA.byValue hA.declared.this hd, (h i).right r hr d hd x, (h j).right r' hr' d hd x, hpk, hkey]

/-- Whether the database may still draw this key, if it draws `β`, `β + 1`, ... -/
def drawable (β : Int) (db : Db) : Val → Bool
  | .int j => decide (β + (db.draws : Int) ≤ j)
  | _ => false

/-- The constraints hold in the result, if there is one, and its keys are new where they have changed. -/
def fineIn (k : KeyField) (β : Int) (past : List Db) (db : Db) : Except OrmErr Db → Bool
  | .ok v => decide (k.Refer v) && decide (∀ r' ∈ v.rows k.model.table, (∃ r ∈ db.rows k.model.table, r k.model.pk = r' k.model.pk ∧ r k.field = r' k.field) ∨
      drawable β db (r' k.field) = true ∨ ∀ old ∈ past, ∀ r ∈ old.rows k.model.table, r k.model.pk = r' k.model.pk → r k.field ≠ r' k.field)
  | .error _ => true

theorem fine_ok {E : Engine} {k : KeyField} {β : Int} (hE : ∀ n : Nat, E.rand n = β + n) {past : List Db} {db : Db} {x : Except OrmErr Db} (h : fineIn k β past db x = true) :
    ∀ v, x = .ok v → k.Refer v ∧ k.Renewed E past db v := by
  rintro v rfl
  simp only [fineIn, Bool.and_eq_true, decide_eq_true_eq] at h
  refine ⟨h.1, fun r' hr' => ?_⟩
  rcases h.2 r' hr' with h | h | h
  · exact .inl h
  · refine .inr (.inl ?_)
    unfold drawable at h
    split at h
    · rename_i j hj
      simp only [decide_eq_true_eq] at h
      refine ⟨(j - β).toNat, by omega, ?_⟩
      rw [hj, hE]
      congr 1
      omega
    · simp at h
  · exact .inr (.inr h)

namespace Notice
set_option maxRecDepth 100000
open Keys (forum post tag section_ tagRel postForum frow prow trow)
open Demo (schema)

/-- `Forum.key`, a CacheKeyField that depends on Post (backward) and Tag (generic). -/
def key : KeyField :=
  { model := forum, field := "key",
    deps := [⟨⟨forum, post, .backward postForum, []⟩, ["id", "title"]⟩, ⟨⟨forum, tag, .forwardM2M (.generic tagRel), []⟩, ["id", "name"]⟩] }

def decls : List Denorm := [key.denorm]
def engine (b : Backend) : Engine := ⟨b, installedTriggers b decls, fun n => 1000 + n⟩
def forumOrm : OrmModel := ⟨forum, [⟨"section_id", .plain⟩, ⟨"key", .cacheKey⟩]⟩
/-- Python draws negative numbers, the database large ones. -/
def pyKey (mem : Row) : Int :=
  match mem "key" with
  | .int i => -(i.natAbs + 1 : Nat)
  | _ => -1
def app (b : Backend) : App := ⟨engine b, [forumOrm], fun l => l, fun _ mem _ => pyKey mem, 100⟩

theorem declared (b : Backend) : KeyDeclared b decls key where
  declared := by simp [decls]
  agree := by cases b <;> decide
  this := by simp [key]
  watched := by decide
  keys := by decide
  fks := by decide
  links := by
    intro d hd l hl
    simp only [key, List.mem_cons, List.not_mem_nil, or_false] at hd
    rcases hd with rfl | rfl <;> simp [Dep.m2mTable] at hl
  only := by
    intro dn hdn
    simp only [decls, List.mem_cons, List.not_mem_nil, or_false] at hdn
    exact fun _ => hdn

theorem noReentry (b : Backend) : NoReentry (engine b) := by
  apply noReentry_of (fun _ => 0)
  cases b <;> decide

theorem setting (b : Backend) : KeySetting (app b) schema decls key where
  installed := rfl
  declared := declared b
  noReentry := noReentry b
  rand := by
    intro m n h
    have : (1000 + m : Int) = 1000 + n := h
    omega
  byValue := by
    intro d hd
    simp only [KeyField.relations, key, List.mem_cons, List.not_mem_nil, or_false] at hd
    rcases hd with rfl | rfl
    · exact .inl ⟨_, rfl⟩
    · exact .inr ⟨_, rfl⟩
  key := rfl
  reads := by decide
  unmanaged := by
    intro t h
    obtain ⟨dn, hdn, hw⟩ := managed_writes (D := decls) (E := engine b) rfl h
    revert hw
    simp only [decls, List.mem_singleton] at hdn
    subst hdn
    simp [Denorm.writes, KeyField.denorm, key, schema]
  pks := by simp only [app, List.mem_singleton]; rintro om rfl; decide
  models := by simp only [app, List.mem_singleton]; rintro om rfl; rfl
  relations := by simp only [app, List.mem_singleton]; rintro om rfl; decide

/-- Two forums, a post and a tag in the first one. -/
def db : Db :=
  ⟨fun t => if t = "forum" then [frow 1 1 11, frow 2 1 12] else if t = "post" then [prow 1 1 "x"] else if t = "tag" then [trow 1 "t" 2 1] else [], [], 0⟩

def small : Val → Bool
  | .int j => decide (j < 1000)
  | _ => true

theorem small_ne {v : Val} (h : small v = true) (n : Nat) : v ≠ .int (1000 + n) := by
  rintro rfl
  simp only [small, decide_eq_true_eq] at h
  omega

section
variable {b : Backend} {past : List Db} {X : DbServer} {i : Nat} {μs : List Move}

theorem orderly_post {id f : Int} {title : String} (h1 : (((X.sight schema i).1.rows "post" ++ [prow id f title]).map fun r => r "id").Nodup)
    (h2 : fineIn key 1000 ((X.sight schema i).1 :: X.db :: past) (X.sight schema i).1 ((app b).exec (.insert "post" [prow id f title]) (X.sight schema i).1) = true)
    (h : KeyOrderly (app b) schema key (X.db :: past) μs ((app b).move schema X (.stmt i (.insert "post" [prow id f title])))) :
    KeyOrderly (app b) schema key past (.stmt i (.insert "post" [prow id f title]) :: μs) X := by
  refine ⟨⟨?_, h1, fun e => absurd e (by decide), fun e => absurd e (by decide), fine_ok (fun _ => rfl) h2⟩, h⟩
  intro r hr
  simp only [List.mem_singleton] at hr
  subst hr
  refine ⟨fun p hp ht => ?_, fun d hd _ tbl c k hm => ?_⟩
  · have : p.2 = "id" := by revert p; decide
    rw [this]
    simp [prow, Demo.row]
  · simp only [KeyField.relations, key, List.mem_cons, List.not_mem_nil, or_false] at hd
    rcases hd with rfl | rfl <;> simp [Dep.m2mTable] at hm

theorem orderly_forum {id sec key_ : Int} (h0 : key_ < 1000) (h1 : (((X.sight schema i).1.rows "forum" ++ [frow id sec key_]).map fun r => r "id").Nodup)
    (h2 : fineIn key 1000 ((X.sight schema i).1 :: X.db :: past) (X.sight schema i).1 ((app b).exec (.insert "forum" [frow id sec key_]) (X.sight schema i).1) = true)
    (h : KeyOrderly (app b) schema key (X.db :: past) μs ((app b).move schema X (.stmt i (.insert "forum" [frow id sec key_])))) :
    KeyOrderly (app b) schema key past (.stmt i (.insert "forum" [frow id sec key_]) :: μs) X := by
  refine ⟨⟨?_, h1, fun _ => ⟨?_, List.pairwise_singleton ..⟩, fun _ r hr n _ => ?_, fine_ok (fun _ => rfl) h2⟩, h⟩
  · intro r hr
    simp only [List.mem_singleton] at hr
    subst hr
    refine ⟨fun p hp ht => ?_, fun d hd _ tbl c k hm => ?_⟩
    · have : p.2 = "id" := by revert p; decide
      rw [this]
      simp [frow, Demo.row]
    · simp only [KeyField.relations, key, List.mem_cons, List.not_mem_nil, or_false] at hd
      rcases hd with rfl | rfl <;> simp [Dep.m2mTable] at hm
  · intro r hr r0 h0
    simp only [List.mem_singleton] at hr
    subst hr
    have := h1
    rw [List.map_append, List.nodup_append] at this
    exact this.2.2 _ (List.mem_map.2 ⟨r0, h0, rfl⟩) _ (by simp [key, forum])
  · simp only [List.mem_singleton] at hr
    subst hr
    exact small_ne (v := frow id sec key_ key.field) (show decide (key_ < 1000) = true from decide_eq_true h0) n

/-- Give a post another title. -/
def retitle (id : Int) (title : String) : Stmt := .update "post" (Keys.is id) fun _ r => r.set "title" (.text title)

theorem orderly_retitle {id : Int} {title : String}
    (h2 : fineIn key 1000 ((X.sight schema i).1 :: X.db :: past) (X.sight schema i).1 ((app b).exec (retitle id title) (X.sight schema i).1) = true)
    (h : KeyOrderly (app b) schema key (X.db :: past) μs ((app b).move schema X (.stmt i (retitle id title)))) :
    KeyOrderly (app b) schema key past (.stmt i (retitle id title) :: μs) X := by
  refine ⟨⟨?_, fun x r => ?_, fun e => absurd e (by decide), fun e => absurd e (by decide), fine_ok (fun _ => rfl) h2⟩, h⟩
  · intro p hp ht x r
    have : p.2 = "id" := by revert p; decide
    simp [this, Row.set]
  · simp [schema, Row.set]

/-- Save a forum, with a key that Python has drawn. -/
def saveForum (id sec key_ : Int) : Stmt := saveUpdate forumOrm (frow id sec key_)

theorem orderly_save {id sec key_ : Int} (h0 : key_ < 1000) (h1 : (((X.sight schema i).1.rows "forum").filter (isRowOf forum (.int id))).length ≤ 1)
    (h2 : fineIn key 1000 ((X.sight schema i).1 :: X.db :: past) (X.sight schema i).1 ((app b).exec (saveForum id sec key_) (X.sight schema i).1) = true)
    (h : KeyOrderly (app b) schema key (X.db :: past) μs ((app b).move schema X (.stmt i (saveForum id sec key_)))) :
    KeyOrderly (app b) schema key past (.stmt i (saveForum id sec key_) :: μs) X := by
  refine ⟨⟨?_, fun x r => ?_, fun _ => .inl h1, fun _ x r => .inr fun n _ => ?_, fine_ok (fun _ => rfl) h2⟩, h⟩
  · intro p hp ht x r
    have : p.2 = "id" := by revert p; decide
    rw [this]
    exact if_neg (by decide)
  · exact if_neg (by decide)
  · show (if key.field ∈ forumOrm.saved.map SaveField.col then frow id sec key_ key.field else _) ≠ _
    rw [if_pos (by decide)]
    exact small_ne (v := frow id sec key_ key.field) (show decide (key_ < 1000) = true from decide_eq_true h0) n

theorem orderly_flush {m : Mark} (h2 : fineIn key 1000 (X.db :: past) X.db ((app b).flushOne m X.db) = true)
    (h : KeyOrderly (app b) schema key (X.db :: past) μs ((app b).move schema X (.flushOne m))) :
    KeyOrderly (app b) schema key past (.flushOne m :: μs) X := by
  refine ⟨⟨fun om hom r _ mem hp _ x r' => .inr fun n _ => ?_, fine_ok (fun _ => rfl) h2⟩, h⟩
  simp only [app, List.mem_singleton] at hom
  subst hom
  simp only [forumOrm, preSaveAll, SaveField.preSave, Except.ok.injEq] at hp
  show (if key.field ∈ forumOrm.saved.map SaveField.col then mem key.field else _) ≠ _
  rw [if_pos (by decide), ← hp]
  refine small_ne ?_ n
  simp only [key, Row.set, if_true, small, app, pyKey]
  split <;> simp <;> omega

end

/-- Three sessions and flush(). The second session creates a forum with a post, and saves it again; the third one is rolled back; the first and the third one write posts of the same forum, so that
one of them has to wait for the other. -/
def busy : List Move :=
  [.stmt 1 (.insert "forum" [frow 3 1 13]), .stmt 0 (.insert "post" [prow 2 1 "y"]), .stmt 1 (.insert "post" [prow 3 3 "z"]), .flushOne ⟨2, .int 2⟩, .stmt 2 (retitle 1 "v"), .commit 0,
    .stmt 2 (retitle 1 "w"), .rollback 2, .stmt 1 (saveForum 3 1 14), .commit 1, .stmt 2 (retitle 3 "u"), .flushOne ⟨2, .int 1⟩, .commit 2]

theorem orderly_busy (b : Backend) : KeyOrderly (app b) schema key [] busy ⟨db, List.replicate 3 none⟩ := by
  refine orderly_forum (by decide) ?_ ?_ (orderly_post ?_ ?_ (orderly_post ?_ ?_ (orderly_flush ?_ (orderly_retitle ?_ ⟨trivial, orderly_retitle ?_ ⟨trivial,
    orderly_save (by decide) ?_ ?_ ⟨trivial, orderly_retitle ?_ (orderly_flush ?_ ⟨trivial, trivial⟩)⟩⟩⟩))))
  all_goals cases b <;> decide +kernel

theorem distinct : KeysDistinct schema db := by
  intro t
  simp only [schema, db]
  repeat' split
  all_goals decide

theorem keysOk : KeysOk key.relations db := by unfold KeysOk; decide

theorem old (b : Backend) : ∀ r ∈ db.rows key.model.table, ∀ n, db.draws ≤ n → r key.field ≠ .int ((app b).engine.rand n) := by
  intro r hr n _
  have : small (r key.field) = true := by revert r; decide
  exact small_ne this n

/-- The committed state after `i` moves. -/
def after (b : Backend) (i : Nat) : Db := ((app b).moves schema (busy.take i) ⟨db, List.replicate 3 none⟩).db

/-- C76 applies to that schedule, on each database; and what becomes of the keys of the forums: on sqlite the first session's post is lost (the session does not try again when it has had to wait),
and so is the first save by flush(). -/
example (b : Backend) : (∀ i j, ∀ r ∈ (after b i).rows "forum", ∀ r' ∈ (after b j).rows "forum", r "id" = r' "id" → r "key" = r' "key" → key.SameSight (after b i) r (after b j) r') ∧
    [0, 6, 8, 10, 13].map (fun i => ((after b i).rows "forum").map fun r => r "key") =
      match b with
      | .sqlite => [[.int 11, .int 12], [.int 11, .int 12], [.int 11, .int 12], [.int 11, .int 12, .int 14], [.int 11, .int 12, .int 1004]]
      | _ => [[.int 11, .int 12], [.int 1000, .int (-13)], [.int 1000, .int (-13)], [.int 1000, .int (-13), .int 14], [.int (-1001), .int (-13), .int 1004]] :=
  ⟨C76_same_sight_partial (setting b) distinct keysOk (by decide) (old b) (orderly_busy b), by cases b <;> decide +kernel⟩

/-- One session creates a forum, another one a post in it; neither sees what the other one has not committed. -/
def unseenForum : List Move := [.stmt 0 (.insert "forum" [frow 3 1 13]), .stmt 1 (.insert "post" [prow 3 3 "z"]), .commit 0, .commit 1]

/-- C76 refuted without the foreign key constraint (for a GenericRelation there never is one), on databases with several writers: the forum has the same key before and after it gets its post. -/
theorem C76_violated_unconstrained (b : Backend) (hb : b ≠ .sqlite) : KeySetting (app b) schema decls key ∧ KeysDistinct schema db ∧ KeysOk key.relations db ∧ key.Refer db ∧
    ∃ r ∈ ((app b).moves schema (unseenForum.take 3) ⟨db, List.replicate 2 none⟩).db.rows "forum",
    ∃ r' ∈ ((app b).moves schema (unseenForum.take 4) ⟨db, List.replicate 2 none⟩).db.rows "forum", r "id" = r' "id" ∧ r "key" = r' "key" ∧
      ¬ key.SameSight ((app b).moves schema (unseenForum.take 3) ⟨db, List.replicate 2 none⟩).db r ((app b).moves schema (unseenForum.take 4) ⟨db, List.replicate 2 none⟩).db r' := by
  refine ⟨setting b, distinct, keysOk, by decide, ?_⟩
  cases b
  · exact absurd rfl hb
  · decide +kernel
  · decide +kernel

end Notice

namespace Keys
set_option maxRecDepth 100000

/-- With or without foreign key constraints. -/
def schema (fk : Bool) : Schema :=
  ⟨fun _ => "id", fun t => if fk then (if t = "forum" then [("section_id", "section")] else if t = "post" then [("forum_id", "forum")] else
    if t = "member_bookmarks" then [("member_id", "member"), ("post_id", "post")] else []) else []⟩

/-- One session creates a forum in a section, another one renames the section. -/
def newForum : List Move := [.stmt 0 (.insert "forum" [frow 4 1 14]), .stmt 1 rename, .commit 0, .commit 1]

/-- One session bookmarks a post for a member, another one changes the post's title. -/
def newBookmark : List Move := [.stmt 0 (.insert "member_bookmarks" [brow 2 2 1]), .stmt 1 retitle, .commit 0, .commit 1]

/-- The committed state after `i` moves. -/
def after (b : Backend) (fk : Bool) (μs : List Move) (i : Nat) : Db := ((app b).moves (schema fk) (μs.take i) ⟨db, List.replicate 2 none⟩).db

/-- C76 refuted for ForeignKeys of the instance itself: on PostgreSQL, and on MySQL without foreign key constraints. The trigger on sections renews the keys of the forums
that the second session sees. All statements are as they should be, and the forum has the same key before and after the name of its section changes. -/
theorem C76_violated_forward : ∀ p ∈ [(Backend.postgresql, true), (.postgresql, false), (.mysql, false)],
    Installed (app p.1).engine decls ∧ KeyDeclared p.1 decls forumKey ∧ NoReentry (app p.1).engine ∧ KeysOk forumKey.relations db ∧ forumKey.Refer db ∧
    KeyOrderly (app p.1) (schema p.2) forumKey [] newForum ⟨db, List.replicate 2 none⟩ ∧
    ∃ r ∈ (after p.1 p.2 newForum 3).rows "forum", ∃ r' ∈ (after p.1 p.2 newForum 4).rows "forum", r "id" = r' "id" ∧ r "key" = r' "key" ∧
      ¬ forumKey.SameSight (after p.1 p.2 newForum 3) r (after p.1 p.2 newForum 4) r' := by
  intro p hp
  refine ⟨rfl, wd_forum _, noReentry _, keysOk _ (.inl rfl), by decide, ⟨⟨?_, ?_, fun _ => ⟨?_, List.pairwise_singleton ..⟩, fun _ r hr n _ => ?_, fine_ok (β := 100) (fun _ => rfl) ?_⟩,
    ⟨⟨?_, ?_, fun h => absurd h (by decide), fun h => absurd h (by decide), fine_ok (β := 100) (fun _ => rfl) ?_⟩, trivial, trivial, trivial⟩⟩, ?_⟩
  · intro r hr
    simp only [List.mem_singleton] at hr
    subst hr
    refine ⟨fun q hq ht => ?_, fun d hd _ tbl c k hm => ?_⟩
    · have : q.2 = "id" := by revert q; decide
      rw [this]
      simp [frow, Demo.row]
    · simp only [KeyField.relations, forumKey, List.mem_cons, List.not_mem_nil, or_false] at hd
      rcases hd with rfl | rfl | rfl <;> simp [Dep.m2mTable] at hm
  · show ((db.rows "forum" ++ _).map fun r => r "id").Nodup
    decide
  · show ∀ r ∈ [frow 4 1 14], ∀ r0 ∈ db.rows "forum", _
    decide
  · simp only [List.mem_singleton] at hr
    subst hr
    show Val.int 14 ≠ .int (100 + (n : Int))
    simp only [ne_eq, Val.int.injEq]
    omega
  · revert p; decide +kernel
  · intro q hq ht x r
    have : q.2 = "id" := by revert q; decide
    simp [this, Row.set]
  · intro x r
    simp [schema, Row.set]
  · revert p; decide +kernel
  · revert p; decide +kernel

/-- On MySQL with foreign key constraints the second session has to wait for the first one, and so it does on sqlite; the schedule does no harm. -/
example : ∀ p ∈ [(Backend.mysql, true), (.sqlite, true), (.sqlite, false)], ∀ i ∈ List.range 5, ∀ j ∈ List.range 5,
    ∀ r ∈ (after p.1 p.2 newForum i).rows "forum", ∀ r' ∈ (after p.1 p.2 newForum j).rows "forum", r "id" = r' "id" → r "key" = r' "key" →
      forumKey.SameSight (after p.1 p.2 newForum i) r (after p.1 p.2 newForum j) r' := by decide +kernel

/-- C76 refuted for many-to-many relations, in the same way. -/
theorem C76_violated_m2m : ∀ p ∈ [(Backend.postgresql, true), (.postgresql, false), (.mysql, false)],
    Installed (app p.1).engine decls ∧ KeyDeclared p.1 decls memberKey ∧ NoReentry (app p.1).engine ∧ KeysOk memberKey.relations db ∧ memberKey.Refer db ∧
    KeyOrderly (app p.1) (schema p.2) memberKey [] newBookmark ⟨db, List.replicate 2 none⟩ ∧
    ∃ r ∈ (after p.1 p.2 newBookmark 3).rows "member", ∃ r' ∈ (after p.1 p.2 newBookmark 4).rows "member", r "id" = r' "id" ∧ r "key" = r' "key" ∧
      ¬ memberKey.SameSight (after p.1 p.2 newBookmark 3) r (after p.1 p.2 newBookmark 4) r' := by
  intro p hp
  refine ⟨rfl, wd_member _, noReentry _, keysOk _ (.inr rfl), by decide, ⟨⟨?_, ?_, fun h => absurd h (by decide), fun h => absurd h (by decide), fine_ok (β := 100) (fun _ => rfl) ?_⟩,
    ⟨⟨?_, ?_, fun h => absurd h (by decide), fun h => absurd h (by decide), fine_ok (β := 100) (fun _ => rfl) ?_⟩, trivial, trivial, trivial⟩⟩, ?_⟩
  · intro r hr
    refine ⟨fun q hq ht => absurd ht ?_, fun d hd ht => absurd ht ?_⟩
    · revert q; decide
    · simp only [KeyField.relations, memberKey, List.mem_singleton] at hd
      subst hd
      decide
  · show ((db.rows "member_bookmarks" ++ _).map fun r => r "id").Nodup
    decide
  · revert p; decide +kernel
  · intro q hq ht x r
    have : q.2 = "id" := by revert q; decide
    simp [this, Row.set]
  · intro x r
    simp [schema, Row.set]
  · revert p; decide +kernel
  · revert p; decide +kernel

end Keys

end Denorm
