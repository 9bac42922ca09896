import Verif.Code.Rebuild
import Verif.Code.Registry
import Verif.Props.Settle
import Verif.Spec.Aggregate
/-!
# rebuildall() (C24, C25) and the list of declarations (C31)
-/
namespace Denorm

/-! ## C31 -/

/-- C31: the declarations found are exactly those of (concrete) fields of non-proxy models whose declaring model is not swapped out. -/
theorem C31_exact (swapped : Model → Bool) (reg : List RegModel) (dn : Denorm) :
    dn ∈ getAlldenorms swapped reg ↔ ∃ m ∈ reg, m.proxy = false ∧ (∃ f ∈ m.fields, f.denorm = some dn) ∧ swapped dn.model = false := by
  induction reg with
  | nil => simp [getAlldenorms]
  | cons m ms ih =>
    simp only [getAlldenorms, List.mem_append, ih, List.mem_cons, exists_eq_or_imp]
    refine or_congr ?_ Iff.rfl
    cases hp : m.proxy with
    | true => simp
    | false =>
      simp only [Bool.false_eq_true, if_false, List.mem_flatMap, true_and]
      constructor
      · rintro ⟨f, hf, h⟩
        cases hd : f.denorm with
        | none => rw [hd] at h; simp at h
        | some dn' =>
          rw [hd] at h
          simp only at h
          split at h
          · simp at h
          · rename_i hs
            simp only [List.mem_singleton] at h
            subst h
            exact ⟨⟨f, hf, hd⟩, by simpa using hs⟩
      · rintro ⟨⟨f, hf, hd⟩, hs⟩
        exact ⟨f, hf, by simp [hd, hs]⟩

/-- C31: a proxy model contributes nothing, wherever it stands in the registry. -/
theorem C31_proxy (swapped : Model → Bool) (pre post : List RegModel) (p : RegModel) (hp : p.proxy = true) :
    getAlldenorms swapped (pre ++ p :: post) = getAlldenorms swapped (pre ++ post) := by
  induction pre with
  | nil => simp [getAlldenorms, hp]
  | cons m ms ih => simp [getAlldenorms, ih]

/-! ## C24 -/

/-- What the argument of denorm_rebuild may name: an app label, a model name, or `app.Model`. -/
def Names (arg : Option String) (m : Model) : Prop :=
  arg = none ∨ arg = some m.appLabel ∨ arg = some m.name ∨ arg = some (m.appLabel ++ "." ++ m.name)

/-- `dn` is what rebuildall(model_name, field_name) asks for. -/
def Asked (modelName fieldName : Option String) (dn : Denorm) : Prop :=
  Names modelName dn.model ∧ (fieldName = none ∨ fieldName = some dn.fieldname)

theorem selected_iff {mn fn : Option String} {dn : Denorm} : dn.selected mn fn = true ↔ Asked mn fn dn := by
  simp only [Denorm.selected, Bool.and_eq_true, Asked, Names]
  refine and_congr ?_ ?_
  · cases mn with
    | none => simp
    | some n => simp
  · cases fn with
    | none => simp
    | some f => simp

theorem mem_rebuildModels {D : List Denorm} {mn fn : Option String} {m : Model} :
    m ∈ rebuildModels D mn fn ↔ ∃ dn ∈ D, Asked mn fn dn ∧ dn.model = m := by
  simp only [rebuildModels, mem_dedup, List.mem_map, List.mem_filter, selected_iff, and_assoc]

theorem mem_rebuildMarks {D : List Denorm} {mn fn : Option String} {db : Db} {m : Mark} :
    m ∈ rebuildMarks (rebuildModels D mn fn) db ↔
      ∃ dn ∈ D, Asked mn fn dn ∧ ∃ r ∈ db.rows dn.model.table, m = ⟨dn.model.ct, r dn.model.pk⟩ := by
  simp only [rebuildMarks, List.mem_flatMap, mem_rebuildModels, List.mem_map]
  constructor
  · rintro ⟨md, ⟨dn, h1, h2, rfl⟩, r, hr, rfl⟩
    exact ⟨dn, h1, h2, r, hr, rfl⟩
  · rintro ⟨dn, h1, h2, r, hr, rfl⟩
    exact ⟨dn.model, ⟨dn, h1, h2, rfl⟩, r, hr, rfl⟩

section
variable {A : App} {D : List Denorm} {mn fn : Option String} {db : Db}

/-- C24, what is marked: rebuildall() hands to flush() the markers that were there and, in addition, markers for exactly the rows of the
models of the declarations asked for. -/
theorem C24_marks (n : Nat) : ∃ ms, A.rebuildall D mn fn n db = A.flush n { db with dirty := db.dirty ++ ms } ∧
    ∀ m, m ∈ ms ↔ ∃ dn ∈ D, Asked mn fn dn ∧ ∃ r ∈ db.rows dn.model.table, m = ⟨dn.model.ct, r dn.model.pk⟩ :=
  ⟨_, rfl, fun _ => mem_rebuildMarks⟩

theorem flushable_rows {om : OrmModel} {cb : Callback} {db db' : Db} (h : db'.rows = db.rows) (hF : Flushable A D om cb db) :
    Flushable A D om cb db' := by
  refine { hF with deps := fun d hd => ⟨(hF.deps d hd).triggers, ?_⟩ }
  rcases (hF.deps d hd).self with h1 | ⟨h1, h2, h3⟩
  · exact .inl h1
  · refine .inr ⟨h1, fun r hr o ho => h2 r (h ▸ hr) o ?_, h3⟩
    rw [related_rows h] at ho
    exact ho

/-- C24 for callback fields that one save makes right (`Flushable`): if the model of `cb` is among those asked for, then whatever the
database held before (in particular with nothing marked at all), when rebuildall() returns no marker is left and every row holds what
the callback returns. CountField and SumField are not covered: see `C24_violated_aggregate`. -/
theorem C24_rebuild_partial {om : OrmModel} {cb : Callback} (hF : Flushable A D om cb db) (hu : KeysUnique A db) (hK : KeysOk cb db)
    {dn : Denorm} (hdn : dn ∈ D) (hask : Asked mn fn dn) (hmod : dn.model = cb.model) {n : Nat} {db' : Db}
    (h : A.rebuildall D mn fn n db = .ok (some db')) :
    db'.dirty = [] ∧ ∀ r ∈ db'.rows cb.model.table, r cb.field = cb.value db' r := by
  refine C01_flush_partial (flushable_rows (db := db) (db' := db.addMarks _) rfl hF) hu hK ?_ h
  intro r hr _
  exact List.mem_append_right _ (mem_rebuildMarks.2 ⟨dn, hdn, hask, r, by rw [hmod]; exact hr, by rw [hmod]⟩)

/-- C24, projects with `@denormalized` fields only and without cycles: rebuildall() does return, and then everything asked for is right. -/
theorem C24_rebuild_returns_partial {om : OrmModel} {cb : Callback} (hP : Project A D) (hC : Calm A D) (hp : ∀ l, (A.arrange l).Perm l)
    (ha : Acyclic A D db) (hm : MarksKnown A db) (hF : Flushable A D om cb db) (hu : KeysUnique A db) (hK : KeysOk cb db)
    {dn : Denorm} (hdn : dn ∈ D) (hask : Asked mn fn dn) (hmod : dn.model = cb.model) :
    ∃ n db', A.rebuildall D mn fn n db = .ok (some db') ∧ db'.dirty = [] ∧ ∀ r ∈ db'.rows cb.model.table, r cb.field = cb.value db' r := by
  have hm' : MarksKnown A (db.addMarks (rebuildMarks (rebuildModels D mn fn) db)) := by
    intro m hm'
    rcases List.mem_append.1 hm' with h | h
    · exact hm m h
    · obtain ⟨dn, hdn, _, r, _, rfl⟩ := mem_rebuildMarks.1 h
      obtain ⟨om, hom, e⟩ := hP.known dn hdn
      exact ⟨om, hom, by rw [e]⟩
  have ha' : Acyclic A D (db.addMarks (rebuildMarks (rebuildModels D mn fn) db)) := by
    intro p hpp
    refine ha p ?_
    have : ∀ p q, DependsOn A D (db.addMarks (rebuildMarks (rebuildModels D mn fn) db)) p q → DependsOn A D db p q := by
      intro p q h
      induction h with
      | direct h1 h2 h3 h4 h5 =>
        refine .direct h1 h2 h3 h4 ?_
        rcases h5 with ⟨d, hd, ht, h5⟩ | h5
        · exact .inl ⟨d, hd, ht, by unfold Dep.relatedTo at h5 ⊢; exact h5⟩
        · exact .inr h5
      | trans _ _ h1 h2 => exact .trans h1 h2
    exact this p p hpp
  obtain ⟨db', h, _⟩ := C18_returns (db := db.addMarks (rebuildMarks (rebuildModels D mn fn) db)) hP hC hp hu hm' ha'
  exact ⟨_, db', h, C24_rebuild_partial hF hu hK hdn hask hmod h⟩


/-! ## C25 -/

/-- Without dependencies a save marks nothing but the instance itself. -/
theorem own_spreads (hP : Project A D) (hdeps : ∀ dn ∈ D, dn.deps = []) (hcb : ∀ dn ∈ D, ∃ bu md f sk ds, dn = .callback bu md f sk ds)
    {om : OrmModel} (hom : om ∈ A.models) (k : Val) (db0 : Db) :
    Spreads A D (fun t o => t = om.model.table ∧ o om.model.pk = k) (fun m => m = ⟨om.model.ct, k⟩) db0 where
  alike := by
    rintro t o o' h ⟨rfl, hk⟩
    exact ⟨rfl, (h _ (pk_untouched hP.safe hom)).trans hk⟩
  rows := by
    intro db _ t o _ dn hdn x _ hr
    obtain ⟨bu, md, f, sk, ds, rfl⟩ := hcb dn hdn
    exact hr.elim
  marks := by
    rintro db _ t o ⟨rfl, hk⟩ dn hdn m hm
    have hd := hdeps dn hdn
    obtain ⟨om', hom', e⟩ := hP.known dn hdn
    obtain ⟨bu, md, f, sk, ds, rfl⟩ := hcb dn hdn
    simp only [Denorm.deps] at hd
    subst hd
    rcases hm with ⟨ht, rfl⟩ | ⟨d, hd, _⟩
    · simp only [Denorm.model] at e
      have : om = om' := hP.tables om hom om' hom' (by rw [ht, e])
      subst this
      rw [← e, hk]
    · simp at hd

theorem flushOne_own (hP : Project A D) (hdeps : ∀ dn ∈ D, dn.deps = []) (hcb : ∀ dn ∈ D, ∃ bu md f sk ds, dn = .callback bu md f sk ds)
    {db' : Db} (hu : KeysUnique A db) {m : Mark} (h : A.flushOne m db = .ok db') : ∀ m' ∈ db'.dirty, m' ≠ m ∧ m' ∈ db.dirty := by
  simp only [App.flushOne] at h
  cases hs : A.saveObject m db with
  | error e => rw [hs] at h; simp at h
  | ok db1 =>
    rw [hs] at h
    simp only [Except.ok.injEq] at h
    subst h
    intro m' hm'
    obtain ⟨h1, h2⟩ := List.mem_filter.1 hm'
    simp only [ne_eq, decide_eq_true_eq] at h2
    refine ⟨h2, ?_⟩
    rcases saveObject_cases hP.safe hu hs with ⟨_, rfl⟩ | ⟨om, hom, r, mem, _, hf, hk, hSv⟩
    · exact h1
    · have hsame : ∀ c, c ∉ om.denormCols → savedRow om mem r c = r c := by
        intro c hc
        simp only [savedRow]
        split
        · exact hSv.plain c hc
        · rfl
      have hct : om.model.ct = m.ct := by simpa using List.find?_some hf
      have := (saveUpdate_marks hP hom (own_spreads hP hdeps hcb hom m.oid db) (hu om hom).1 hSv.inTable hSv.key.symm
        ((hu om hom).2 r hSv.inTable) hsame ⟨rfl, hk⟩ hSv.exec).2 m' h1
      rcases this with h3 | h3
      · exact h3
      · exact absurd (by rw [h3, hct]) h2

theorem flushList_own (hP : Project A D) (hdeps : ∀ dn ∈ D, dn.deps = []) (hcb : ∀ dn ∈ D, ∃ bu md f sk ds, dn = .callback bu md f sk ds) :
    ∀ (ms : List Mark) {db db' : Db}, KeysUnique A db → A.flushList ms db = .ok db' → (∀ m ∈ db.dirty, m ∈ ms) → db'.dirty = []
  | [], db, db', _, h, hd => by
    simp only [App.flushList, Except.ok.injEq] at h
    subst h
    exact List.eq_nil_iff_forall_not_mem.2 fun m hm => by simpa using hd m hm
  | m :: ms, db, db', hu, h, hd => by
    simp only [App.flushList] at h
    cases hs : A.flushOne m db with
    | error e => rw [hs] at h; simp at h
    | ok db1 =>
      rw [hs] at h
      refine flushList_own hP hdeps hcb ms (sameKeys_flushOne hP.safe hu hs).2 h fun m' hm' => ?_
      obtain ⟨h1, h2⟩ := flushOne_own hP hdeps hcb hu hs m' hm'
      exact (List.mem_cons.1 (hd m' h2)).resolve_left h1

theorem nodup_flatMap {α β : Type _} {f : α → List β} : ∀ {l : List α}, l.Nodup → (∀ a ∈ l, (f a).Nodup) →
    (∀ a ∈ l, ∀ b ∈ l, ∀ x, x ∈ f a → x ∈ f b → a = b) → (l.flatMap f).Nodup
  | [], _, _, _ => by simp
  | a :: l, hn, h1, h2 => by
    simp only [List.nodup_cons] at hn
    simp only [List.flatMap_cons, List.nodup_append]
    refine ⟨h1 a (List.mem_cons_self ..), nodup_flatMap hn.2 (fun b hb => h1 b (List.mem_cons_of_mem _ hb))
      (fun b hb c hc => h2 b (List.mem_cons_of_mem _ hb) c (List.mem_cons_of_mem _ hc)), ?_⟩
    intro x hx y hy e
    subst e
    obtain ⟨b, hb, hy⟩ := List.mem_flatMap.1 hy
    have := h2 a (List.mem_cons_self ..) b (List.mem_cons_of_mem _ hb) x hx hy
    subst this
    exact hn.1 hb

theorem rebuildMarks_nodup (hP : Project A D) (hu : KeysUnique A db) : (rebuildMarks (rebuildModels D mn fn) db).Nodup := by
  have hk : ∀ m ∈ rebuildModels D mn fn, ∃ om ∈ A.models, om.model = m := by
    intro m hm
    obtain ⟨dn, hdn, _, rfl⟩ := mem_rebuildModels.1 hm
    exact hP.known dn hdn
  refine nodup_flatMap (nodup_dedup _) ?_ ?_
  · intro m hm
    obtain ⟨om, hom, rfl⟩ := hk m hm
    have := (hu om hom).1
    rw [List.nodup_iff_pairwise_ne] at this ⊢
    rw [List.pairwise_map] at this ⊢
    exact this.imp fun h e => h (by simpa using e)
  · intro a ha b hb x hxa hxb
    obtain ⟨om, hom, rfl⟩ := hk a ha
    obtain ⟨om', hom', rfl⟩ := hk b hb
    obtain ⟨r, _, rfl⟩ := List.mem_map.1 hxa
    obtain ⟨r', _, e⟩ := List.mem_map.1 hxb
    simp only [Mark.mk.injEq] at e
    rw [hP.cts om hom om' hom' e.1.symm]

open Classical in
/-- C25: without dependencies and with an empty dirty table, rebuildall() returns after one pass, and (no matter how long it is observed)
it has called save() exactly once for every row of a model asked for and for nothing else. Calls of callbacks
are counted in `C25_evaluations`. The list `D` may contain a declaration any number of times, as it does when there are
multi-table children. -/
theorem C25_once (hP : Project A D) (hC : Calm A D) (hp : ∀ l, (A.arrange l).Perm l) (hdeps : ∀ dn ∈ D, dn.deps = [])
    (hu : KeysUnique A db) (hd : db.dirty = []) :
    (∃ db', A.rebuildall D mn fn 1 db = .ok (some db') ∧ db'.dirty = []) ∧
    ∀ n m, (A.flushSaves (n + 1) { db with dirty := rebuildMarks (rebuildModels D mn fn) db }).count m =
      if ∃ dn ∈ D, Asked mn fn dn ∧ ∃ r ∈ db.rows dn.model.table, m = ⟨dn.model.ct, r dn.model.pk⟩ then 1 else 0 := by
  generalize hms : rebuildMarks (rebuildModels D mn fn) db = ms
  have hmem : ∀ m, m ∈ ms ↔ ∃ dn ∈ D, Asked mn fn dn ∧ ∃ r ∈ db.rows dn.model.table, m = ⟨dn.model.ct, r dn.model.pk⟩ :=
    fun m => hms ▸ mem_rebuildMarks
  have hnd : ms.Nodup := hms ▸ rebuildMarks_nodup hP hu
  have hcount : ∀ m, ms.count m =
      if ∃ dn ∈ D, Asked mn fn dn ∧ ∃ r ∈ db.rows dn.model.table, m = ⟨dn.model.ct, r dn.model.pk⟩ then 1 else 0 := by
    intro m
    rw [hnd.count]
    simp only [hmem]
  let db1 : Db := { db with dirty := ms }
  have hstart : A.rebuildall D mn fn 1 db = A.flush 1 db1 := by
    simp only [App.rebuildall, Db.addMarks, hd, List.nil_append, hms]
    rfl
  have hu1 : KeysUnique A db1 := hu
  have hknown : ∀ m ∈ ms, ∃ om ∈ A.models, om.model.ct = m.ct := by
    intro m hm
    obtain ⟨dn, hdn, _, r, _, rfl⟩ := (hmem m).1 hm
    obtain ⟨om, hom, e⟩ := hP.known dn hdn
    exact ⟨om, hom, by rw [e]⟩
  have htarget : ∀ m ∈ ms, A.HasTarget db1 m := by
    intro m hm
    obtain ⟨dn, hdn, _, r, hr, rfl⟩ := (hmem m).1 hm
    obtain ⟨om, hom, e⟩ := hP.known dn hdn
    cases hf : A.models.find? (fun om => om.model.ct == dn.model.ct) with
    | none =>
      have := List.find?_eq_none.1 hf om hom
      simp [e] at this
    | some om' =>
      have h1 : om'.model.ct = dn.model.ct := by simpa using List.find?_some hf
      have : om' = om := hP.cts om' (List.mem_of_find?_eq_some hf) om hom (by rw [h1, e])
      subst this
      refine ⟨om', hf, r, by rw [e]; exact hr, by rw [e], ?_⟩
      have := (hu om' hom).2 r (by rw [e]; exact hr)
      rw [e] at this
      exact this
  by_cases hemp : ms = []
  · have h0 : db1.dirty = [] := hemp
    refine ⟨⟨db1, by rw [hstart]; simp [App.flush, h0], h0⟩, fun n m => ?_⟩
    rw [← hcount, hemp]
    simp [App.flushSaves]
  · obtain ⟨db2, h1, _, _⟩ := flushList_ok hC (A.snapshot db1) hu1 hknown fun m hm => hknown m ((mem_snapshot hp).1 hm)
    have h2 : db2.dirty = [] :=
      flushList_own hP hdeps hC.callbacks _ hu1 h1 fun m hm => (mem_snapshot hp).2 hm
    have hne : db1.dirty ≠ [] := hemp
    refine ⟨⟨db2, ?_, h2⟩, fun n m => ?_⟩
    · rw [hstart]
      simp only [App.flush, hne, if_false, App.pass, h1, h2, if_true]
    · have hrest : A.flushSaves n db2 = [] := by cases n <;> simp [App.flushSaves, h2]
      have hsv : A.flushSaves (n + 1) db1 = A.savedIn (A.snapshot db1) db1 := by
        simp only [App.flushSaves, hne, if_false, App.pass, h1, hrest, List.append_nil]
      show (A.flushSaves (n + 1) db1).count m = _
      rw [← hcount, hsv, savedIn_eq hP.safe _ hu1 h1]
      have hfil : (A.snapshot db1).filter (fun m => decide (A.HasTarget db1 m)) = A.snapshot db1 :=
        List.filter_eq_self.2 fun m hm => by simpa using htarget m ((mem_snapshot hp).1 hm)
      rw [hfil]
      have hsn : (A.snapshot db1).Nodup := by
        simp only [App.snapshot]
        split
        · exact nodup_dedup _
        · exact (hp _).nodup_iff.2 hnd
      rw [hsn.count, hnd.count]
      simp only [mem_snapshot hp]
      rfl

end

/-! ## The hypotheses are met -/

namespace Notes
open Demo (fld row)
set_option maxRecDepth 100000

/-- Note(text, shout, whisper): two callback fields that depend on the row only. -/
def note : Model :=
  { repr := "<class 'app.Note'>", appLabel := "app", name := "Note", table := "note", pkTable := "note", pk := "id", ct := 51,
    fields := [fld "id", fld "text", fld "shout", fld "whisper"] }
def copyFn : List Val → List (List (List Val)) → Val
  | [v], _ => v
  | _, _ => .null
def shout : Callback := { model := note, field := "shout", own := ["text"], deps := [], fn := copyFn }
def whisper : Callback := { model := note, field := "whisper", own := ["shout"], deps := [], fn := copyFn }
def noteOrm : OrmModel := ⟨note, [⟨"text", .plain⟩, ⟨"shout", .callback shout⟩, ⟨"whisper", .callback whisper⟩]⟩

/-- Note, a proxy of it, and a multi-table child: `_meta.fields` of both contain Note's fields. -/
def reg : List RegModel :=
  [⟨note, false, [⟨"id", none⟩, ⟨"text", none⟩, ⟨"shout", some shout.denorm⟩, ⟨"whisper", some whisper.denorm⟩], []⟩,
   ⟨note, true, [⟨"id", none⟩, ⟨"text", none⟩, ⟨"shout", some shout.denorm⟩, ⟨"whisper", some whisper.denorm⟩], []⟩,
   ⟨{ note with name := "LongNote", table := "longnote", ct := 52 }, false,
     [⟨"id", none⟩, ⟨"text", none⟩, ⟨"shout", some shout.denorm⟩, ⟨"whisper", some whisper.denorm⟩, ⟨"note_ptr", none⟩], []⟩]
def decls : List Denorm := getAlldenorms (fun _ => false) reg

/-- C31: the child repeats the parent's declarations, the proxy adds nothing. -/
example : decls = [shout.denorm, whisper.denorm, shout.denorm, whisper.denorm] := rfl
example : getAlldenorms (fun m => m.name == "Note") reg = [] := by decide

def engine (b : Backend) : Engine := ⟨b, installedTriggers b decls, fun _ => 0⟩
def app (b : Backend) : App := ⟨engine b, [noteOrm], fun l => l, fun db _ _ => db.draws, 100⟩
def nrow (id : Int) (t s w : String) : Row := row [("id", .int id), ("text", .text t), ("shout", .text s), ("whisper", .text w)]
/-- Filled before the triggers were installed: nothing is right, nothing is marked. -/
def db : Db := ⟨fun t => if t = "note" then [nrow 1 "a" "" "", nrow 2 "b" "" ""] else [], [], 0⟩

theorem noUpdates (b : Backend) : ∀ tr ∈ (engine b).triggers, tr.updates = [] := by cases b <;> decide

theorem not_reached (b : Backend) {om : OrmModel} {t : TableName} {c : Col} : ¬ Reached (engine b) om t c := by
  intro h
  cases h with
  | direct htr _ _ _ hu => have := DbTrigger.mem_updates.2 hu; simp [noUpdates b _ htr] at this
  | next _ htr _ _ _ hu => have := DbTrigger.mem_updates.2 hu; simp [noUpdates b _ htr] at this

theorem keysSafe (b : Backend) : KeysSafe (app b) where
  kept := by cases b <;> decide
  free := fun _ _ _ _ h => not_reached b h

theorem deps_nil : ∀ dn ∈ decls, dn.deps = [] := by decide

theorem agree : ∀ b, AgreeOnWatch b decls
  | .sqlite => by decide
  | .mysql => by decide
  | .postgresql => by decide

theorem project (b : Backend) : Project (app b) decls where
  installed := rfl
  agree := agree b
  safe := keysSafe b
  cts := by
    intro om hom om' hom' _
    simp only [app, List.mem_singleton] at hom hom'
    rw [hom, hom']
  tables := by
    intro om hom om' hom' _
    simp only [app, List.mem_singleton] at hom hom'
    rw [hom, hom']
  known := by
    intro dn hdn
    refine ⟨noteOrm, by simp [app], ?_⟩
    revert dn
    decide
  this := fun dn hdn d hd => by rw [deps_nil dn hdn] at hd; simp at hd
  pkTable := by decide
  others := fun dn hdn d hd => by rw [deps_nil dn hdn] at hd; simp at hd
  generic := fun dn hdn d hd => by rw [deps_nil dn hdn] at hd; simp at hd
  through := fun dn hdn d hd => by rw [deps_nil dn hdn] at hd; simp at hd
  fixed := fun dn hdn d hd => by rw [deps_nil dn hdn] at hd; simp at hd
  fixedFk := by
    intro a ha
    exfalso
    have : decls = [shout.denorm, whisper.denorm, shout.denorm, whisper.denorm] := rfl
    rw [this] at ha
    simp [Callback.denorm] at ha

theorem calm (b : Backend) : Calm (app b) decls where
  installed := rfl
  callbacks := by
    intro dn hdn
    have : decls = [shout.denorm, whisper.denorm, shout.denorm, whisper.denorm] := rfl
    simp only [this, List.mem_cons, List.not_mem_nil, or_false] at hdn
    rcases hdn with rfl | rfl | rfl | rfl <;> exact ⟨_, _, _, _, _, rfl⟩
  this := (project b).this
  known := (project b).known
  safe := keysSafe b
  fuel := by cases b <;> simp only [FuelEnough, app] <;> decide

theorem unique (b : Backend) : KeysUnique (app b) db := by unfold KeysUnique; cases b <;> decide

/-- C25 applies, with and without names. -/
example (b : Backend) (n : Nat) :
    ((app b).flushSaves (n + 1) { db with dirty := rebuildMarks (rebuildModels decls none none) db }).count ⟨51, .int 2⟩ = 1 := by
  rw [(C25_once (A := app b) (project b) (calm b) (fun l => .refl l) deps_nil (unique b) rfl).2 n]
  exact if_pos ⟨shout.denorm, by decide, ⟨.inl rfl, .inl rfl⟩, nrow 2 "b" "" "", by simp [Callback.denorm, Denorm.model, shout, note, db], by decide⟩
example (b : Backend) : ∃ db', (app b).rebuildall decls (some "app.Note") (some "whisper") 1 db = .ok (some db') ∧
    (db'.rows "note").map (fun r => (r "shout", r "whisper")) = [(.text "a", .text "a"), (.text "b", .text "b")] :=
  flush_of (by cases b <;> decide +kernel)
/-- An unknown name selects nothing. -/
example (b : Backend) : (app b).rebuildall decls (some "Nope") none 1 db = .ok (some db) := by
  cases b <;> rfl

end Notes

namespace Chain
set_option maxRecDepth 100000

/-- Everything wrong, nothing marked. -/
def wrongDb : Db :=
  ⟨fun t => if t = "blog" then [blrow 1 "Z"] else if t = "entry" then [erow 1 1 "?"] else if t = "comment" then [crow 1 1 "!"] else [], [], 0⟩

theorem acyclic (b : Backend) (db : Db) : Acyclic (app b) decls db := by
  have h : ∀ p q, DependsOn (app b) decls db p q → rank p.1 p.2 < rank q.1 q.2 := by
    intro p q h
    induction h with
    | direct h1 h2 h3 h4 h5 => exact (layered b _ db).up _ h1 _ h2 _ h3 _ h4 h5
    | trans _ _ h1 h2 => exact Nat.lt_trans h1 h2
  intro p hpp
  exact Nat.lt_irrefl _ (h p p hpp)

/-- C24 applies: rebuildall("Comment") returns and the paths are right. -/
example (b : Backend) : ∃ n db', (app b).rebuildall decls (some "Comment") none n wrongDb = .ok (some db') ∧ db'.dirty = [] ∧
    ∀ r ∈ db'.rows "comment", r "path" = path.value db' r :=
  C24_rebuild_returns_partial (A := app b) (om := commentOrm) (cb := path) (project b _) (calm b _) (fun l => .refl l) (acyclic b _)
    (fun m hm => by simp [wrongDb] at hm) (flushable_path b _ _) (by unfold KeysUnique; cases b <;> decide)
    (by unfold KeysOk; decide) (dn := path.denorm) (by simp [decls]) ⟨.inr (.inr (.inl rfl)), .inl rfl⟩ rfl

end Chain

/-! ## Aggregates are not recomputed -/

namespace Team
set_option maxRecDepth 100000

/-- The total is wrong (it should be 10), nothing is marked. -/
def wrongDb : Db := ⟨fun t => if t = "team" then [trow 1 7] else if t = "player" then [prow 1 1 5 10 7] else [], [], 0⟩

end Team

/-- **C24 is violated** for CountField and SumField on every backend: rebuildall() of everything returns, and the total still is what
it was. -/
theorem C24_violated_aggregate (b : Backend) : ∃ (A : App) (D : List Denorm) (a : AggDenorm) (db db' : Db),
    A.engine.backend = b ∧ Installed A.engine D ∧ NoReentry A.engine ∧ KeysSafe A ∧ KeysUnique A db ∧ AggDeclared b D a ∧
    A.rebuildall D none none 1 db = .ok (some db') ∧ ¬ AggOk a db' := by
  have h : ∃ db', (Team.app b).rebuildall Team.decls none none 1 Team.wrongDb = .ok (some db') ∧
      ¬ ∀ r ∈ db'.rows "team", r "total" = .int (Team.total.total db' (r "id")) := flush_of (by cases b <;> decide +kernel)
  obtain ⟨db', h1, h2⟩ := h
  refine ⟨Team.app b, Team.decls, Team.total, Team.wrongDb, db', rfl, rfl, Team.noReentry b, Team.keysSafe b,
    by unfold KeysUnique; cases b <;> decide, ?_, h1, h2⟩
  exact
    { declared := by simp [Team.decls]
      covered := fun _ hg => covered_of_agree (Team.agree b) (List.mem_flatMap.2 ⟨.aggregate Team.total, by simp [Team.decls], hg⟩)
      only := by
        intro dn hdn h
        simp only [Team.decls, List.mem_cons, List.not_mem_nil, or_false] at hdn
        rcases hdn with rfl | rfl | rfl
        · rfl
        · exact absurd h (by decide)
        · exact absurd h (by decide)
      pk := by decide
      fk := by decide
      watched := by decide
      fkcol := by decide
      conds := by decide }

end Denorm
