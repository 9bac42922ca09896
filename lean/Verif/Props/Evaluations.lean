import Verif.Lemmas.Evaluations
import Verif.Props.Rebuild
/-!
# How often callbacks are called (C25, C77)
-/
namespace Denorm

section
variable {A : App} {D : List Denorm} {om : OrmModel} {db : Db} {mem : Row} {mn fn : Option String}

/-- C77, save(): an instance that has a row. Each callback is called exactly once, in the order of declaration, whatever the outcome of
the UPDATE is. (The recorded save() is save().) -/
theorem C77_save (hP : om.Proper) {r : Row} (hr : r ∈ db.rows om.model.table) (hk : r om.model.pk = mem om.model.pk) (hn : mem om.model.pk ≠ .null) :
    (A.saveR om mem db).2 = A.save om mem db ∧
    (A.saveR om mem db).1 = om.callbackCols.map fun c => ⟨⟨om.model.ct, mem om.model.pk⟩, c⟩ :=
  ⟨saveR_snd, saveR_existing hP.pk hr (Val.sqlEq_iff.2 ⟨hk, hk ▸ hn⟩)⟩

/-- C77, a new instance whose key the database chooses. -/
theorem C77_create (hP : om.Proper) (k : Val) :
    (A.createR om mem k db).2 = A.create om mem k db ∧
    (A.createR om mem k db).1 = om.callbackCols.map fun c => ⟨⟨om.model.ct, mem om.model.pk⟩, c⟩ :=
  ⟨createR_snd, createR_fst hP.pk⟩

/-- C77, flush(), however long it is observed and however it ends: the calls are, one save after the other, each callback of the instance's model
in the order of declaration. -/
theorem C77_flush_order (hP : ∀ om ∈ A.models, om.Proper) (n : Nat) :
    (A.flushR n db).2 = A.flush n db ∧ (A.flushR n db).1 = (A.flushSaves n db).flatMap A.callsFor :=
  ⟨flushR_snd n db, flushR_fst (fun om h => (hP om h).pk) n db⟩

open Classical in
/-- C77, flush(), however long it is observed: each callback is called exactly once per save of the instance. (How often an instance is
saved: C18, C23.) -/
theorem C77_flush (hP : ∀ om ∈ A.models, om.Proper) (n : Nat) (e : Evaluation) :
    (A.flushR n db).2 = A.flush n db ∧
    (A.flushR n db).1.count e = (A.flushSaves n db).count e.instance_ *
      if ∃ om, A.models.find? (fun om => om.model.ct == e.instance_.ct) = some om ∧ e.field ∈ om.callbackCols then 1 else 0 := by
  refine ⟨flushR_snd n db, ?_⟩
  rw [flushR_fst (fun om h => (hP om h).pk), count_flatMap_calls, count_callsFor fun om h => (hP om h).cols]

/-- **C77 is violated** by every save() of an instance that was given a key and has no row yet: the callbacks are called for the UPDATE,
which matches nothing, and once more for the INSERT. (Models with a CountField or SumField: C46.) -/
theorem C77_violated_given_key (hP : om.Proper) (hno : ∀ r ∈ db.rows om.model.table, r om.model.pk ≠ mem om.model.pk)
    (hagg : ∀ f ∈ om.saved, f.kind.isAggregate = false) :
    (A.saveR om mem db).2 = A.save om mem db ∧
    (A.saveR om mem db).1 = (om.callbackCols ++ om.callbackCols).map fun c => ⟨⟨om.model.ct, mem om.model.pk⟩, c⟩ := by
  refine ⟨saveR_snd, saveR_missing hP.pk (fun r hr => ?_) hagg⟩
  cases h : Val.sqlEq (r om.model.pk) (mem om.model.pk) with
  | false => rfl
  | true => exact absurd (Val.sqlEq_iff.1 h).1 (hno r hr)

open Classical in
/-- C25, counted in calls of callbacks: without dependencies and with an empty dirty table, rebuildall() calls each callback exactly once
for every row of a model asked for, no matter how long it is observed, and no other callback. -/
theorem C25_evaluations (hP : Project A D) (hC : Calm A D) (hp : ∀ l, (A.arrange l).Perm l) (hdeps : ∀ dn ∈ D, dn.deps = [])
    (hO : ∀ om ∈ A.models, om.Proper) (hu : KeysUnique A db) (hd : db.dirty = []) (n : Nat) (e : Evaluation) :
    (A.rebuildallR D mn fn (n + 1) db).2 = A.rebuildall D mn fn (n + 1) db ∧
    (A.rebuildallR D mn fn (n + 1) db).1.count e =
      if ∃ dn ∈ D, Asked mn fn dn ∧ (∃ r ∈ db.rows dn.model.table, e.instance_ = ⟨dn.model.ct, r dn.model.pk⟩) ∧
        ∃ om ∈ A.models, om.model = dn.model ∧ e.field ∈ om.callbackCols then 1 else 0 := by
  refine ⟨flushR_snd _ _, ?_⟩
  have h1 := (C77_flush (db := db.addMarks (rebuildMarks (rebuildModels D mn fn) db)) hO (n + 1) e).2
  have h2 := (C25_once (mn := mn) (fn := fn) hP hC hp hdeps hu hd).2 n e.instance_
  have h3 : db.addMarks (rebuildMarks (rebuildModels D mn fn) db) = { db with dirty := rebuildMarks (rebuildModels D mn fn) db } := by
    simp [Db.addMarks, hd]
  unfold App.rebuildallR
  rw [h1, h3, h2]
  split
  · rename_i hx
    obtain ⟨dn, hdn, ha, r, hr, he⟩ := hx
    obtain ⟨om, hom, hm⟩ := hP.known dn hdn
    split
    · rename_i hy
      obtain ⟨om', hf, hc⟩ := hy
      have h1 : om'.model.ct = dn.model.ct := by simpa [he] using List.find?_some hf
      have : om' = om := hP.cts om' (List.mem_of_find?_eq_some hf) om hom (by rw [h1, hm])
      subst this
      rw [if_pos ⟨dn, hdn, ha, ⟨r, hr, he⟩, om', hom, hm, hc⟩]
    · rename_i hy
      rw [if_neg]
      rintro ⟨dn', _, _, ⟨r', _, he'⟩, om', hom', hm', hc⟩
      apply hy
      cases hf : A.models.find? (fun om => om.model.ct == e.instance_.ct) with
      | none =>
        have := List.find?_eq_none.1 hf om' hom'
        simp [he', hm'] at this
      | some om2 =>
        have h1 : om2.model.ct = dn'.model.ct := by simpa [he'] using List.find?_some hf
        have : om2 = om' := hP.cts om2 (List.mem_of_find?_eq_some hf) om' hom' (by rw [h1, hm'])
        exact ⟨om2, rfl, this ▸ hc⟩
  · rename_i hx
    rw [Nat.zero_mul, if_neg]
    rintro ⟨dn, hdn, ha, ⟨r, hr, he⟩, _⟩
    exact hx ⟨dn, hdn, ha, r, hr, he⟩

end

/-! ## The hypotheses are met -/

namespace Notes
set_option maxRecDepth 100000

theorem proper (b : Backend) : ∀ om ∈ (app b).models, om.Proper := by
  intro om hom
  simp only [app, List.mem_singleton] at hom
  subst hom
  exact ⟨by decide, by decide⟩

/-- Two notes with two callbacks each: rebuildall() of everything makes four calls, although the child repeats the declarations. -/
example (b : Backend) : ((app b).rebuildallR decls none none 1 db).1 =
    [⟨⟨51, .int 1⟩, "shout"⟩, ⟨⟨51, .int 1⟩, "whisper"⟩, ⟨⟨51, .int 2⟩, "shout"⟩, ⟨⟨51, .int 2⟩, "whisper"⟩] := by
  cases b <;> decide +kernel

example (b : Backend) (n : Nat) : ((app b).rebuildallR decls none none (n + 1) db).1.count ⟨⟨51, .int 2⟩, "whisper"⟩ = 1 := by
  rw [(C25_evaluations (project b) (calm b) (fun _ => List.Perm.refl _) deps_nil (proper b) (unique b) rfl n _).2, if_pos]
  exact ⟨shout.denorm, by decide, ⟨.inl rfl, .inl rfl⟩, ⟨nrow 2 "b" "" "", by simp [db, shout, note, Callback.denorm, Denorm.model], by decide⟩,
    noteOrm, by simp [app], rfl, by decide⟩

/-- One save, two calls; a note saved with the new key 3, four calls. -/
example (b : Backend) : ((app b).saveR noteOrm (nrow 1 "z" "" "") db).1.length = 2 ∧ ((app b).saveR noteOrm (nrow 3 "z" "" "") db).1.length = 4 := by
  cases b <;> decide +kernel

end Notes

end Denorm
