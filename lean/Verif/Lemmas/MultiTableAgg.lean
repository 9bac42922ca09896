import Verif.Lemmas.MultiTable
import Verif.Lemmas.SumCalls
/-!
# What every save keeps is kept by flush() of multi-table children
-/
namespace Denorm

section
variable {A : App} {parent : OrmModel → Option OrmModel} {newer : Bool} {I : Db → Prop}

/-- Saving an instance as it was read, from a database with the property `I`, keeps `I`. -/
def KeptBySaves (A : App) (I : Db → Prop) : Prop :=
  ∀ om ∈ A.models, ∀ db0 db mem x, KeysUnique A db → I db → I db0 → mem ∈ db0.rows om.model.table → mem om.model.pk ≠ .null → A.save om mem db = .ok x → I x.1

theorem kept_saveObjectTables (hS : KeysSafe A) (hC : Children A parent) (hI : KeptBySaves A I) {db db' : Db} (hu : KeysUnique A db) (hi : I db) {m : Mark}
    (h : A.saveObjectTables newer parent m db = .ok db') : I db' ∧ KeysUnique A db' := by
  simp only [App.saveObjectTables, App.contentObject] at h
  cases hfind : A.models.find? (fun om => om.model.ct == m.ct) with
  | none => rw [hfind] at h; simp at h
  | some om =>
    rw [hfind] at h
    simp only at h
    have hom : om ∈ A.models := List.mem_of_find?_eq_some hfind
    cases hrow : (db.rows om.model.table).find? (isRowOf om.model m.oid) with
    | none =>
      rw [hrow] at h
      simp only [Except.ok.injEq] at h
      exact h ▸ ⟨hi, hu⟩
    | some r =>
      rw [hrow] at h
      simp only at h
      have hr : r ∈ db.rows om.model.table := List.mem_of_find?_eq_some hrow
      have hn : r om.model.pk ≠ .null := (hu om hom).2 r hr
      cases hpar : parent om with
      | none =>
        rw [hpar] at h
        simp only at h
        cases hs : A.save om r db with
        | error e => rw [hs] at h; simp at h
        | ok p =>
          rw [hs] at h
          simp only [Except.ok.injEq] at h
          subst h
          obtain ⟨_, _, hsv⟩ := saved_of_save hu hom (hS.kept om hom om hom rfl) hrow hs
          exact ⟨hI om hom db db r p hu hi hi hr hn hs, keysUnique_saved hS hom hu hsv⟩
      | some p =>
        rw [hpar] at h
        simp only at h
        cases hpr : (db.rows p.model.table).find? (isRowOf p.model (r om.model.pk)) with
        | none =>
          rw [hpr] at h
          simp only [Except.ok.injEq] at h
          exact h ▸ ⟨hi, hu⟩
        | some pr =>
          rw [hpr] at h
          simp only at h
          cases hs : A.saveChild newer false p om pr r .null db with
          | error e => rw [hs] at h; simp at h
          | ok x =>
            rw [hs] at h
            simp only [Except.ok.injEq] at h
            subst h
            have hpm := (hC om hom p hpar).1
            obtain ⟨_, _, _, _, hS1, _, _, hS2, _⟩ := saved_child hu hS hC hom hpar hpr hrow hs
            have hu2 := keysUnique_saved hS hom (keysUnique_saved hS hpm hu hS1) hS2
            obtain ⟨db', pm', cm'⟩ := x
            have hprm : pr ∈ db.rows p.model.table := List.mem_of_find?_eq_some hpr
            have hpn : pr p.model.pk ≠ .null := (hu p hpm).2 pr hprm
            obtain ⟨db1, h1, h2⟩ := saveChild_existing (hS.kept p hpm p hpm rfl) (find_again hpr).2 ⟨pr, hprm, rfl, hpn⟩ hs
            obtain ⟨_, _, hsv⟩ := saved_of_save hu hpm (hS.kept p hpm p hpm rfl) hpr h1
            have hu1 := keysUnique_saved hS hpm hu hsv
            have hi1 := hI p hpm db db pr _ hu hi hi hprm hpn h1
            exact ⟨hI om hom db db1 r _ hu1 hi1 hi hr hn h2, hu2⟩

theorem kept_flushListTables (hS : KeysSafe A) (hC : Children A parent) (hI : KeptBySaves A I) (hd : ∀ db m, I db → I (Db.dropMarks db m)) :
    ∀ (ms : List Mark) {db db' : Db}, KeysUnique A db → I db → A.flushListTables newer parent ms db = .ok db' → I db' ∧ KeysUnique A db'
  | [], db, db', hu, hi, h => by
    simp only [App.flushListTables, Except.ok.injEq] at h
    exact h ▸ ⟨hi, hu⟩
  | m :: ms, db, db', hu, hi, h => by
    simp only [App.flushListTables] at h
    cases hs : A.saveObjectTables newer parent m db with
    | error e => rw [hs] at h; simp at h
    | ok db1 =>
      rw [hs] at h
      obtain ⟨h1, h2⟩ := kept_saveObjectTables hS hC hI hu hi hs
      exact kept_flushListTables hS hC hI hd ms (db := db1.dropMarks m) h2 (hd _ m h1) h

theorem kept_flushTables (hS : KeysSafe A) (hC : Children A parent) (hI : KeptBySaves A I) (hd : ∀ db m, I db → I (Db.dropMarks db m)) :
    ∀ (n : Nat) {db db' : Db}, KeysUnique A db → I db → A.flushTables newer parent n db = .ok (some db') → I db'
  | n, db, db', hu, hi, h => by
    unfold App.flushTables at h
    by_cases hd' : db.dirty = []
    · rw [if_pos hd'] at h
      simp only [Except.ok.injEq, Option.some.injEq] at h
      exact h ▸ hi
    · rw [if_neg hd'] at h
      cases n with
      | zero => simp at h
      | succ n =>
        simp only at h
        cases hs : A.flushListTables newer parent (A.snapshot db) db with
        | error e => rw [hs] at h; simp at h
        | ok db1 =>
          rw [hs] at h
          obtain ⟨h1, h2⟩ := kept_flushListTables hS hC hI hd _ hu hi hs
          exact kept_flushTables hS hC hI hd n h2 h1 h

end
end Denorm
