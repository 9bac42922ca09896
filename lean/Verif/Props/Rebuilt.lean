import Verif.Props.Rebuild
import Verif.Props.Crashes
/-!
# rebuildall() in whole projects (C24)
-/
namespace Denorm

section
variable {A : App} {D : List Denorm} {cbs : List Callback} {S : List (TableName × Col)} {rank : Nat → Nat} {L : Nat} {db : Db} {mn fn : Option String}

/-- C24 for projects as in C85: whatever wrong values the `@denormalized` fields that are asked for hold, with nothing marked — rebuildall() returns, after `L + 1` passes at most, and then
everything is right. Of the fields that are not asked for it takes that they are right or marked, and of CountFields and SumFields that they are right (see `C24_violated_aggregate`). -/
theorem C24_project_partial (hP : RankedProject A.engine.backend A.models D cbs S rank L) (hE : Installed A.engine D) (hp : ∀ l, (A.arrange l).Perm l) (hu : KeysUnique A db)
    (hm : MarksKnown A db) (hk : ∀ cb ∈ cbs, KeysOk cb db)
    (hask : ∀ cb ∈ cbs, (∃ dn ∈ D, Asked mn fn dn ∧ dn.model = cb.model) ∨ ∀ r ∈ db.rows cb.model.table, r cb.field = cb.value db r ∨ Marked cb.model db r)
    (hc : ∀ a, .aggregate a ∈ D → a.agg = .count → AggOk a db)
    (hs : ∀ a, .aggregate a ∈ D → ∀ f, a.agg = .sum f → AggOk a db ∧ ∀ t, ∀ r ∈ db.rows t, IntRow S t r) :
    ∃ e N, (∀ n, N ≤ n → (A.limit n).rebuildall D mn fn (L + 1) db = .ok (some e)) ∧ AllRight D cbs e := by
  have hI : InOrder A D cbs S (db.addMarks (rebuildMarks (rebuildModels D mn fn) db)) := by
    refine ⟨hu, fun m h => ?_, hk, fun cb hcb r hr => ?_, hc, hs⟩
    · rcases List.mem_append.1 h with h | h
      · exact hm m h
      · obtain ⟨dn, hdn, _, r, _, rfl⟩ := mem_rebuildMarks.1 h
        obtain ⟨om, hom, e⟩ := (hP.project hE).known dn hdn
        exact ⟨om, hom, by rw [e]⟩
    · rcases hask cb hcb with ⟨dn, hdn, ha, hmod⟩ | h
      · exact .inr (List.mem_append_right _ (mem_rebuildMarks.2 ⟨dn, hdn, ha, r, by rw [hmod]; exact hr, by rw [hmod]⟩))
      · exact (h r hr).imp id fun h => List.mem_append_left _ h
  obtain ⟨e, N, h1, h2, _⟩ := C85_program hP hE hp hI (cs := []) ⟨fun _ _ => trivial, fun _ _ _ => trivial, fun _ _ _ _ => trivial, hI.unique⟩
  exact ⟨e, N, h1, h2⟩

end

namespace Cart
set_option maxRecDepth 100000

/-- What was filled in before, with all markers lost: the amount of the second item is out of date and not marked. -/
def lost (b : Backend) : Db := { (app b).calls program emptyDb with dirty := [] }

example (b : Backend) : (lost b).dirty = [] ∧ (∃ r ∈ (lost b).rows "item", r "amount" ≠ amount.value (lost b) r) ∧
    ∃ e N, (∀ n, N ≤ n → ((app b).limit n).rebuildall decls none none 4 (lost b) = .ok (some e)) ∧ AllRight decls [amount] e := by
  have hI := (works b).inOrder_calls (A := app b) (installed b) (inOrder_empty b) (cart_legal b)
  refine ⟨rfl, by cases b <;> decide +kernel, C24_project_partial (A := app b) (works b) (installed b) (fun l => List.Perm.refl l) hI.unique (fun m h => by cases h) hI.keys
    (fun cb hcb => .inl ⟨cb.denorm, ?_, selected_iff.1 (by simp [Denorm.selected]), ?_⟩) hI.counts hI.sums⟩
  · rw [List.mem_singleton.1 hcb]; simp [decls]
  · rfl

end Cart
end Denorm
