import Verif.Props.Crashes
/-!
# delete(), foreign keys of the database and upserts in whole projects (C93, C91, C90)
-/
namespace Denorm
section
variable {A : App} {D : List Denorm} {cbs : List Callback} {S : List (TableName × Col)} {db db' : Db} {rank : Nat → Nat} {L : Nat} {P : Collector} {n : Nat} {t : TableName} {keys : List Val}

/-- C93 for projects as in C85, with fields of all kinds: delete() of instances or of a queryset succeeds, and what refers to the objects goes with them or is cleared. Then every aggregate is
right at once, every `@denormalized` field is right or its instance marked (`InOrder`), and the next flush() returns, after `L + 1` passes at most, and everything is right. -/
theorem C93_project_partial (hP : RankedProject A.engine.backend A.models D cbs S rank L) (hE : Installed A.engine D) (hp : ∀ l, (A.arrange l).Perm l) (hI : InOrder A D cbs S db)
    (hS : P.Suits A D cbs S) (h : A.engine.deleteObjects P n t keys db = .ok db') :
    InOrder A D cbs S db' ∧ ∃ e N, (∀ m, N ≤ m → (A.limit m).flush (L + 1) db' = .ok (some e)) ∧ AllRight D cbs e :=
  C20_history_partial hP hE hp hI (.delete .start hS h)

/-- C93 for projects as in C85, with nothing asked of the outcome: delete() comes to an end (for every limit on recursion that is high enough). Either it raises ProtectedError, and changes
nothing; or it succeeds, and the next flush() returns and everything is right. -/
theorem C93_project_ends_partial (hP : RankedProject A.engine.backend A.models D cbs S rank L) (hE : Installed A.engine D) (hp : ∀ l, (A.arrange l).Perm l) (hI : InOrder A D cbs S db)
    (hS : P.Suits A D cbs S) (t : TableName) (keys : List Val) : ∃ N,
      (∀ m, N ≤ m → A.engine.deleteObjects P m t keys db = .error (.collect .protectedError)) ∨
      ∃ d e, (∀ m, N ≤ m → A.engine.deleteObjects P m t keys db = .ok d ∧ (A.limit m).flush (L + 1) d = .ok (some e)) ∧ AllRight D cbs e := by
  obtain ⟨N, ⟨d, h⟩ | h⟩ := C93_finishes (P := P) (fun s db => hP.finishes hE s db) t keys db
  · obtain ⟨_, e, M, h1, h2⟩ := C93_project_partial hP hE hp hI hS (h N (Nat.le_refl _))
    exact ⟨max N M, .inr ⟨d, e, fun m hm => ⟨h m (by omega), h1 m (by omega)⟩, h2⟩⟩
  · exact ⟨N, .inl h⟩

/-- C91 for projects as in C85, with fields of all kinds, on sqlite and PostgreSQL: rows are deleted by SQL, and the foreign keys of the database delete or clear what refers to them, over any
number of levels. Then every aggregate is right at once, every `@denormalized` field is right or its instance marked, and the next flush() returns, after `L + 1` passes at most, and everything
is right. -/
theorem C91_project_partial (hP : RankedProject A.engine.backend A.models D cbs S rank L) (hE : Installed A.engine D) (hp : ∀ l, (A.arrange l).Perm l) (hI : InOrder A D cbs S db)
    (hb : A.engine.backend ≠ .mysql) {fs : List ForeignRef} (hS : RefsSuit A D cbs S fs) {w : Row → Bool}
    (hL : ∀ cb ∈ cbs, ∀ dp ∈ cb.deps, dp.dep.other.table = t → dp.dep.m2mTable = none)
    (h : A.engine.execRefs fs n (.delete t w) db = .ok db') :
    InOrder A D cbs S db' ∧ ∃ e N, (∀ m, N ≤ m → (A.limit m).flush (L + 1) db' = .ok (some e)) ∧ AllRight D cbs e :=
  C20_history_partial hP hE hp hI (.cascade .start hb hS hL h)

/-- C90 for projects as in C85, with fields of all kinds: after an upsert (on MySQL also a REPLACE) that respects unique keys every aggregate is right at once, every `@denormalized` field is right
or its instance marked, and the next flush() returns, after `L + 1` passes at most, and everything is right. -/
theorem C90_project_partial (hP : RankedProject A.engine.backend A.models D cbs S rank L) (hE : Installed A.engine D) (hp : ∀ l, (A.arrange l).Perm l) (hI : InOrder A D cbs S db)
    {w : DbWrite} (hS : WriteSuits A D cbs S w db) (h : A.engine.write n db w = .ok db') (hu : KeysUnique A db') :
    InOrder A D cbs S db' ∧ ∃ e N, (∀ m, N ≤ m → (A.limit m).flush (L + 1) db' = .ok (some e)) ∧ AllRight D cbs e :=
  C20_history_partial hP hE hp hI (.write .start hS h hu)

end

namespace Cart
set_option maxRecDepth 100000

/-- Items go with their product and with their cart. -/
def collector : Collector where
  pk _ := "id"
  refs := [⟨"item", "product_id", "product", .cascade, none⟩, ⟨"item", "cart_id", "cart", .cascade, none⟩]

theorem managed_cols (b : Backend) {t : TableName} {c : Col} (h : Managed (app b).engine t c) : c = "total" ∨ c = "number" ∨ c = "key" := by
  obtain ⟨dn, hdn, hw⟩ := managed_writes (installed b) h
  revert hw
  simp only [decls, List.mem_cons, List.not_mem_nil, or_false] at hdn
  rcases hdn with rfl | rfl | rfl | rfl | rfl <;> simp [Denorm.writes, Callback.denorm, total, number] <;> simp_all

theorem suits (b : Backend) : collector.Suits (app b) decls [amount] S where
  order := fun _ _ h => h
  models := fun _ _ => by
    simp only [app, List.mem_cons, List.not_mem_nil, or_false] at *
    rename_i h
    rcases h with rfl | rfl | rfl <;> rfl
  pks := by decide
  keys := fun t h => by rcases managed_cols b h with h | h | h <;> simp [collector] at h
  cols := by
    intro f hf
    simp only [collector, List.mem_cons, List.not_mem_nil, or_false] at hf
    rcases hf with rfl | rfl <;> exact ⟨fun h => by rcases managed_cols b h with h | h | h <;> simp at h, fun _ h => by cases h⟩
  through := by simp [amount, priceDep, Dep.m2mTable]
  nulls := by decide
  sorted := by
    intro cb hcb
    rw [List.mem_singleton.1 hcb]
    intro d hd tbl c k hm
    rw [List.mem_singleton.1 hd] at hm
    cases hm
  links := by
    intro cb hcb
    rw [List.mem_singleton.1 hcb]
    decide
  spares := by
    intro a _ f hf hn
    simp only [collector, List.mem_cons, List.not_mem_nil, or_false] at hf
    rcases hf with rfl | rfl <;> cases hn
  ints := by decide

/-- `Product.objects.filter(id=1).delete()`, before the first flush(): the first item is gone, and the total is the stored amount of the other; flush() completes the work. -/
example (b : Backend) : ∃ d, (app b).engine.deleteObjects collector 100 "product" [.int 1] ((app b).calls program emptyDb) = .ok d ∧
    (d.rows "item").map (fun r => (r "id", r "amount")) = [(.int 2, .int 10)] ∧ (d.rows "cart").map (fun r => (r "total", r "number")) = [(.int 10, .int 1)] ∧
    ∃ e N, (∀ m, N ≤ m → ((app b).limit m).flush 4 d = .ok (some e)) ∧ AllRight decls [amount] e := by
  have h : (match (app b).engine.deleteObjects collector 100 "product" [.int 1] ((app b).calls program emptyDb) with
      | .ok d => decide (((d.rows "item").map (fun r => (r "id", r "amount")) = [(.int 2, .int 10)] ∧ (d.rows "cart").map (fun r => (r "total", r "number")) = [(.int 10, .int 1)]))
      | .error _ => false) = true := by cases b <;> decide +kernel
  cases hd : (app b).engine.deleteObjects collector 100 "product" [.int 1] ((app b).calls program emptyDb) with
  | error e => rw [hd] at h; cases h
  | ok d =>
    rw [hd] at h
    obtain ⟨h1, h2⟩ := of_decide_eq_true h
    exact ⟨d, rfl, h1, h2, (C93_project_partial (A := app b) (works b) (installed b) (fun l => List.Perm.refl l)
      ((works b).inOrder_calls (A := app b) (installed b) (inOrder_empty b) (cart_legal b)) (suits b) hd).2⟩

/-- `C93_project_ends_partial` applies, whatever is deleted. -/
example (b : Backend) (t : TableName) (keys : List Val) : ∃ N,
    (∀ m, N ≤ m → (app b).engine.deleteObjects collector m t keys ((app b).calls program emptyDb) = .error (.collect .protectedError)) ∨
    ∃ d e, (∀ m, N ≤ m → (app b).engine.deleteObjects collector m t keys ((app b).calls program emptyDb) = .ok d ∧ ((app b).limit m).flush 4 d = .ok (some e)) ∧ AllRight decls [amount] e :=
  C93_project_ends_partial (A := app b) (works b) (installed b) (fun l => List.Perm.refl l)
    ((works b).inOrder_calls (A := app b) (installed b) (inOrder_empty b) (cart_legal b)) (suits b) t keys

/-- The same foreign keys, in the database. -/
def refs : List ForeignRef := [⟨"item", "product_id", "product", "id", .cascade⟩, ⟨"item", "cart_id", "cart", "id", .cascade⟩]

/-- `DELETE FROM product WHERE id = 1`: as above. -/
example (b : Backend) (hb : b ≠ .mysql) : ∃ d, (app b).engine.execRefs refs 100 (.delete "product" fun r => decide (r "id" = .int 1)) ((app b).calls program emptyDb) = .ok d ∧
    (d.rows "item").map (fun r => (r "id", r "amount")) = [(.int 2, .int 10)] ∧ (d.rows "cart").map (fun r => (r "total", r "number")) = [(.int 10, .int 1)] ∧
    ∃ e N, (∀ m, N ≤ m → ((app b).limit m).flush 4 d = .ok (some e)) ∧ AllRight decls [amount] e := by
  have h : (match (app b).engine.execRefs refs 100 (.delete "product" fun r => decide (r "id" = .int 1)) ((app b).calls program emptyDb) with
      | .ok d => decide (((d.rows "item").map (fun r => (r "id", r "amount")) = [(.int 2, .int 10)] ∧ (d.rows "cart").map (fun r => (r "total", r "number")) = [(.int 10, .int 1)]))
      | .error _ => false) = true := by
    cases b with
    | mysql => exact absurd rfl hb
    | sqlite => decide +kernel
    | postgresql => decide +kernel
  cases hd : (app b).engine.execRefs refs 100 (.delete "product" fun r => decide (r "id" = .int 1)) ((app b).calls program emptyDb) with
  | error e => rw [hd] at h; cases h
  | ok d =>
    rw [hd] at h
    obtain ⟨h1, h2⟩ := of_decide_eq_true h
    have hn : ∀ d ∈ amount.deps, d.dep.m2mTable = none := by decide
    refine ⟨d, rfl, h1, h2, (C91_project_partial (A := app b) (works b) (installed b) (fun l => List.Perm.refl l)
      ((works b).inOrder_calls (A := app b) (installed b) (inOrder_empty b) (cart_legal b)) hb ⟨?_, ?_, ?_⟩ ?_ hd).2⟩
    · intro om _ f hf ha
      simp only [refs, List.mem_cons, List.not_mem_nil, or_false] at hf
      rcases hf with rfl | rfl <;> cases ha
    · intro cb hcb f hf
      rw [List.mem_singleton.1 hcb]
      simp only [refs, List.mem_cons, List.not_mem_nil, or_false] at hf
      rcases hf with rfl | rfl <;> exact fun d hd _ => hn d hd
    · intro a _ f hf ha
      simp only [refs, List.mem_cons, List.not_mem_nil, or_false] at hf
      rcases hf with rfl | rfl <;> cases ha
    · intro cb hcb
      rw [List.mem_singleton.1 hcb]
      exact fun d hd _ => hn d hd

/-- `INSERT INTO product VALUES (2, 50), (3, 7) ON CONFLICT (id) DO UPDATE SET price = excluded.price` -/
def prices : DbWrite := .upsert "product" [["id"]] (.doUpdate fun r x => x.set "price" (r "price")) [Demo.row [("id", .int 2), ("price", .int 50)], Demo.row [("id", .int 3), ("price", .int 7)]]

theorem prices_rows {us : List (List Col)} {oc : OnConflict} {rs cur : List Row} {r : Row} (h : r ∈ insertedRows (upsertOps us oc rs cur)) : r ∈ rs := by
  rcases mem_upsertOps (mem_insertedRows.1 h) with ⟨r', hr', e⟩ | ⟨σ, _, r', _, i, e⟩
  · cases e; exact hr'
  · cases e

theorem writeSuits (b : Backend) (db : Db) : WriteSuits (app b) decls [amount] S prices db where
  fields := by
    intro cb hcb
    rw [List.mem_singleton.1 hcb]
    have hn : ∀ d ∈ amount.deps, d.dep.m2mTable = none := by decide
    have h2 : ∀ p ∈ amount.pks, p.2 = "id" := by decide
    refine ⟨⟨fun r hr => ⟨fun p hp _ => ?_, fun d hd _ tbl c k hm => by rw [hn d hd] at hm; cases hm⟩, fun σ hσ r _ p hp _ x y => ?_⟩, fun t us rs e => by cases e⟩
    · have hr := prices_rows hr
      rw [h2 p hp]
      simp only [List.mem_cons, List.not_mem_nil, or_false] at hr
      rcases hr with rfl | rfl <;> decide
    · cases hσ
      rw [h2 p hp]
      rfl
  counts := by
    intro a ha _
    have ht : "product" ≠ a.model.table := by rcases mem_aggregates.1 ha with rfl | rfl <;> decide
    exact ⟨fun e => absurd e ht, fun σ _ r _ e => absurd e ht⟩
  sums := by
    intro a ha f _
    have ht : "product" ≠ a.model.table := by rcases mem_aggregates.1 ha with rfl | rfl <;> decide
    have hi : ∀ r, IntRow S "product" r := fun r c hc => by simp [S] at hc
    exact ⟨⟨fun r _ => hi r, fun e => absurd e ht⟩, fun σ _ r _ => ⟨fun _ y _ => hi _, fun e => absurd e ht⟩⟩
  simple := by
    intro a ha e
    exact absurd e (by rcases mem_aggregates.1 ha with rfl | rfl <;> decide)
  loud := fun t us rs e => by cases e

/-- The second product gets another price, and there is a third one; the item is marked, and flush() completes the work. -/
example (b : Backend) : ∃ d, (app b).engine.write 100 ((app b).calls program emptyDb) prices = .ok d ∧
    (d.rows "product").map (fun r => (r "id", r "price")) = [(.int 1, .int 3), (.int 2, .int 50), (.int 3, .int 7)] ∧
    ∃ e N, (∀ m, N ≤ m → ((app b).limit m).flush 4 d = .ok (some e)) ∧ AllRight decls [amount] e := by
  have h : (match (app b).engine.write 100 ((app b).calls program emptyDb) prices with
      | .ok d => decide ((d.rows "product").map (fun r => (r "id", r "price")) = [(.int 1, .int 3), (.int 2, .int 50), (.int 3, .int 7)] ∧
          ∀ om ∈ (app b).models, ((d.rows om.model.table).map fun r => r om.model.pk).Nodup ∧ ∀ r ∈ d.rows om.model.table, r om.model.pk ≠ .null)
      | .error _ => false) = true := by cases b <;> decide +kernel
  cases hd : (app b).engine.write 100 ((app b).calls program emptyDb) prices with
  | error e => rw [hd] at h; cases h
  | ok d =>
    rw [hd] at h
    obtain ⟨h1, h2⟩ := of_decide_eq_true h
    exact ⟨d, rfl, h1, (C90_project_partial (A := app b) (works b) (installed b) (fun l => List.Perm.refl l)
      ((works b).inOrder_calls (A := app b) (installed b) (inOrder_empty b) (cart_legal b)) (writeSuits b _) hd h2).2⟩

end Cart
end Denorm
