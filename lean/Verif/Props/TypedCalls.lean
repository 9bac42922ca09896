import Verif.Lemmas.TypedCalls
import Verif.Props.Typed
import Verif.Props.Held
/-!
# Columns that change what they store: programs that save instances (C88)
-/
namespace Denorm

section
variable {τ : ColumnTypes} {A : App} {D : List Denorm} {cbs : List Callback} {S : List (TableName × Col)} {layer : TableName → Col → Nat} {L : Nat} {db db' : Db} {cb : Callback} {om : OrmModel}

/-- What a call keeps in order, apart from keys being unique. -/
structure TypedInv (τ : ColumnTypes) (A : App) (D : List Denorm) (cbs : List Callback) (S : List (TableName × Col)) (db : Db) : Prop where
  stored : db.Stored τ
  known : MarksKnown A db
  keys : ∀ cb ∈ cbs, KeysOk cb db
  marked : ∀ cb ∈ cbs, ∀ r ∈ db.rows cb.model.table, r cb.field = cb.stored τ db r ∨ Marked cb.model db r
  counts : ∀ a, .aggregate a ∈ D → a.agg = .count → AggOk a db
  sums : ∀ a, .aggregate a ∈ D → ∀ f, a.agg = .sum f → AggOk a db ∧ ∀ t, ∀ r ∈ db.rows t, IntRow S t r

theorem typedInv_call (hP : LayeredProject A.engine.backend A.models D cbs S layer L) (hE : Installed A.engine D) (hτ : τ.Fit D cbs S) (hI : TypedInv τ A D cbs S db) {c : OrmCall}
    (hF : c.Fits τ) (hL : ∀ cb ∈ cbs, LegalCall A cb db (c.stored τ)) (hC : ∀ a, .aggregate a ∈ D → a.agg = .count → CountCall A a db (c.stored τ))
    (hS : ∀ a, .aggregate a ∈ D → ∀ f, a.agg = .sum f → SumCall A a S db (c.stored τ)) (h : A.callTyped τ db c = .ok db') : TypedInv τ A D cbs S db' := by
  have hN := noReentry_of_tables hE hP.thisAll hP.acyclic hP.clear
  have hm : ∀ t c, Managed A.engine t c → ∀ v, τ t c v = v := fun t c h v => by
    obtain ⟨a, ha, rfl, rfl⟩ := hP.managed hE h
    exact hτ.aggregates a ha v
  have hP' : LayeredProject (A.rounded τ).engine.backend (A.rounded τ).models D (cbs.map (Callback.rounded τ)) S layer L := hP.rounded hτ
  obtain ⟨hst, c', hc', l1, l2, l3⟩ := callTyped_plain (S := S) hτ.twice hm hτ.numbers hI.stored hF h
  have hmk : ∀ cb ∈ cbs, KeysOk cb db' ∧ ∀ r ∈ db'.rows cb.model.table, r cb.field = cb.stored τ db' r ∨ Marked cb.model db' r := fun cb hcb => by
    have hcb' : cb.rounded τ ∈ cbs.map (Callback.rounded τ) := List.mem_map.2 ⟨cb, hcb, rfl⟩
    obtain ⟨om, hF⟩ := hP.flushable hE hcb db
    have hmem : ∀ om ∈ A.asPlain.models, ∃ om' ∈ A.models, om.model = om'.model ∧ om.cols = om'.cols := by
      intro om hom
      rcases List.mem_append.1 hom with h | h
      · exact ⟨om, h, rfl, rfl⟩
      · obtain ⟨om', h', rfl⟩ := List.mem_map.1 h
        exact ⟨om', h', rfl, asPlain_cols⟩
    rcases call_legal (A := A.asPlain) (cb := cb) (fun om hom => by obtain ⟨om', h, h1, h2⟩ := hmem om hom; rw [h1, h2]; exact (hP.proper om' h).pk)
      (fun om hom => by obtain ⟨om', h, h1, h2⟩ := hmem om hom; rw [h1, h2]; exact hF.pks om' h) (l1 cb (hL cb hcb)) (by rw [App.asPlain, call_models]; exact hc') with rfl | ⟨s, hs, he⟩
    · exact ⟨hI.keys cb hcb, hI.marked cb hcb⟩
    · have hg : ∀ r ∈ db.rows (cb.rounded τ).model.table, Marked (cb.rounded τ).model db r ∨ r (cb.rounded τ).field = (cb.rounded τ).value db r := fun r hr => (hI.marked cb hcb r hr).symm
      obtain ⟨hK', hg'⟩ := track_exec (cb := cb.rounded τ) (tracks_of_installed hE (hP'.wellDeclared hcb')) hN (freshTracked (cb.rounded τ)) he hs (hI.keys cb hcb) hg
      exact ⟨hK', fun r hr => (hg' r hr).symm⟩
  exact ⟨hst, hP.known_call hE hc' hI.known, fun cb hcb => (hmk cb hcb).1, fun cb hcb => (hmk cb hcb).2, fun a ha hc =>
    count_call hE (hP.counts a ha).1 hN hc (l2 a (hC a ha hc)) hc' (hI.counts a ha hc), fun a ha f hf =>
    sum_call hE (hP.counts a ha).1 hN hP.closed (hP.sums a ha f hf).1 (l3 a (hS a ha f hf)) hc' (hI.sums a ha f hf).2 (hI.sums a ha f hf).1⟩

theorem typedInv_calls (hP : LayeredProject A.engine.backend A.models D cbs S layer L) (hE : Installed A.engine D) (hτ : τ.Fit D cbs S) : ∀ (cs : List OrmCall) (db : Db),
    LegalTypedCalls τ A D cbs S cs db → TypedInv τ A D cbs S db → TypedInv τ A D cbs S (A.callsTyped τ cs db)
  | [], _, _, hI => hI
  | c :: cs, db, hL, hI => by
    obtain ⟨h1, h2, h3, h4, h5⟩ := hL
    simp only [App.callsTyped]
    cases h : A.callTyped τ db c with
    | error e =>
      rw [h] at h5
      exact typedInv_calls hP hE hτ cs db h5 hI
    | ok db' =>
      rw [h] at h5
      exact typedInv_calls hP hE hτ cs db' h5 (typedInv_call hP hE hτ hI h1 h2 h3 h4 h)

/-- C88, programs that save instances: in a project as in C74, whose columns round or cut what they store, a program calls save(), create(), bulk_create(), update() .. with instances whose attributes are not
rounded; afterwards the database is in order, flush() returns, after `L + 2` passes at most and without an error, and then every `@denormalized` field is what its column makes of the callback's value for the data
as it is stored, and CountFields and SumFields are right. Missing: fields computed from a field of the same instance whose column changes values (`C88_violated_own`), and DENORM_BULK_UNSAFE_TRIGGERS
(`C88_violated_unsafe`). -/
theorem C88_calls_partial (hP : LayeredProject A.engine.backend A.models D cbs S layer L) (hE : Installed A.engine D) (hp : ∀ l, (A.arrange l).Perm l) (hτ : τ.Fit D cbs S)
    (hI : StoredInOrder τ A D cbs S db) {cs : List OrmCall} (hL : LegalTypedProgram τ A D cbs S cs db) :
    StoredInOrder τ A D cbs S (A.callsTyped τ cs db) ∧
    ∃ db' N, (∀ n, N ≤ n → (A.limit n).flushTyped τ (L + 2) (A.callsTyped τ cs db) = .ok (some db')) ∧ StoredRight τ D cbs db' ∧ StoredInOrder τ A D cbs S db' := by
  have hV := typedInv_calls hP hE hτ cs db hL.legal ⟨hI.stored, hI.known, hI.keys, hI.marked, hI.counts, hI.sums⟩
  have hO : StoredInOrder τ A D cbs S (A.callsTyped τ cs db) := ⟨hV.stored, hL.unique, hV.known, hV.keys, hV.marked, hV.counts, hV.sums⟩
  exact ⟨hO, C88_program_partial (ss := []) hP hE hp hτ hO ⟨fun _ _ => trivial, fun _ _ _ => trivial, fun _ _ _ _ => trivial, hL.unique⟩⟩

/-- **C88 is violated** with DENORM_BULK_UNSAFE_TRIGGERS, in every project in which the model's table has no trigger (no other declaration depends on it): save() computes the value from the attributes as
the program assigned them, and stores it beside the attributes as their columns make them; nothing is marked, and flush() does nothing. If the callback returns something else for the stored attributes, the value
stays wrong. -/
theorem C88_violated_unsafe (hno : ∀ tr ∈ A.engine.triggers, tr.table ≠ cb.model.table) (hC : Computes om cb) (hT : ∀ d ∈ cb.deps, d.dep.this = cb.model) (hW : ∀ d ∈ cb.deps, d.Watched)
    (h2 : ∀ t c v, τ t c (τ t c v) = τ t c v) (hm : ∀ t c, Managed A.engine t c → ∀ v, τ t c v = v) (hk : ∀ v, τ om.model.table om.model.pk v = v) (hdb : db.Stored τ)
    (hd : db.dirty = []) {mem mem' : Row} (hin : InDatabase om mem db) (h : A.saveTyped τ om mem db = .ok (db', mem')) :
    (∃ r ∈ db'.rows cb.model.table, r cb.model.pk = mem cb.model.pk ∧ r cb.field = τ cb.model.table cb.field (cb.value db mem') ∧ ∀ c ∈ om.cols, r c = τ cb.model.table c (mem' c)) ∧
      db'.dirty = [] ∧ ∀ n, A.flushTyped τ n db' = .ok (some db') := by
  have hany := any_isRowOf.2 hin
  unfold App.saveTyped at h
  cases h1 : preSaveAll A om.model db false om.saved mem with
  | error e => rw [h1] at h; cases h
  | ok mem1 =>
    rw [h1] at h
    simp only at h
    rw [if_pos hany] at h
    cases he : A.execTyped τ (saveUpdate om mem1) db with
    | error e => rw [he] at h; cases h
    | ok d =>
      rw [he] at h
      simp only [Except.ok.injEq, Prod.mk.injEq] at h
      obtain ⟨rfl, rfl⟩ := h
      obtain ⟨hx, _⟩ := updateTyped_sim h2 hm hdb hk he
      have hq : Silent A.engine om.model.table (isRowOf om.model (τ.row om.model.table mem1 om.model.pk)) (fun _ r c => if c ∈ om.saved.map SaveField.col then τ.row om.model.table mem1 c else r c) db := by
        intro r _ _ x fr
        simp only [Engine.fired]
        rw [List.filter_eq_nil_iff.2]
        · rfl
        · intro tr htr hen
          simp only [Engine.enters, Bool.and_eq_true, decide_eq_true_eq] at hen
          exact hno tr htr (by rw [← hC.model]; simp_all)
      have hI := quiet_exec_ok hq (exec_ok hx)
      have hk1 : mem1 om.model.pk = mem om.model.pk := preSaveAll_other h1 _ fun f hf e => hC.pk (List.mem_map.2 ⟨f, hf, e⟩)
      have hk2 : τ.row om.model.table mem1 om.model.pk = mem om.model.pk := (hk _).trans hk1
      have hdirty : d.dirty = [] := hI.dirty.trans hd
      refine ⟨?_, hdirty, fun n => by cases n <;> simp [App.flushTyped, hdirty]⟩
      obtain ⟨r, hr, hrk, hrn⟩ := hin
      obtain ⟨i, hi⟩ := List.getElem?_of_mem hr
      have hdone := hI.done i (by simp) r hi
      rw [if_pos (show isRowOf om.model (τ.row om.model.table mem1 om.model.pk) r = true from Val.sqlEq_iff.2 ⟨hrk.trans hk2.symm, by rw [hrk]; exact hrn⟩)] at hdone
      obtain ⟨_, hrow⟩ := hdone
      have hval : mem1 cb.field = cb.value db mem1 := hC.held hT (oneWay_of hW) (A := A) (view := fun _ => db) (db := db) (by rw [preSaveAllHeld_same fun _ => rfl]; exact h1)
      have hf : cb.field ∈ om.saved.map SaveField.col := by
        obtain ⟨pre, post, hsp, _⟩ := hC.order
        rw [hsp]
        simp
      rw [← hC.model]
      refine ⟨_, List.mem_of_getElem? hrow, ?_, ?_, fun c hc => if_pos hc⟩
      · exact (if_neg hC.pk).trans hrk
      · rw [← hval]
        exact if_pos hf

end

/-! ## The hypotheses are met -/

namespace Basket
open Demo (row)
set_option maxRecDepth 100000

/-- `Item.quantity` and `Item.amount` hold tens only. -/
def itemTens : ColumnTypes := fun t c v => if t = "item" ∧ (c = "amount" ∨ c = "quantity") then tens v else v

theorem itemTens_fit : itemTens.Fit decls [amount] S where
  twice := fun t c v => by
    by_cases h : t = "item" ∧ (c = "amount" ∨ c = "quantity")
    · simp only [itemTens, if_pos h, tens_twice]
    · simp only [itemTens, if_neg h]
  aggregates := by
    intro a ha v
    simp only [decls, List.mem_cons, List.not_mem_nil, or_false] at ha
    rcases ha with h | h <;> cases h
    exact if_neg (by decide)
  numbers := fun t c _ i => by
    by_cases h : t = "item" ∧ (c = "amount" ∨ c = "quantity")
    · exact ⟨i / 10 * 10, by simp only [itemTens, if_pos h, tens]⟩
    · exact ⟨i, by simp only [itemTens, if_neg h]⟩
  own := by
    intro cb hcb cb' hcb' _ h
    rw [List.mem_singleton.1 hcb, List.mem_singleton.1 hcb'] at h
    exact absurd h (by decide)

/-- One item: 20 times 3. -/
def dozens : Db := ⟨fun t =>
  if t = "basket" then [row [("id", .int 1), ("total", .int 60)]]
  else if t = "product" then [row [("id", .int 1), ("price", .int 3)], row [("id", .int 2), ("price", .int 20)]]
  else if t = "item" then [row [("id", .int 1), ("basket_id", .int 1), ("product_id", .int 1), ("quantity", .int 20), ("amount", .int 60)]]
  else [], [], 0⟩

/-- 17 of the first item are bought, and 25 of the second product; then the second item's amount is saved again, with a quantity of 99 in memory. -/
def dozenCalls : List OrmCall :=
  [.save itemOrm (row [("id", .int 1), ("basket_id", .int 1), ("product_id", .int 1), ("quantity", .int 17)]),
    .create itemOrm (row [("basket_id", .int 1), ("product_id", .int 2), ("quantity", .int 25)]) (.int 2),
    .saveFields itemOrm ["amount"] (row [("id", .int 2), ("basket_id", .int 1), ("product_id", .int 2), ("quantity", .int 99)])]

theorem dozens_inOrder (b : Backend) : StoredInOrder itemTens (app b) decls [amount] S dozens where
  stored := by
    intro t r hr c
    by_cases h : t = "item" ∧ (c = "amount" ∨ c = "quantity")
    · obtain ⟨rfl, h⟩ := h
      rcases h with rfl | rfl <;> revert r <;> decide
    · exact if_neg h
  unique := by unfold KeysUnique; cases b <;> decide
  known := fun m hm => by cases hm
  keys := by unfold KeysOk; decide
  marked := fun cb hcb r hr => .inl (by revert r; rw [List.mem_singleton.1 hcb]; decide)
  counts := by
    intro a ha hc
    simp only [decls, List.mem_cons, List.not_mem_nil, or_false] at ha
    rcases ha with h | h <;> cases h
    cases hc
  sums := by
    intro a ha f hf
    simp only [decls, List.mem_cons, List.not_mem_nil, or_false] at ha
    rcases ha with h | h <;> cases h
    refine ⟨by unfold AggOk; decide, fun t r hr c hc => ?_⟩
    simp only [S, List.mem_cons, Prod.mk.injEq, List.not_mem_nil, or_false] at hc
    rcases hc with ⟨rfl, rfl⟩ | ⟨rfl, rfl⟩ <;> simp only [dozens] at hr <;> simp at hr <;> subst hr <;> exact ⟨_, rfl⟩

theorem item_fits : itemOrm.Fits itemTens where
  proper := ⟨by decide, by decide⟩
  pk := fun v => if_neg (by decide)
  aggregates := by
    intro f hf hk
    simp only [itemOrm, List.mem_cons, List.not_mem_nil, or_false] at hf
    rcases hf with rfl | rfl | rfl | rfl <;> cases hk

theorem dozenCalls_legal (b : Backend) : LegalTypedProgram itemTens (app b) decls [amount] S dozenCalls dozens where
  legal := by
    have noCount : ∀ (db : Db) (c : OrmCall), ∀ a, .aggregate a ∈ decls → a.agg = .count → CountCall (app b) a db c := by
      intro db c a ha hc
      simp only [decls, List.mem_cons, List.not_mem_nil, or_false] at ha
      rcases ha with h | h <;> cases h
      cases hc
    have hP : itemOrm.Proper := ⟨by decide, by decide⟩
    have hH : itemOrm.Holds total := by unfold OrmModel.Holds; decide
    have hA : ∀ mem, itemOrm.Attrs S mem := by
      intro mem f hf hk hS
      simp only [itemOrm, List.mem_cons, List.not_mem_nil, or_false] at hf
      rcases hf with rfl | rfl | rfl | rfl
      · exact absurd hS (by decide)
      · exact absurd hS (by decide)
      · exact absurd hS (by decide)
      · cases hk
    have hR : ∀ cols mem, (itemOrm.restrict cols).Attrs S mem := fun cols mem f hf => hA mem f (List.mem_filter.1 hf).1
    have onlyTotal : ∀ {P : AggDenorm → Prop}, P total → ∀ a, .aggregate a ∈ decls → ∀ f, a.agg = .sum f → P a := by
      intro P hT a ha f hf
      simp only [decls, List.mem_cons, List.not_mem_nil, or_false] at ha
      rcases ha with h | h <;> cases h
      exact hT
    have only : ∀ {P : Callback → Prop}, P amount → ∀ cb ∈ [amount], P cb := fun h cb hcb => by rw [List.mem_singleton.1 hcb]; exact h
    have hu : ∀ {x : Except TypedCallErr Db}, (match x with
        | .ok d => decide ((d.rows "item").map (fun r => r "id")).Nodup
        | .error _ => true) = true → ∀ d, x = .ok d → itemOrm.Unique d := fun {x} h d e => by rw [e] at h; exact of_decide_eq_true h
    have hm : itemOrm ∈ (app b).models := by simp [app]
    refine ⟨item_fits, only ⟨hm, fun _ => basket_newKey b _ hm (by decide)⟩, noCount _ _, onlyTotal ⟨⟨hP, hH, by decide, by decide⟩, numbers _ (by simp), hA _⟩, ?_⟩
    have l2 : ∀ db, itemOrm.Unique db → (∀ d, (app b).callTyped itemTens db (.create itemOrm (row [("basket_id", .int 1), ("product_id", .int 2), ("quantity", .int 25)]) (.int 2)) = .ok d → itemOrm.Unique d) →
        LegalTypedCalls itemTens (app b) decls [amount] S (dozenCalls.drop 1) db := fun db h h' => by
      refine ⟨item_fits, only (basket_newKey b _ hm (by decide)), noCount _ _, onlyTotal ⟨⟨hP, hH, fun h => absurd h (by decide)⟩, numbers _ (by simp), hA _⟩, ?_⟩
      split
      · rename_i d hd
        refine ⟨item_fits, only hm, noCount _ _, onlyTotal ⟨⟨hP, hH, h' d hd, by decide⟩, numbers _ (by simp), hR _ _⟩, ?_⟩
        split <;> trivial
      · refine ⟨item_fits, only hm, noCount _ _, onlyTotal ⟨⟨hP, hH, h, by decide⟩, numbers _ (by simp), hR _ _⟩, ?_⟩
        split <;> trivial
    obtain ⟨d1, e1, u1, u2⟩ : ∃ d1, (app b).callTyped itemTens dozens (.save itemOrm (row [("id", .int 1), ("basket_id", .int 1), ("product_id", .int 1), ("quantity", .int 17)])) = .ok d1 ∧
        itemOrm.Unique d1 ∧ (match (app b).callTyped itemTens d1 (.create itemOrm (row [("basket_id", .int 1), ("product_id", .int 2), ("quantity", .int 25)]) (.int 2)) with
          | .ok d => decide ((d.rows "item").map (fun r => r "id")).Nodup
          | .error _ => true) = true := by
      have : (match (app b).callTyped itemTens dozens (.save itemOrm (row [("id", .int 1), ("basket_id", .int 1), ("product_id", .int 1), ("quantity", .int 17)])) with
          | .ok d1 => decide (itemOrm.Unique d1 ∧ (match (app b).callTyped itemTens d1 (.create itemOrm (row [("basket_id", .int 1), ("product_id", .int 2), ("quantity", .int 25)]) (.int 2)) with
            | .ok d => decide ((d.rows "item").map (fun r => r "id")).Nodup
            | .error _ => true) = true)
          | .error _ => false) = true := by unfold OrmModel.Unique; cases b <;> decide +kernel
      revert this
      cases (app b).callTyped itemTens dozens (.save itemOrm (row [("id", .int 1), ("basket_id", .int 1), ("product_id", .int 1), ("quantity", .int 17)])) with
      | error e => intro h; cases h
      | ok d1 => exact fun h => ⟨d1, rfl, of_decide_eq_true h⟩
    rw [e1]
    exact l2 d1 u1 (hu u2)
  unique := by unfold KeysUnique; cases b <;> decide +kernel

/-- The hypotheses of `C88_calls_partial` are met: save() stores the tens of 17 times 3 beside a quantity of 10, and flush() repairs it; likewise the others. -/
example (b : Backend) : (((app b).callsTyped itemTens dozenCalls dozens).rows "item").map (fun r => (r "quantity", r "amount")) = [(.int 10, .int 50), (.int 20, .int 1980)] ∧
    (∃ db' N, (∀ n, N ≤ n → ((app b).limit n).flushTyped itemTens 3 ((app b).callsTyped itemTens dozenCalls dozens) = .ok (some db')) ∧ StoredRight itemTens decls [amount] db') ∧
    (match (app b).flushTyped itemTens 3 ((app b).callsTyped itemTens dozenCalls dozens) with
      | .ok (some db') => decide ((db'.rows "item").map (fun r => r "amount") = [.int 30, .int 400] ∧ (db'.rows "basket").map (fun r => r "total") = [.int 430])
      | _ => false) = true := by
  obtain ⟨_, db', N, h1, h2, _⟩ := C88_calls_partial (A := app b) (works b) rfl (fun l => List.Perm.refl l) itemTens_fit (dozens_inOrder b) (dozenCalls_legal b)
  exact ⟨by cases b <;> decide +kernel, ⟨db', N, h1, h2⟩, by cases b <;> decide +kernel⟩

end Basket

namespace Notes
open Demo (row)
set_option maxRecDepth 100000

/-- The column of `text` holds tens only. -/
def textTens : ColumnTypes := fun t c v => if t = "note" ∧ c = "text" then Basket.tens v else v
def shoutOrm : OrmModel := ⟨note, [⟨"text", .plain⟩, ⟨"shout", .callback shout⟩]⟩
/-- The project with nothing but `shout`, and `DENORM_BULK_UNSAFE_TRIGGERS`. -/
def shoutApp (b : Backend) : App := ⟨⟨b, installedTriggers b [shout.denorm true], fun _ => 0⟩, [shoutOrm], fun l => l, fun db _ _ => db.draws, 100⟩

/-- The hypotheses of `C88_violated_unsafe` are met: the text becomes 17, of which 10 is stored; the copy is 17 for good. -/
example (b : Backend) : StoredRight textTens [shout.denorm true] [shout] tensNote ∧ Installed (shoutApp b).engine [shout.denorm true] ∧
    ∃ db' mem', (shoutApp b).saveTyped textTens shoutOrm (row [("id", .int 1), ("text", .int 17)]) tensNote = .ok (db', mem') ∧
    (db'.rows "note").map (fun r => (r "text", r "shout")) = [(.int 10, .int 17)] ∧ db'.dirty = [] ∧ ∀ n, (shoutApp b).flushTyped textTens n db' = .ok (some db') := by
  refine ⟨⟨rfl, by decide, by simp [Callback.denorm]⟩, rfl, ?_⟩
  obtain ⟨db', mem', h, h1⟩ := typed_save_of (x := (shoutApp b).saveTyped textTens shoutOrm (row [("id", .int 1), ("text", .int 17)]) tensNote)
    (P := fun x => (x.rows "note").map (fun r => (r "text", r "shout")) = [(.int 10, .int 17)]) (by cases b <;> decide +kernel)
  have hno : ∀ tr ∈ (shoutApp b).engine.triggers, tr.table ≠ shout.model.table := by cases b <;> decide
  refine ⟨db', mem', h, h1, (C88_violated_unsafe (A := shoutApp b) (cb := shout) (τ := textTens) hno
    ⟨rfl, by decide, by decide, by decide, [⟨"text", .plain⟩], [], rfl, fun c hc => ⟨by revert c; decide, fun f hf => by cases hf⟩⟩ (by decide) (by decide) (fun t c v => ?_) (fun t c ⟨tr, htr, _⟩ => ?_) (fun v => if_neg (by decide)) (fun t r hr c => ?_) rfl
    (by unfold InDatabase; decide) h).2⟩
  · by_cases hc : t = "note" ∧ c = "text"
    · simp only [textTens, if_pos hc, Basket.tens_twice]
    · simp only [textTens, if_neg hc]
  · have : (shoutApp b).engine.triggers = [] := by cases b <;> decide
    rw [this] at htr
    cases htr
  · by_cases hc : t = "note" ∧ c = "text"
    · obtain ⟨rfl, rfl⟩ := hc
      revert r
      decide
    · exact if_neg hc

end Notes

end Denorm
