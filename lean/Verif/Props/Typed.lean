import Verif.Lemmas.Typed
import Verif.Lemmas.Held
import Verif.Props.Works
/-!
# Columns that change what they store (C88)

Full statement of C88: whatever the columns make of the values that are written into them (rounding, cutting), flush() returns and afterwards every denormalized field holds what its column makes of the value
that the callback returns for the data as it is stored.
-/
namespace Denorm

section
variable {τ : ColumnTypes} {A : App} {D : List Denorm} {cbs : List Callback} {S : List (TableName × Col)} {layer : TableName → Col → Nat} {L : Nat} {db db' : Db} {b : Backend} {models : List OrmModel}

theorem LayeredProject.named (hP : LayeredProject b models D cbs S layer L) {om : OrmModel} (hom : om ∈ models) {f : SaveField} (hf : f ∈ om.saved) (hk : f.kind.computed = true) :
    ∃ cb ∈ cbs, f.kind = .callback cb ∧ cb.model = om.model ∧ cb.field = f.col := by
  obtain ⟨cb, hcb, e1, e2⟩ := hP.computed om hom f hf hk
  obtain ⟨_, om', hom', e3, pre, post, e4, _⟩ := hP.fields cb hcb
  have : om' = om := hP.tables om' hom' om hom (by rw [e3, e1])
  subst this
  have hg : (⟨cb.field, .callback cb⟩ : SaveField) ∈ om'.saved := by rw [e4]; simp
  have := col_inj (hP.proper om' hom).cols hg hf e2
  exact ⟨cb, hcb, by rw [← this], e1, e2⟩

theorem LayeredProject.rounds (hP : LayeredProject b models D cbs S layer L) (hτ : τ.Fit D cbs S) {om : OrmModel} (hom : om ∈ models) : om.Rounds τ := by
  have hn : ∀ f ∈ om.saved, ∀ cb, f.kind = .callback cb → cb ∈ cbs ∧ cb.model = om.model ∧ cb.field = f.col := fun f hf cb hk => by
    obtain ⟨cb', h1, h2, h3⟩ := hP.named hom hf (by rw [hk]; rfl)
    rw [hk] at h2
    cases h2
    exact ⟨h1, h3⟩
  refine ⟨(hP.proper om hom).pk, fun f hf hk => ?_, fun f hf cb hk => (hn f hf cb hk).2, fun f hf cb hk => hP.this cb (hn f hf cb hk).1, fun f hf cb hk d hd g => (hP.generic cb (hn f hf cb hk).1 d hd g).1,
    fun f hf cb hk => ⟨fun c hc g hg e cb' hk' v => ?_, fun d hd c hc g hg e cb' hk' v => ?_⟩⟩
  · obtain ⟨cb, _, h, _⟩ := hP.named hom hf (by rw [hk]; rfl)
    rw [hk] at h
    cases h
  · obtain ⟨h1, h2, h3⟩ := hn f hf cb hk
    obtain ⟨h4, h5, h6⟩ := hn g hg cb' hk'
    have := hτ.own cb h1 cb' h4 (by rw [h5, h2]) (by rw [h6, e]; exact hc) v
    rwa [h2, h6, e] at this
  · obtain ⟨h1, h2, h3⟩ := hn f hf cb hk
    obtain ⟨h4, h5, h6⟩ := hn g hg cb' hk'
    exact absurd ⟨cb'.denorm, (hP.fields cb' h4).1, by show cb'.model.table = _; rw [h5, h2], by show cb'.field = _; rw [h6, e]⟩ (hP.ownKeys cb h1 d hd c hc)

theorem rounded_computed (f : SaveField) : (f.rounded τ).kind.computed = f.kind.computed := by cases h : f.kind <;> simp [SaveField.rounded, Kind.computed, h]

/-- The project with callbacks that return what their columns store is a layered project, too. -/
theorem LayeredProject.rounded (hP : LayeredProject b models D cbs S layer L) (hτ : τ.Fit D cbs S) :
    LayeredProject b (models.map (OrmModel.rounded τ)) D (cbs.map (Callback.rounded τ)) S layer L := by
  have hM : ∀ {P : OrmModel → Prop}, (∀ om ∈ models, P (om.rounded τ)) → ∀ om ∈ models.map (OrmModel.rounded τ), P om := fun h om hom => by
    obtain ⟨x, hx, rfl⟩ := List.mem_map.1 hom
    exact h x hx
  have hC : ∀ {P : Callback → Prop}, (∀ cb ∈ cbs, P (cb.rounded τ)) → ∀ cb ∈ cbs.map (Callback.rounded τ), P cb := fun h cb hcb => by
    obtain ⟨x, hx, rfl⟩ := List.mem_map.1 hcb
    exact h x hx
  exact {
    cts := hM fun om hom => hM fun om' hom' e => by rw [hP.cts om hom om' hom' e]
    tables := hM fun om hom => hM fun om' hom' e => by rw [hP.tables om hom om' hom' e]
    proper := hM fun om hom => ⟨by rw [OrmModel.cols, rounded_cols]; exact (hP.proper om hom).cols, by rw [OrmModel.cols, rounded_cols]; exact (hP.proper om hom).pk⟩
    computed := hM fun om hom f hf hk => by
      obtain ⟨g, hg, rfl⟩ := List.mem_map.1 hf
      obtain ⟨cb, hcb, h⟩ := hP.computed om hom g hg (by rw [← rounded_computed (τ := τ)]; exact hk)
      exact ⟨cb.rounded τ, List.mem_map.2 ⟨cb, hcb, rfl⟩, h⟩
    keys := hM fun om hom => hP.keys om hom
    fields := hC fun cb hcb => by
      obtain ⟨h1, om, hom, h2, pre, post, h3, h4⟩ := hP.fields cb hcb
      refine ⟨h1, om.rounded τ, List.mem_map.2 ⟨om, hom, rfl⟩, h2, pre.map (SaveField.rounded τ), post.map (SaveField.rounded τ), ?_, fun f hf hk => ?_⟩
      · rw [OrmModel.rounded, h3, List.map_append, List.map_cons]
        rfl
      · obtain ⟨g, hg, rfl⟩ := List.mem_map.1 hf
        exact h4 g hg (by rw [← rounded_computed (τ := τ)]; exact hk)
    kinds := fun dn hdn => (hP.kinds dn hdn).imp (fun ⟨cb, hcb, e⟩ => ⟨cb.rounded τ, List.mem_map.2 ⟨cb, hcb, rfl⟩, e⟩) id
    counts := fun a ha => by
      obtain ⟨h1, ⟨om, hom, h2⟩, h3, h4⟩ := hP.counts a ha
      refine ⟨h1, ⟨om.rounded τ, List.mem_map.2 ⟨om, hom, rfl⟩, h2⟩, h3, hM fun om hom ht => ?_⟩
      obtain ⟨h5, f, hf, h6, h7⟩ := h4 om hom ht
      refine ⟨h5, f.rounded τ, List.mem_map.2 ⟨f, hf, rfl⟩, h6, ?_⟩
      cases hk : f.kind with
      | aggregate => simp [SaveField.rounded, hk, Kind.isAggregate]
      | _ => rw [hk] at h7; simp [Kind.isAggregate] at h7
    once := hP.once
    agree := hP.agree
    this := hC fun cb hcb => hP.this cb hcb
    watched := hC fun cb hcb => hP.watched cb hcb
    ownCols := hC fun cb hcb => hP.ownCols cb hcb
    pkTable := hC fun cb hcb => hP.pkTable cb hcb
    others := hC fun cb hcb d hd => hM fun om hom => hP.others cb hcb d hd om hom
    through := hC fun cb hcb d hd l hl => hM fun om hom => hP.through cb hcb d hd l hl om hom
    generic := hC fun cb hcb => hP.generic cb hcb
    looks := hC fun cb hcb => hP.looks cb hcb
    ownKeys := hC fun cb hcb => hP.ownKeys cb hcb
    sums := hP.sums
    numbers := hM fun om hom => by
      refine ⟨fun c hc => by rw [OrmModel.cols, rounded_cols]; exact (hP.numbers om hom).cols c hc, fun f hf cb hk hS db r => ?_⟩
      obtain ⟨g, hg, rfl⟩ := List.mem_map.1 hf
      cases hk' : g.kind with
      | callback cb' =>
        simp only [SaveField.rounded, hk', Kind.callback.injEq] at hk
        subst hk
        obtain ⟨cb2, _, h2, h3, h4⟩ := hP.named hom hg (by rw [hk']; rfl)
        rw [hk'] at h2
        cases h2
        obtain ⟨i, hi⟩ := (hP.numbers om hom).callbacks g hg cb' hk' hS db r
        rw [rounded_value, Callback.stored, hi, h3, h4]
        exact hτ.numbers _ _ hS i
      | _ => simp [SaveField.rounded, hk'] at hk
    layers := hC fun cb hcb => hP.layers cb hcb
    own := hC fun cb hcb c hc => (hP.own cb hcb c hc).imp id fun ⟨⟨cb', h1, h2⟩, h3⟩ => ⟨⟨cb'.rounded τ, List.mem_map.2 ⟨cb', h1, rfl⟩, h2⟩, h3⟩
    reads := hC fun cb hcb d hd c hc => (hP.reads cb hcb d hd c hc).imp id fun ⟨h0, ⟨cb', h1, h2⟩, h3⟩ => ⟨h0, ⟨cb'.rounded τ, List.mem_map.2 ⟨cb', h1, rfl⟩, h2⟩, h3⟩
    pks := hC fun cb hcb => hP.pks cb hcb
    fks := hP.fks
    steady := hP.steady
    acyclic := hP.acyclic
    clear := hP.clear }

theorem StoredInOrder.rounded (hI : StoredInOrder τ A D cbs S db) : InOrder (A.rounded τ) D (cbs.map (Callback.rounded τ)) S db where
  unique := fun om hom => by
    obtain ⟨x, hx, rfl⟩ := List.mem_map.1 hom
    exact hI.unique x hx
  known := fun m hm => by
    obtain ⟨om, hom, e⟩ := hI.known m hm
    exact ⟨om.rounded τ, List.mem_map.2 ⟨om, hom, rfl⟩, e⟩
  keys := fun cb hcb => by
    obtain ⟨x, hx, rfl⟩ := List.mem_map.1 hcb
    exact hI.keys x hx
  marked := fun cb hcb => by
    obtain ⟨x, hx, rfl⟩ := List.mem_map.1 hcb
    exact hI.marked x hx
  counts := hI.counts
  sums := hI.sums

theorem InOrder.stored (hS : db.Stored τ) (hI : InOrder (A.rounded τ) D (cbs.map (Callback.rounded τ)) S db) : StoredInOrder τ A D cbs S db where
  stored := hS
  unique := fun om hom => hI.unique (om.rounded τ) (List.mem_map.2 ⟨om, hom, rfl⟩)
  known := fun m hm => by
    obtain ⟨om, hom, e⟩ := hI.known m hm
    obtain ⟨x, hx, rfl⟩ := List.mem_map.1 hom
    exact ⟨x, hx, e⟩
  keys := fun cb hcb => hI.keys (cb.rounded τ) (List.mem_map.2 ⟨cb, hcb, rfl⟩)
  marked := fun cb hcb => hI.marked (cb.rounded τ) (List.mem_map.2 ⟨cb, hcb, rfl⟩)
  counts := hI.counts
  sums := hI.sums

theorem legal_rounded (hI : KeysUnique A (A.calls cs db)) {ss : List Stmt} (hcs : cs = ss.map fun s => .stmt (s.typed τ)) (hL : LegalProgram A D cbs S cs db) :
    LegalProgram (A.rounded τ) D (cbs.map (Callback.rounded τ)) S cs db := by
  have hcall : ∀ db c, (A.rounded τ).call db c = A.call db c := fun db c => call_models c
  have hcalls : ∀ cs db, (A.rounded τ).calls cs db = A.calls cs db := by
    intro cs
    induction cs with
    | nil => exact fun _ => rfl
    | cons c cs ih =>
      intro db
      simp only [App.calls, hcall]
      cases A.call db c <;> exact ih _
  subst hcs
  refine ⟨fun cb hcb => ?_, fun a ha hc => ?_, fun a ha f hf => ?_, fun om hom => ?_⟩
  · obtain ⟨x, hx, rfl⟩ := List.mem_map.1 hcb
    have h := hL.legal x hx
    revert h
    generalize db = d
    clear hI hL
    induction ss generalizing d with
    | nil => exact fun _ => trivial
    | cons s ss ih =>
      intro h
      simp only [List.map_cons, LegalCalls, hcall] at h ⊢
      refine ⟨h.1, ?_⟩
      cases hc : A.call d (.stmt (s.typed τ)) with
      | ok d' => rw [hc] at h; exact ih d' h.2
      | error e => rw [hc] at h; exact ih d h.2
  · have h := hL.counts a ha hc
    revert h
    generalize db = d
    clear hI hL
    induction ss generalizing d with
    | nil => exact fun _ => trivial
    | cons s ss ih =>
      intro h
      simp only [List.map_cons, CountCalls, hcall] at h ⊢
      refine ⟨h.1, ?_⟩
      cases hc : A.call d (.stmt (s.typed τ)) with
      | ok d' => rw [hc] at h; exact ih d' h.2
      | error e => rw [hc] at h; exact ih d h.2
  · have h := hL.sums a ha f hf
    revert h
    generalize db = d
    clear hI hL
    induction ss generalizing d with
    | nil => exact fun _ => trivial
    | cons s ss ih =>
      intro h
      simp only [List.map_cons, SumCalls, hcall] at h ⊢
      refine ⟨h.1, ?_⟩
      cases hc : A.call d (.stmt (s.typed τ)) with
      | ok d' => rw [hc] at h; exact ih d' h.2
      | error e => rw [hc] at h; exact ih d h.2
  · obtain ⟨x, hx, rfl⟩ := List.mem_map.1 hom
    rw [hcalls]
    exact hI x hx

/-- C88: in a project as in C74, whose columns round or cut what they store, any SQL is executed; afterwards flush() returns, after `L + 2` passes at most and without an error, and then every
`@denormalized` field is what its column makes of the callback's value, and CountFields and SumFields are right. (And everything is in order for the next program.) Missing: fields computed from a
field of the same instance whose column changes values (`C88_violated_own`). -/
theorem C88_program_partial (hP : LayeredProject A.engine.backend A.models D cbs S layer L) (hE : Installed A.engine D) (hp : ∀ l, (A.arrange l).Perm l) (hτ : τ.Fit D cbs S)
    (hI : StoredInOrder τ A D cbs S db) {ss : List Stmt} (hL : LegalTyped τ A D cbs S ss db) :
    ∃ db' N, (∀ n, N ≤ n → (A.limit n).flushTyped τ (L + 2) (A.runTyped τ ss db) = .ok (some db')) ∧ StoredRight τ D cbs db' ∧ StoredInOrder τ A D cbs S db' := by
  have hm : ∀ t c, Managed A.engine t c → ∀ v, τ t c v = v := fun t c h v => by
    obtain ⟨a, ha, rfl, rfl⟩ := hP.managed hE h
    exact hτ.aggregates a ha v
  have hP' : LayeredProject (A.rounded τ).engine.backend (A.rounded τ).models D (cbs.map (Callback.rounded τ)) S layer L := hP.rounded hτ
  have hR : ∀ om ∈ A.models, om.Rounds τ := fun om hom => hP.rounds hτ hom
  obtain ⟨h1, h2⟩ := runTyped_sim (A := A) hτ.twice hm ss hI.stored
  obtain ⟨db', N, h3, h4, h5⟩ := C74_program (A := A.rounded τ) hP' hE hp hI.rounded (legal_rounded hL.unique rfl hL)
  rw [← h1] at h3
  have hs : ∀ n, N ≤ n → (A.limit n).flushTyped τ (L + 2) (A.runTyped τ ss db) = .ok (some db') ∧ db'.Stored τ := fun n hn => by
    have := flush_sim (A := A.limit n) hτ.twice hm hR (L + 2) h2
    rw [show ((A.limit n).rounded τ).flush (L + 2) (A.runTyped τ ss db) = .ok (some db') from h3 n hn] at this
    exact this
  exact ⟨db', N, fun n hn => (hs n hn).1, ⟨h4.clean, fun cb hcb => h4.fields (cb.rounded τ) (List.mem_map.2 ⟨cb, hcb, rfl⟩), h4.aggregates⟩, InOrder.stored (hs N (Nat.le_refl N)).2 h5⟩

end

/-! ## The hypotheses are met -/

namespace Basket
open Demo (fld fkf row)
set_option maxRecDepth 100000

/-- The shop's `Item.amount` holds tens only. -/
def tens : Val → Val
  | .int n => .int (n / 10 * 10)
  | v => v
def amountTens : ColumnTypes := fun t c v => if t = "item" ∧ c = "amount" then tens v else v

theorem tens_twice (v : Val) : tens (tens v) = tens v := by
  cases v <;> simp only [tens]
  congr 1
  omega

theorem amountTens_fit : amountTens.Fit decls [amount] S where
  twice := fun t c v => by
    by_cases h : t = "item" ∧ c = "amount"
    · simp only [amountTens, if_pos h, tens_twice]
    · simp only [amountTens, if_neg h]
  aggregates := by
    intro a ha v
    simp only [decls, List.mem_cons, List.not_mem_nil, or_false] at ha
    rcases ha with h | h <;> cases h
    exact if_neg (by decide)
  numbers := fun t c _ i => by
    by_cases h : t = "item" ∧ c = "amount"
    · exact ⟨i / 10 * 10, by simp only [amountTens, if_pos h, tens]⟩
    · exact ⟨i, by simp only [amountTens, if_neg h]⟩
  own := by
    intro cb hcb cb' hcb' _ h
    rw [List.mem_singleton.1 hcb, List.mem_singleton.1 hcb'] at h
    exact absurd h (by decide)

/-- Two items of a basket: 2 times 3, of which the column keeps 0, and 1 times 20. -/
def tensDb : Db := ⟨fun t =>
  if t = "basket" then [row [("id", .int 1), ("total", .int 20)]]
  else if t = "product" then [row [("id", .int 1), ("price", .int 3)], row [("id", .int 2), ("price", .int 20)]]
  else if t = "item" then [row [("id", .int 1), ("basket_id", .int 1), ("product_id", .int 1), ("quantity", .int 2), ("amount", .int 0)],
    row [("id", .int 2), ("basket_id", .int 1), ("product_id", .int 2), ("quantity", .int 1), ("amount", .int 20)]]
  else [], [], 0⟩

/-- The first product's price becomes 17, and three of the second item are bought. -/
def tensSql : List Stmt :=
  [.update "product" (fun r => decide (r "id" = .int 1)) fun _ r => r.set "price" (.int 17),
    .update "item" (fun r => decide (r "id" = .int 2)) fun _ r => r.set "quantity" (.int 3)]

theorem tensDb_inOrder (b : Backend) : StoredInOrder amountTens (app b) decls [amount] S tensDb where
  stored := by
    intro t r hr c
    by_cases h : t = "item" ∧ c = "amount"
    · obtain ⟨rfl, rfl⟩ := h
      revert r
      decide
    · exact if_neg h
  unique := by unfold KeysUnique; cases b <;> decide
  known := fun m hm => by cases hm
  keys := by unfold KeysOk; decide
  marked := fun cb hcb r hr => .inl (by revert r; rw [List.mem_singleton.1 hcb]; decide)
  counts := by
    intro a ha hc
    simp only [decls, List.mem_cons, List.not_mem_nil, or_false] at ha
    rcases ha with h | h <;> cases h
    cases hc
  sums := by
    intro a ha f hf
    simp only [decls, List.mem_cons, List.not_mem_nil, or_false] at ha
    rcases ha with h | h <;> cases h
    refine ⟨by unfold AggOk; decide, fun t r hr c hc => ?_⟩
    simp only [S, List.mem_cons, Prod.mk.injEq, List.not_mem_nil, or_false] at hc
    rcases hc with ⟨rfl, rfl⟩ | ⟨rfl, rfl⟩ <;> simp only [tensDb] at hr <;> simp at hr <;> (try rcases hr with rfl | rfl) <;> (try subst hr) <;> exact ⟨_, rfl⟩

theorem amountTens_other {t : TableName} {c : Col} (h : c ≠ "amount") (v : Val) : amountTens t c v = v := if_neg fun g => h g.2

theorem tensSql_legal (b : Backend) : LegalTyped amountTens (app b) decls [amount] S tensSql tensDb where
  legal := by
    intro cb hcb
    rw [List.mem_singleton.1 hcb]
    have h1 : ∀ p ∈ amount.pks, p.2 = "id" := by decide
    have gen : ∀ (cs : List OrmCall), (∀ c ∈ cs, ∀ db, LegalCall (app b) amount db c) → ∀ db, LegalCalls (app b) amount cs db := by
      intro cs
      induction cs with
      | nil => exact fun _ _ => trivial
      | cons c cs ih =>
        intro h db
        refine ⟨h c (List.mem_cons_self ..) db, ?_⟩
        split <;> exact ih (fun c hc => h c (List.mem_cons_of_mem _ hc)) _
    refine gen _ (fun c hc db => ?_) _
    simp only [tensSql, List.map_cons, List.map_nil, List.mem_cons, List.not_mem_nil, or_false] at hc
    rcases hc with rfl | rfl <;> intro p hp _ _ r <;> rw [h1 p hp] <;> exact amountTens_other (by decide) _
  counts := by
    intro a ha hc
    simp only [decls, List.mem_cons, List.not_mem_nil, or_false] at ha
    rcases ha with h | h <;> cases h
    cases hc
  sums := by
    intro a ha f hf
    simp only [decls, List.mem_cons, List.not_mem_nil, or_false] at ha
    rcases ha with h | h <;> cases h
    have gen : ∀ (cs : List OrmCall), (∀ c ∈ cs, ∀ db, SumCall (app b) total S db c) → ∀ db, SumCalls (app b) total S cs db := by
      intro cs
      induction cs with
      | nil => exact fun _ _ => trivial
      | cons c cs ih =>
        intro h db
        refine ⟨h c (List.mem_cons_self ..) db, ?_⟩
        split <;> exact ih (fun c hc => h c (List.mem_cons_of_mem _ hc)) _
    refine gen _ (fun c hc db => ?_) _
    simp only [tensSql, List.map_cons, List.map_nil, List.mem_cons, List.not_mem_nil, or_false] at hc
    rcases hc with rfl | rfl
    · exact ⟨fun x r _ c hc => absurd hc (by simp [S]), fun h => absurd h (by decide)⟩
    · refine ⟨fun x r hr c hc => ?_, fun h => absurd h (by decide)⟩
      obtain ⟨i, hi⟩ := hr c hc
      have hc' : c = "amount" := by simpa [S] using hc
      subst hc'
      exact ⟨_, by show amountTens "item" "amount" (r "amount") = _; rw [hi]; rfl⟩
  unique := by unfold KeysUnique; cases b <;> decide +kernel

/-- The hypotheses of `C88_program_partial` are met: 34 is stored as 30, and the total is that of what is stored. -/
example (b : Backend) : (∃ db' N, (∀ n, N ≤ n → ((app b).limit n).flushTyped amountTens 3 ((app b).runTyped amountTens tensSql tensDb) = .ok (some db')) ∧ StoredRight amountTens decls [amount] db') ∧
    (match (app b).flushTyped amountTens 3 ((app b).runTyped amountTens tensSql tensDb) with
      | .ok (some db') => decide ((db'.rows "item").map (fun r => r "amount") = [.int 30, .int 60] ∧ (db'.rows "basket").map (fun r => r "total") = [.int 90])
      | _ => false) = true := by
  obtain ⟨db', N, h1, h2, _⟩ := C88_program_partial (A := app b) (works b) rfl (fun l => List.Perm.refl l) amountTens_fit (tensDb_inOrder b) (tensSql_legal b)
  exact ⟨⟨db', N, h1, h2⟩, by cases b <;> decide +kernel⟩

end Basket

/-! ## A field that is computed from a field of the same instance -/

namespace Notes
open Demo (fld row)
set_option maxRecDepth 100000

/-- Note: `shout` copies the text, `whisper` copies `shout`. The column of `shout` holds tens only. -/
def shoutTens : ColumnTypes := fun t c v => if t = "note" ∧ c = "shout" then Basket.tens v else v

def tensApp (b : Backend) : App := ⟨⟨b, installedTriggers b [shout.denorm, whisper.denorm], fun _ => 0⟩, [noteOrm], fun l => l, fun db _ _ => db.draws, 100⟩
/-- A note whose text is 10. -/
def tensNote : Db := ⟨fun t => if t = "note" then [row [("id", .int 1), ("text", .int 10), ("shout", .int 10), ("whisper", .int 10)]] else [], [], 0⟩
/-- Its text becomes 17. -/
def text17 : List Stmt := [.update "note" (fun _ => true) fun _ r => r.set "text" (.int 17)]

theorem typed_flush_of {x : Except TypedErr (Option Db)} {P : Db → Prop} [DecidablePred P] (h : (match x with
      | .ok (some db') => decide (P db')
      | _ => false) = true) : ∃ db', x = .ok (some db') ∧ P db' := by
  match x, h with
  | .ok (some db'), h => exact ⟨db', rfl, by simpa using h⟩

theorem typed_save_of {x : Except TypedErr (Db × Row)} {P : Db → Prop} [DecidablePred P] (h : (match x with
      | .ok (db', _) => decide (P db')
      | _ => false) = true) : ∃ db' mem, x = .ok (db', mem) ∧ P db' := by
  match x, h with
  | .ok (db', mem), h => exact ⟨db', mem, rfl, by simpa using h⟩

end Notes

open Notes in
/-- C88, violated for a field that is computed from a computed field of the same instance: save() computes `whisper` from what `shout`'s callback returned (17), and not from what is stored (10). Everything
is right before; afterwards `whisper` is 17, where the callback, given the stored row, returns 10; nothing is marked, and every further save() of the loaded instance stores 17 again. -/
theorem C88_violated_own : ∀ b,
    StoredRight shoutTens [shout.denorm, whisper.denorm] [shout, whisper] tensNote ∧ tensNote.Stored shoutTens ∧
    ∃ db', (tensApp b).flushTyped shoutTens 3 ((tensApp b).runTyped shoutTens text17 tensNote) = .ok (some db') ∧
      ¬ StoredRight shoutTens [shout.denorm, whisper.denorm] [shout, whisper] db' ∧
      (∀ r ∈ db'.rows "note", r "shout" = .int 10 ∧ r "whisper" = .int 17 ∧ whisper.stored shoutTens db' r = .int 10) ∧
      ∀ r ∈ db'.rows "note", ∃ db'' mem, (tensApp b).saveTyped shoutTens noteOrm r db' = .ok (db'', mem) ∧ (db''.rows "note").map (fun r => r "whisper") = [.int 17] := by
  intro b
  refine ⟨⟨rfl, by decide, by simp [Callback.denorm]⟩, fun t r hr c => ?_, ?_⟩
  · by_cases h : t = "note" ∧ c = "shout"
    · obtain ⟨rfl, rfl⟩ := h
      revert r
      decide
    · exact if_neg h
  · obtain ⟨db', h1, h2, h3, h4⟩ := typed_flush_of (x := (tensApp b).flushTyped shoutTens 3 ((tensApp b).runTyped shoutTens text17 tensNote))
      (P := fun db' => db'.rows "note" ≠ [] ∧ (∀ r ∈ db'.rows "note", r "shout" = .int 10 ∧ r "whisper" = .int 17 ∧ whisper.stored shoutTens db' r = .int 10) ∧
        ∀ r ∈ db'.rows "note", (match (tensApp b).saveTyped shoutTens noteOrm r db' with
          | .ok (db'', _) => decide ((db''.rows "note").map (fun r => r "whisper") = [.int 17])
          | _ => false) = true) (by cases b <;> decide +kernel)
    refine ⟨db', h1, fun hR => ?_, h3, fun r hr => typed_save_of (h4 r hr)⟩
    obtain ⟨r, hr⟩ := List.exists_mem_of_ne_nil _ h2
    obtain ⟨_, h5, h6⟩ := h3 r hr
    have := hR.fields whisper (by simp) r hr
    rw [show r whisper.field = .int 17 from h5, h6] at this
    exact absurd this (by decide)

end Denorm
