import Verif.Lemmas.Ranked
import Verif.Props.Settle
import Verif.Props.Works
/-!
# A project with every kind of field just works (C85)
-/
namespace Denorm

section
variable {A : App} {D : List Denorm} {cbs : List Callback} {S : List (TableName × Col)} {rank : Nat → Nat} {L : Nat} {db db' : Db}

/-- flush() keeps the database in order, and leaves everything right. -/
theorem RankedProject.inOrder_flush (hP : RankedProject A.engine.backend A.models D cbs S rank L) (hE : Installed A.engine D) (hI : InOrder A D cbs S db) {n : Nat}
    (h : A.flush n db = .ok (some db')) : InOrder A D cbs S db' ∧ AllRight D cbs db' := by
  have hg : ∀ cb ∈ cbs, KeysOk cb db' ∧ ∀ r ∈ db'.rows cb.model.table, r cb.field = cb.value db' r := fun cb hcb => by
    obtain ⟨om, hF⟩ := hP.flushable hE hcb db
    have hs : StaleMarked cb db := staleMarked_iff.2 fun r hr => (hI.marked cb hcb r hr).symm
    exact ⟨(good_flush n ⟨hF, hI.unique, hI.keys cb hcb, hs⟩ h).1.keysOk, (C01_flush_partial hF hI.unique (hI.keys cb hcb) hs h).2⟩
  have hk := kept_flushWith hE hP.this hP.onlyDenorms ⟨fun _ _ _ => true, fun _ _ _ => false, fun _ _ _ => false⟩ n hI.unique
  rw [(C65_plain (fun _ _ _ => rfl) (fun _ _ _ => rfl) (fun _ _ _ => rfl) n).2 h] at hk
  have hcl := flush_clean _ h
  have hc : ∀ a, .aggregate a ∈ D → a.agg = .count → AggOk a db' := fun a ha hc => hP.count_flush hE ha hc n hI.unique (hI.counts a ha hc) h
  have hs : ∀ a, .aggregate a ∈ D → ∀ f, a.agg = .sum f → AggOk a db' ∧ ∀ t, ∀ r ∈ db'.rows t, IntRow S t r := fun a ha f hf =>
    hP.sum_flush hE ha hf n hI.unique (hI.sums a ha f hf).1 (hI.sums a ha f hf).2 h
  refine ⟨⟨hk.unique hP.onlyDenorms hI.unique, fun m hm => (by rw [hcl] at hm; cases hm), fun cb hcb => (hg cb hcb).1, fun cb hcb r hr => .inl ((hg cb hcb).2 r hr), hc, hs⟩,
    hcl, fun cb hcb => (hg cb hcb).2, fun a ha => ?_⟩
  cases hg : a.agg with
  | count => exact hc a ha hg
  | sum f => exact (hs a ha f hg).1

/-- C85, one step: in a project whose `@denormalized` fields, CountFields, SumFields and CacheKeyFields use models of lower ranks only (`L` ranks), a program makes any calls of
Django's ORM and executes any SQL. Afterwards flush() returns, after `L + 1` passes over the markers at most and without an error, and then everything is right. (And in order again, for the
next program.) -/
theorem C85_program (hP : RankedProject A.engine.backend A.models D cbs S rank L) (hE : Installed A.engine D) (hp : ∀ l, (A.arrange l).Perm l)
    (hI : InOrder A D cbs S db) {cs : List OrmCall} (hL : LegalProgram A D cbs S cs db) :
    ∃ db' N, (∀ n, N ≤ n → (A.limit n).flush (L + 1) (A.calls cs db) = .ok (some db')) ∧ AllRight D cbs db' ∧ InOrder A D cbs S db' := by
  have hI' := hP.inOrder_calls hE hI hL
  obtain ⟨o, N, h⟩ := flush_finishes (hP.project hE) (fun s db => hP.finishes hE s db) hp (L + 1) hI'.unique hI'.known
  rcases C18_terminates (A := A.limit N) (project_limit (hP.project hE) N) hp hI'.unique (layered_limit (hP.layered (A.calls cs db)) N) with ⟨db', h1, _⟩ | ⟨e, h1⟩
  · rw [h N (Nat.le_refl N)] at h1
    simp only [Except.ok.injEq] at h1
    subst h1
    have hx := RankedProject.inOrder_flush (A := A.limit N) (ranked_limit hP N) hE
      ⟨hI'.unique, hI'.known, hI'.keys, hI'.marked, hI'.counts, hI'.sums⟩ (h N (Nat.le_refl N))
    exact ⟨db', N, h, hx.2, ⟨hx.1.unique, hx.1.known, hx.1.keys, hx.1.marked, hx.1.counts, hx.1.sums⟩⟩
  · rw [h N (Nat.le_refl N)] at h1
    simp at h1

/-- C85, every history: a new database is filled and changed by programs, and flush() is called now and then. Whatever happened, the next flush() returns and then everything is
right. -/
theorem C85_history (hP : RankedProject A.engine.backend A.models D cbs S rank L) (hE : Installed A.engine D) (hp : ∀ l, (A.arrange l).Perm l)
    (h0 : ∀ t, db.rows t = []) (hd : db.dirty = []) (hH : History A D cbs S db db') :
    ∃ e N, (∀ n, N ≤ n → (A.limit n).flush (L + 1) db' = .ok (some e)) ∧ AllRight D cbs e := by
  have hI : InOrder A D cbs S db' := by
    induction hH with
    | start =>
      refine ⟨fun om _ => by simp [h0], fun m hm => (by rw [hd] at hm; cases hm), fun cb _ => ?_, fun cb _ r hr => (by rw [h0] at hr; cases hr),
        fun a _ _ r hr => (by rw [h0] at hr; cases hr), fun a _ _ _ => ⟨fun r hr => (by rw [h0] at hr; cases hr), fun t r hr => (by rw [h0] at hr; cases hr)⟩⟩
      intro p _ r hr
      rw [h0] at hr
      cases hr
    | program _ hL ih => exact hP.inOrder_calls hE ih hL
    | flush n k _ h ih =>
      have hx := RankedProject.inOrder_flush (A := A.limit n) (ranked_limit hP n) hE ⟨ih.unique, ih.known, ih.keys, ih.marked, ih.counts, ih.sums⟩ h
      exact ⟨hx.1.unique, hx.1.known, hx.1.keys, hx.1.marked, hx.1.counts, hx.1.sums⟩
  obtain ⟨e, N, h1, h2, _⟩ := C85_program hP hE hp hI (cs := []) ⟨fun _ _ => trivial, fun _ _ _ => trivial, fun _ _ _ _ => trivial, hI.unique⟩
  exact ⟨e, N, h1, h2⟩

end

namespace Cart
open Demo (fld fkf row)
set_option maxRecDepth 100000

/-! A shop: Product(price); Item(cart, product, quantity), whose `amount` is computed from its quantity and its product's price and whose cache key depends on the product; Cart, with a
SumField of the amounts, a CountField of the items and a cache key that depends on the items. -/

def product : Model :=
  { repr := "<class 'cart.Product'>", appLabel := "cart", name := "Product", table := "product", pkTable := "product", pk := "id", ct := 51, fields := [fld "id", fld "price"] }
def cart : Model :=
  { repr := "<class 'cart.Cart'>", appLabel := "cart", name := "Cart", table := "cart", pkTable := "cart", pk := "id", ct := 52,
    fields := [fld "id", fld "total", fld "number", fld "key"] }
def itemProduct : Field := fkf "product" "<class 'cart.Product'>"
def itemCart : Field := fkf "cart" "<class 'cart.Cart'>"
def item : Model :=
  { repr := "<class 'cart.Item'>", appLabel := "cart", name := "Item", table := "item", pkTable := "item", pk := "id", ct := 53,
    fields := [fld "id", itemCart, itemProduct, fld "quantity", fld "amount", fld "key"] }

def priceDep : DepRead := ⟨⟨item, product, .forward itemProduct, []⟩, ["price"]⟩
def amount : Callback := { model := item, field := "amount", own := ["quantity"], fn := Basket.times, deps := [priceDep] }
def total : AggDenorm := { model := cart, fieldname := "total", related := item, fk := itemCart, agg := .sum "amount" }
def number : AggDenorm := { model := cart, fieldname := "number", related := item, fk := itemCart, agg := .count }

def decls : List Denorm :=
  [amount.denorm, .cacheKey item "key" [⟨item, product, .forward itemProduct, []⟩], .aggregate total, .aggregate number, .cacheKey cart "key" [⟨cart, item, .backward itemCart, []⟩]]

def productOrm : OrmModel := ⟨product, [⟨"price", .plain⟩]⟩
def cartOrm : OrmModel := ⟨cart, [⟨"total", .aggregate⟩, ⟨"number", .aggregate⟩, ⟨"key", .cacheKey⟩]⟩
def itemOrm : OrmModel := ⟨item, [⟨"cart_id", .plain⟩, ⟨"product_id", .plain⟩, ⟨"quantity", .plain⟩, ⟨"amount", .callback amount⟩, ⟨"key", .cacheKey⟩]⟩

def app (b : Backend) : App := ⟨⟨b, installedTriggers b decls, fun n => n⟩, [productOrm, cartOrm, itemOrm], fun l => l, fun db _ _ => db.draws, 100⟩

def rank (ct : Nat) : Nat := if ct = 51 then 0 else if ct = 53 then 1 else 2

/-- The SumField, and what it sums. -/
def S : List (TableName × Col) := [("cart", "total"), ("item", "amount")]

theorem numbers : ∀ om ∈ [productOrm, cartOrm, itemOrm], om.Numbers S := by
  intro om hom
  simp only [List.mem_cons, List.not_mem_nil, or_false] at hom
  refine ⟨fun c hc => ?_, fun f hf cb hk hS => ?_⟩
  · simp only [S, List.mem_cons, Prod.mk.injEq, List.not_mem_nil, or_false] at hc
    rcases hom with rfl | rfl | rfl <;> rcases hc with ⟨h, rfl⟩ | ⟨h, rfl⟩ <;> first | exact absurd h (by decide) | decide
  · rcases hom with rfl | rfl | rfl <;> simp only [productOrm, cartOrm, itemOrm, List.mem_cons, List.not_mem_nil, or_false] at hf
    · subst hf; cases hk
    · rcases hf with rfl | rfl | rfl <;> cases hk
    · rcases hf with rfl | rfl | rfl | rfl | rfl <;> cases hk
      exact fun db r => Basket.times_int _ _

theorem agree (b : Backend) : AgreeOnWatch b decls := by cases b <;> decide

theorem mem_aggregates {a : AggDenorm} : Denorm.aggregate a ∈ decls ↔ a = total ∨ a = number := by
  simp [decls, Callback.denorm]

theorem declared (b : Backend) {a : AggDenorm} (h : Denorm.aggregate a ∈ decls) : AggDeclared b decls a where
  declared := h
  covered := fun _ hg => covered_of_agree (agree b) (List.mem_flatMap.2 ⟨.aggregate a, h, hg⟩)
  only := by rcases mem_aggregates.1 h with rfl | rfl <;> decide
  pk := by rcases mem_aggregates.1 h with rfl | rfl <;> decide
  fk := by rcases mem_aggregates.1 h with rfl | rfl <;> decide
  watched := by rcases mem_aggregates.1 h with rfl | rfl <;> decide
  fkcol := by rcases mem_aggregates.1 h with rfl | rfl <;> rfl
  conds := by rcases mem_aggregates.1 h with rfl | rfl <;> decide

theorem works (b : Backend) : RankedProject b [productOrm, cartOrm, itemOrm] decls [amount] S rank 3 where
  cts := by
    intro om hom om' hom'
    simp only [List.mem_cons, List.not_mem_nil, or_false] at hom hom'
    rcases hom with rfl | rfl | rfl <;> rcases hom' with rfl | rfl | rfl <;> intro h <;> first | rfl | exact absurd h (by decide)
  tables := by
    intro om hom om' hom'
    simp only [List.mem_cons, List.not_mem_nil, or_false] at hom hom'
    rcases hom with rfl | rfl | rfl <;> rcases hom' with rfl | rfl | rfl <;> intro h <;> first | rfl | exact absurd h (by decide)
  proper := by
    intro om hom
    simp only [List.mem_cons, List.not_mem_nil, or_false] at hom
    rcases hom with rfl | rfl | rfl <;> exact ⟨by decide, by decide⟩
  computed := by unfold Denormalized; decide
  keys := by unfold Denormalized; decide
  fields := by
    intro cb hcb
    rw [List.mem_singleton.1 hcb]
    exact ⟨by simp [decls], itemOrm, by simp, rfl, [⟨"cart_id", .plain⟩, ⟨"product_id", .plain⟩, ⟨"quantity", .plain⟩], _, rfl, by decide⟩
  kinds := by
    intro dn hdn
    simp only [decls, List.mem_cons, List.not_mem_nil, or_false] at hdn
    rcases hdn with rfl | rfl | rfl | rfl | rfl
    · exact .inl ⟨amount, by simp, rfl⟩
    · exact .inr (.inr ⟨_, _, _, rfl, rfl, itemOrm, by simp, rfl⟩)
    · exact .inr (.inl ⟨_, rfl⟩)
    · exact .inr (.inl ⟨_, rfl⟩)
    · exact .inr (.inr ⟨_, _, _, rfl, rfl, cartOrm, by simp, rfl⟩)
  counts := by
    intro a ha
    refine ⟨declared b ha, ⟨cartOrm, by simp, ?_⟩, ?_, ?_⟩
    · rcases mem_aggregates.1 ha with rfl | rfl <;> rfl
    · rcases mem_aggregates.1 ha with rfl | rfl <;> rfl
    · intro om hom
      simp only [List.mem_cons, List.not_mem_nil, or_false] at hom
      rcases mem_aggregates.1 ha with rfl | rfl <;> rcases hom with rfl | rfl | rfl <;> unfold OrmModel.Holds <;> decide
  once := by decide
  agree := agree b
  this := by decide
  watched := by decide
  ownCols := by decide
  pkTable := by decide
  others := by decide
  through := by decide
  generic := by
    intro dn hdn d hd g
    simp only [decls, List.mem_cons, List.not_mem_nil, or_false] at hdn
    rcases hdn with rfl | rfl | rfl | rfl | rfl <;> simp only [Denorm.deps, Callback.denorm, amount, List.map_cons, List.map_nil, List.mem_singleton, List.not_mem_nil] at hd
    · subst hd; simp [priceDep]
    · subst hd; simp
    · subst hd; simp
  looks := by unfold Denormalized; decide
  ownKeys := by unfold Denormalized; decide
  sums := by
    intro a ha f hf
    rcases mem_aggregates.1 ha with rfl | rfl
    · cases hf
      decide
    · cases hf
  numbers := numbers
  ranks := by decide
  bound := by decide
  own := fun cb hcb c hc => .inl (by revert c; revert cb; unfold Denormalized; decide)
  reads := fun cb hcb d hd c hc => .inl (by revert c; revert d; revert cb; unfold Denormalized; decide)
  pks := by unfold Denormalized; decide
  fks := by
    intro a ha
    rcases mem_aggregates.1 ha with rfl | rfl <;> unfold Denormalized <;> decide
  acyclic := by
    have h : ∀ t t', Feeds decls t t' → t = "product" ∧ t' = "item" ∨ t' = "cart" ∧ t ≠ "cart" := by
      intro t t' h
      induction h with
      | @direct dn t hdn ht =>
        revert t
        revert dn
        decide
      | trans _ _ h1 h2 =>
        rcases h1 with ⟨rfl, rfl⟩ | ⟨rfl, h1⟩
        · rcases h2 with ⟨h2, _⟩ | ⟨rfl, _⟩
          · exact absurd h2 (by decide)
          · exact .inr ⟨rfl, by decide⟩
        · rcases h2 with ⟨h2, _⟩ | ⟨_, h2⟩
          · exact absurd h2 (by decide)
          · exact absurd rfl h2
    intro t ht
    rcases h t t ht with ⟨rfl, h⟩ | ⟨rfl, h⟩
    · exact absurd h (by decide)
    · exact absurd rfl h
  clear := by
    have h0 : ∀ g ∈ generated decls, g.table ∈ ["product", "cart", "item"] := by decide
    intro g hg g' hg' n h
    have h3 : ∀ t ∈ ["product", "cart", "item"], ∀ t' ∈ ["product", "cart", "item"], ¬ (t' ++ "_").toList <+: t.toList := by decide
    refine h3 _ (h0 g hg) _ (h0 g' hg') ⟨(toString n).toList, ?_⟩
    rw [← String.toList_append, ← h]

theorem installed (b : Backend) : Installed (app b).engine decls := by simp only [Installed, app]

/-- `C85_history` applies, to all histories of this project. -/
example (b : Backend) {db' : Db} (h : History (app b) decls [amount] S ⟨fun _ => [], [], 0⟩ db') :
    ∃ e N, (∀ n, N ≤ n → ((app b).limit n).flush 4 db' = .ok (some e)) ∧ AllRight decls [amount] e :=
  C85_history (A := app b) (works b) (installed b) (fun l => List.Perm.refl l) (fun _ => rfl) rfl h

def emptyDb : Db := ⟨fun _ => [], [], 0⟩

/-- A cart; two products; two items, with wrong amounts in the program's memory; then the second product gets another price, by SQL. -/
def program : List OrmCall :=
  [.create cartOrm (row [("total", .int 77)]) (.int 1), .create productOrm (row [("price", .int 3)]) (.int 1), .create productOrm (row [("price", .int 10)]) (.int 2),
    .create itemOrm (row [("cart_id", .int 1), ("product_id", .int 1), ("quantity", .int 2), ("amount", .text "wrong")]) (.int 1),
    .create itemOrm (row [("cart_id", .int 1), ("product_id", .int 2), ("quantity", .int 1)]) (.int 2),
    .stmt (.update "product" (fun r => decide (r "id" = .int 2)) fun _ r => r.set "price" (.int 20))]

theorem cart_newKey (b : Backend) (db : Db) {om : OrmModel} (hom : om ∈ (app b).models) {k : Val} (hk : k ≠ .null) : NewKey (app b).engine amount db om k := by
  intro r hr x hx
  rw [List.mem_singleton.1 hx]
  have h1 : ∀ p ∈ amount.pks, p.2 = "id" := by decide
  have h2 : ∀ d ∈ amount.deps, d.dep.m2mTable = none := by decide
  have h3 : om.model.pk = "id" := by
    simp only [app, List.mem_cons, List.not_mem_nil, or_false] at hom
    rcases hom with rfl | rfl | rfl <;> rfl
  refine ⟨fun p hp _ => ?_, fun d hd _ tbl c k' hm => ?_⟩
  · rw [h1 p hp, ← h3, hr]
    exact hk
  · rw [h2 d hd] at hm
    cases hm

theorem cart_legal (b : Backend) : LegalProgram (app b) decls [amount] S program emptyDb where
  legal := by
    intro cb hcb
    rw [List.mem_singleton.1 hcb]
    have gen : ∀ (cs : List OrmCall), (∀ c ∈ cs, ∀ db, LegalCall (app b) amount db c) → ∀ db, LegalCalls (app b) amount cs db := by
      intro cs
      induction cs with
      | nil => exact fun _ _ => trivial
      | cons c cs ih =>
        intro h db
        refine ⟨h c (List.mem_cons_self ..) db, ?_⟩
        split <;> exact ih (fun c hc => h c (List.mem_cons_of_mem _ hc)) _
    refine gen program ?_ _
    intro c hc db
    simp only [program, List.mem_cons, List.not_mem_nil, or_false] at hc
    rcases hc with rfl | rfl | rfl | rfl | rfl | rfl
    · exact cart_newKey b db (by simp [app]) (by decide)
    · exact cart_newKey b db (by simp [app]) (by decide)
    · exact cart_newKey b db (by simp [app]) (by decide)
    · exact cart_newKey b db (by simp [app]) (by decide)
    · exact cart_newKey b db (by simp [app]) (by decide)
    · have h1 : ∀ p ∈ amount.pks, p.2 = "id" := by decide
      intro p hp _ _ r
      rw [h1 p hp]
      simp [Row.set]
  counts := by
    intro a ha hc
    rcases mem_aggregates.1 ha with rfl | rfl
    · cases hc
    have gen : ∀ (cs : List OrmCall), (∀ c ∈ cs, ∀ db, CountCall (app b) number db c) → ∀ db, CountCalls (app b) number cs db := by
      intro cs
      induction cs with
      | nil => exact fun _ _ => trivial
      | cons c cs ih =>
        intro h db
        refine ⟨h c (List.mem_cons_self ..) db, ?_⟩
        split <;> exact ih (fun c hc => h c (List.mem_cons_of_mem _ hc)) _
    have hp : ∀ mem k db, CountCall (app b) number db (.create productOrm mem k) := fun mem k db =>
      ⟨⟨by decide, by decide⟩, by unfold OrmModel.Holds; decide, fun h => absurd h (by decide)⟩
    have hi : ∀ mem k db, CountCall (app b) number db (.create itemOrm mem k) := fun mem k db =>
      ⟨⟨by decide, by decide⟩, by unfold OrmModel.Holds; decide, fun h => absurd h (by decide)⟩
    refine ⟨⟨⟨by decide, by decide⟩, by unfold OrmModel.Holds; decide, fun _ o ho => (by cases ho)⟩, ?_⟩
    split <;> refine gen _ ?_ _ <;> intro c hc db <;> simp only [List.mem_cons, List.not_mem_nil, or_false] at hc <;> rcases hc with rfl | rfl | rfl | rfl | rfl <;>
      first | exact hp _ _ _ | exact hi _ _ _ | exact fun h => absurd h (by decide)
  sums := by
    intro a ha f hf
    rcases mem_aggregates.1 ha with rfl | rfl
    rotate_left
    · cases hf
    have gen : ∀ (cs : List OrmCall), (∀ c ∈ cs, ∀ db, SumCall (app b) total S db c) → ∀ db, SumCalls (app b) total S cs db := by
      intro cs
      induction cs with
      | nil => exact fun _ _ => trivial
      | cons c cs ih =>
        intro h db
        refine ⟨h c (List.mem_cons_self ..) db, ?_⟩
        split <;> exact ih (fun c hc => h c (List.mem_cons_of_mem _ hc)) _
    have hp : ∀ mem k db, SumCall (app b) total S db (.create productOrm mem k) := fun mem k db =>
      ⟨⟨⟨by decide, by decide⟩, by unfold OrmModel.Holds; decide, fun h => absurd h (by decide)⟩, numbers _ (by simp), fun f hf _ hS => by
        simp only [productOrm, List.mem_singleton] at hf; subst hf; exact absurd hS (by decide)⟩
    have hi : ∀ mem k db, SumCall (app b) total S db (.create itemOrm mem k) := fun mem k db =>
      ⟨⟨⟨by decide, by decide⟩, by unfold OrmModel.Holds; decide, fun h => absurd h (by decide)⟩, numbers _ (by simp), fun f hf hk hS => by
        simp only [itemOrm, List.mem_cons, List.not_mem_nil, or_false] at hf
        rcases hf with rfl | rfl | rfl | rfl | rfl
        · exact absurd hS (by decide)
        · exact absurd hS (by decide)
        · exact absurd hS (by decide)
        · cases hk
        · cases hk⟩
    refine ⟨⟨⟨⟨by decide, by decide⟩, by unfold OrmModel.Holds; decide, fun _ o ho => (by cases ho)⟩, numbers _ (by simp), fun f hf hk => ?_⟩, ?_⟩
    · simp only [cartOrm, List.mem_cons, List.not_mem_nil, or_false] at hf
      rcases hf with rfl | rfl | rfl <;> cases hk
    · split <;> refine gen _ ?_ _ <;> intro c hc db <;> simp only [List.mem_cons, List.not_mem_nil, or_false] at hc <;> rcases hc with rfl | rfl | rfl | rfl | rfl <;>
        first | exact hp _ _ _ | exact hi _ _ _ | exact ⟨fun x r _ c hc => absurd hc (by simp [S]), fun h => absurd h (by decide)⟩
  unique := by unfold KeysUnique; cases b <;> decide +kernel

/-- Such as this one: before flush() the total is what it was before the price changed; after it, it is 2 times 3 plus 1 times 20. The cart's cache key has changed, too. -/
example (b : Backend) : (((app b).calls program emptyDb).rows "cart").map (fun r => (r "total", r "number")) = [(.int 16, .int 2)] ∧
    ∃ db', History (app b) decls [amount] S emptyDb db' ∧ (db'.rows "item").map (fun r => r "amount") = [.int 6, .int 20] ∧
      (db'.rows "cart").map (fun r => (r "total", r "number")) = [(.int 26, .int 2)] ∧
      (db'.rows "cart").map (fun r => r "key") ≠ (((app b).calls program emptyDb).rows "cart").map fun r => r "key" := by
  obtain ⟨db', h, h1⟩ : ∃ db', ((app b).limit 100).flush 4 ((app b).calls program emptyDb) = .ok (some db') ∧
      ((db'.rows "item").map (fun r => r "amount") = [.int 6, .int 20] ∧ (db'.rows "cart").map (fun r => (r "total", r "number")) = [(.int 26, .int 2)] ∧
        (db'.rows "cart").map (fun r => r "key") ≠ (((app b).calls program emptyDb).rows "cart").map fun r => r "key") :=
    flush_of (by cases b <;> decide +kernel)
  exact ⟨by cases b <;> decide +kernel, db', .flush 100 4 (.program .start (cart_legal b)) h, h1⟩

end Cart
end Denorm
