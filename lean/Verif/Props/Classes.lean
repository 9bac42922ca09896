import Verif.Lemmas.Classes
import Verif.Spec.CacheKey
import Verif.DemoFacts
/-!
# Decorators, and fields of abstract base classes (C42, C30)
-/
namespace Denorm

/-- C42, decorators. Decorators are applied from the bottom up; whatever the function carried before, each of them adds one dependency, in the
order in which they are applied. -/
theorem C42_decorators (decorators : List DepSpec) (f : Func) :
    (decorators.foldl (fun g d => dependOnRelated d g) f).depends = f.depends ++ decorators := by
  induction decorators generalizing f with
  | nil => simp
  | cons d l ih =>
    rw [List.foldl_cons, ih]
    cases h : f.depend <;> simp [dependOnRelated, Func.depends, h]

section
variable {ss pre post : List PyStmt} {w : World} {m : Model} {fields : List (Col × FieldRef)} {n : Col} {f : Func}

/-- C42 and C30 for callback fields. After any sequence of class statements, a @denormalized field in a concrete class, written in its body
or inherited from any number of abstract bases that share the function with other classes, has a denorm whose dependencies are right
for this class: one for each decorator, in their order, from this model to the model that is meant. The dependency objects belong to this field
of this class alone, and no two decorators share one. -/
theorem C30_callback (hr : World.run ss {} = .ok w) (hm : .cls m false fields ∈ ss) (hf : (n, .callback f) ∈ fields) :
    ∃ (i : Nat) (d : DenormObj), w.denorms[i]? = some d ∧ d.kind = .callback ∧ d.cls.model = m ∧ d.fieldname = n ∧
      EachRight w.registered m f.depends (w.depsOf d) ∧ d.depend.Nodup ∧ w.Private i := by
  obtain ⟨h1, h2⟩ := run_inv empty_inv.1 empty_inv.2 hr
  obtain ⟨i, d, e1, e2, e3, e4, e5, _, e6⟩ := run_denorm hr hm hf
  obtain ⟨e7, e8⟩ := e5 f rfl
  have hP := (h1.callback i d e1 e7).1
  have hN := h1.denormNodup d (List.mem_of_getElem? e1)
  refine ⟨i, d, e1, e7, e2, e4, ?_, hN.1, hP⟩
  have := eachRight_of (run_distinct empty_distinct hr) hN.2 ((h2 i d e1 hP e3).resolve_right (by simp)) (by rw [e2]; exact e6 rfl)
  rwa [e2, e8] at this

/-- C42: the two together. -/
theorem C42_each_class {decorators : List DepSpec} (hr : World.run ss {} = .ok w) (hm : .cls m false fields ∈ ss)
    (hf : (n, .callback (decorators.foldl (fun g d => dependOnRelated d g) {})) ∈ fields) :
    ∃ (i : Nat) (d : DenormObj), w.denorms[i]? = some d ∧ d.kind = .callback ∧ d.cls.model = m ∧ d.fieldname = n ∧
      EachRight w.registered m decorators (w.depsOf d) ∧ d.depend.Nodup ∧ w.Private i := by
  have := C30_callback hr hm hf
  rwa [C42_decorators] at this

/-- C30 for CacheKeyFields, the part that holds: a field that is contributed to one class only has the right dependencies. What is missing: a
field of an abstract base, which is contributed to the base and to each subclass; see `C30_violated_cachekey`. -/
theorem C30_cachekey_partial {i0 : Nat} {k : KeyFieldObj} {w0 : World} (hr : World.run (pre ++ .cls m false fields :: post) {} = .ok w)
    (hf : (n, .key i0) ∈ fields) (hp : World.run pre {} = .ok w0) (hk : w0.keys[i0]? = some k)
    (hu : ((pre ++ .cls m false fields :: post).flatMap PyStmt.keyUses).count i0 ≤ 1) :
    ∃ (i : Nat) (d : DenormObj), w.denorms[i]? = some d ∧ d.kind = .cacheKey ∧ d.cls.model = m ∧ d.fieldname = n ∧
      EachRight w.registered m k.specs (w.depsOf d) ∧ d.depend.Nodup ∧ w.Private i := by
  obtain ⟨h1, h2⟩ := run_inv empty_inv.1 empty_inv.2 hr
  obtain ⟨i, d, e1, e2, e3, e4, e5, e6, e7, e8, e9⟩ := run_key hr hf hp hk
  have hU := run_use useInv_empty hr
  have hP : w.Private i := by
    intro d0 h0 i' d' h' hne a ha ha'
    rw [e1] at h0
    cases h0
    have h3 := hU.uses i0 k a e9 (e7 ▸ ha)
    have h4 := countP_two (p := fun d => d.depend.contains a) e1 h' (Ne.symm hne) (by simpa using ha) (by simpa using ha')
    simp only [List.nil_append] at h3
    omega
  have hN := h1.denormNodup d (List.mem_of_getElem? e1)
  refine ⟨i, d, e1, e5, e2, e4, ?_, hN.1, hP⟩
  have := eachRight_of (run_distinct empty_distinct hr) hN.2 ((h2 i d e1 hP e3).resolve_right (by simp)) (by rw [e2]; exact e8 rfl)
  rwa [e2, e6] at this

end

/-! ## A project with an abstract base class -/

namespace Shop
set_option maxRecDepth 100000
open Demo (fld fkf row)

def category : Model :=
  { repr := "<class 'shop.Category'>", appLabel := "shop", name := "Category", table := "category", pkTable := "category", pk := "id", ct := 1,
    fields := [fld "id", fld "name"] }

/-- What `class Item(Model): category = ForeignKey(Category); class Meta: abstract = True` contributes, in the class `name`. -/
def item (name : String) (table : TableName) (ct : Nat) : Model :=
  { repr := "<class 'shop." ++ name ++ "'>", appLabel := "shop", name := name, table := table, pkTable := table, pk := "id", ct := ct,
    fields := [fld "id", fkf "category" "<class 'shop.Category'>", fkf "parent" ("<class 'shop." ++ name ++ "'>"), fld "label", fld "key"] }

def base : Model := item "Item" "item" 0
def book : Model := item "Book" "book" 2
def toy : Model := item "Toy" "toy" 3

/-- `@denormalized(..) @depend_on_related('Category') @depend_on_related('self', type='forward') def label` -/
def label : Func := [⟨.self, none, some .forward, []⟩, ⟨.name "Category", none, none, []⟩].foldl (fun g d => dependOnRelated d g) {}

/-- The abstract base Item with `label` and `key`, a CacheKeyField that depends on Category; and two subclasses. `Category` is defined in between. -/
def program : List PyStmt :=
  [ .keyField [⟨.name "Category", none, none, []⟩],
    .cls base true [("label", .callback label), ("key", .key 0)],
    .cls book false [("label", .callback label), ("key", .key 0)],
    .cls category false [],
    .cls toy false [("label", .callback label), ("key", .key 0)] ]

/-- The same with the CacheKeyField in Book only. -/
def single : List PyStmt :=
  [ .keyField [⟨.name "Category", none, none, []⟩],
    .cls base true [("label", .callback label)],
    .cls book false [("label", .callback label), ("key", .key 0)],
    .cls category false [],
    .cls toy false [("label", .callback label)] ]

def imported (p : List PyStmt) : World := match World.run p {} with | .ok w => w | .error _ => {}

theorem run_of {p : List PyStmt} (h : (match World.run p {} with | .ok _ => true | .error _ => false) = true) :
    World.run p {} = .ok (imported p) := by
  unfold imported
  cases h1 : World.run p {} with
  | ok w => rfl
  | error e => rw [h1] at h; simp at h

theorem run_program : World.run program {} = .ok (imported program) := run_of (by decide)
theorem run_single : World.run single {} = .ok (imported single) := run_of (by decide)

/-- C30_callback and C42_each_class apply to `label` in both subclasses. -/
example : .cls book false [("label", .callback label), ("key", .key 0)] ∈ program ∧
    .cls toy false [("label", .callback label), ("key", .key 0)] ∈ program := by simp [program]

/-- What they give: the dependencies of both are resolved, and are those of their own class. -/
example : ((imported program).depsOf ((imported program).denorms[2]?.getD ⟨.cacheKey, ⟨0, base, true⟩, "", [], []⟩)) =
    [some ⟨book, book, .forward (fkf "parent" "<class 'shop.Book'>"), []⟩,
     some ⟨book, category, .forward (fkf "category" "<class 'shop.Category'>"), []⟩] := by decide
example : ((imported program).depsOf ((imported program).denorms[4]?.getD ⟨.cacheKey, ⟨0, base, true⟩, "", [], []⟩)) =
    [some ⟨toy, toy, .forward (fkf "parent" "<class 'shop.Toy'>"), []⟩,
     some ⟨toy, category, .forward (fkf "category" "<class 'shop.Category'>"), []⟩] := by decide

/-- A model of another app with the same name. -/
def foreign : Model := { category with repr := "<class 'blog.Category'>", appLabel := "blog", table := "blog_category", pkTable := "blog_category", ct := 9 }

/-- What names mean: `'category'` in Book is the Category of its own app, the other one is `'blog.Category'`. -/
example : NameMeans book "category" category ∧ ¬ NameMeans book "category" foreign ∧ NameMeans book "blog.Category" foreign ∧ NameMeans book "shop.category" category := by
  simp only [← calls_iff]
  decide

/-- With the other Category defined first, `Book.label` waits for that of its own app. -/
example : ((imported (.cls foreign false [] :: program)).depsOf
    ((imported (.cls foreign false [] :: program)).denorms[2]?.getD ⟨.cacheKey, ⟨0, base, true⟩, "", [], []⟩)) =
    [some ⟨book, book, .forward (fkf "parent" "<class 'shop.Book'>"), []⟩,
     some ⟨book, category, .forward (fkf "category" "<class 'shop.Category'>"), []⟩] := by decide

/-- C30_cachekey_partial applies to `single`. -/
example : ((single.take 2 ++ .cls book false [("label", .callback label), ("key", .key 0)] :: single.drop 3).flatMap
    PyStmt.keyUses).count 0 ≤ 1 := by decide
example : (imported (single.take 2)).keys[0]? = some ⟨[0], [⟨.name "Category", none, none, []⟩]⟩ := by
  exact (by decide : ((imported (single.take 2)).keys.map fun k => (k.dependencies, k.specs))[0]? = some ([0], [⟨.name "Category", none, none, []⟩])) |> fun h => by
    rw [List.getElem?_map, Option.map_eq_some_iff] at h
    obtain ⟨k, h1, h2⟩ := h
    rw [h1]
    cases k
    simp only [Prod.mk.injEq] at h2
    rw [h2.1, h2.2]

/-- `Book.key` as its author means it. -/
def bookKey : KeyField :=
  ⟨book, "key", [⟨⟨book, category, .forward (fkf "category" "<class 'shop.Category'>"), []⟩, ["name"]⟩]⟩

def decls : List Denorm := ((imported program).declarations false).getD []

def engine (b : Backend) : Engine := ⟨b, installedTriggers b decls, fun n => 100 + n⟩

def db : Db :=
  { rows := fun t => if t = "category" then [row [("id", .int 1), ("name", .text "old")]]
      else if t = "book" then [row [("id", .int 7), ("category_id", .int 1), ("key", .int 5)]]
      else if t = "toy" then [row [("id", .int 8), ("category_id", .int 1), ("key", .int 6)]] else []
    dirty := []
    draws := 0 }

/-- `UPDATE category SET name = 'new' WHERE id = 1` -/
def rename : Stmt := .update "category" (fun r => r "id" == .int 1) (fun _ r => r.set "name" (.text "new"))

theorem installed (b : Backend) : Installed (engine b) decls := by simp only [Installed, engine]

end Shop

set_option maxRecDepth 100000 in
/-- C30 is violated for CacheKeyFields. `Item` is abstract and has a CacheKeyField that depends on Category; Book and Toy inherit it. After
the import the one dependency object is that of Toy. So when the category of a book is renamed, the key of the toy is renewed,
and the key of the book, although the change concerns it, is not. -/
theorem C30_violated_cachekey (b : Backend) :
    World.run Shop.program {} = .ok (Shop.imported Shop.program) ∧
    (Shop.imported Shop.program).declarations false = some Shop.decls ∧ Installed (Shop.engine b) Shop.decls ∧
    (∃ (i : Nat) (d : DenormObj), (Shop.imported Shop.program).denorms[i]? = some d ∧ d.kind = .cacheKey ∧ d.cls.model = Shop.book ∧ d.cls.abstract = false ∧
      ¬ EachRight (Shop.imported Shop.program).registered Shop.book [⟨.name "Category", none, none, []⟩] ((Shop.imported Shop.program).depsOf d)) ∧
    (∀ p ∈ (Shop.engine b).changesOf 20 Shop.rename Shop.db, p.1.table = "category" → Shop.bookKey.Concerned p.1 p.2 (.int 7)) ∧
    (∃ p ∈ (Shop.engine b).changesOf 20 Shop.rename Shop.db, p.1.table = "category") ∧
    ∃ db', (Shop.engine b).exec 20 Shop.rename Shop.db = .ok db' ∧
      (db'.rows "book").map (fun r => r "key") = [.int 5] ∧ (db'.rows "toy").map (fun r => r "key") ≠ [.int 6] := by
  refine ⟨Shop.run_program, ?_, Shop.installed b, ?_, ?_, ?_, ?_⟩
  · decide
  · refine ⟨3, (Shop.imported Shop.program).denorms[3]?.getD ⟨.callback, ⟨0, Shop.base, true⟩, "", [], []⟩, ?_, by decide, by decide, by decide, ?_⟩
    · have : 3 < (Shop.imported Shop.program).denorms.length := by decide
      simp [List.getElem?_eq_getElem this]
    · intro h
      have h2 := h.2 0 _ (some ⟨Shop.toy, Shop.category, .forward (Demo.fkf "category" "<class 'shop.Category'>"), []⟩) rfl (by decide)
      rcases h2 with ⟨o, r, _, _, h3⟩ | ⟨s, _, _, h3⟩
      · simp only [Option.some.injEq, Dep.mk.injEq] at h3
        exact absurd h3.1 (by decide)
      · simp at h3
  · have h : ∀ p ∈ (Shop.engine b).changesOf 20 Shop.rename Shop.db, p.1.table = "category" →
        p.1.old "name" ≠ p.1.new "name" ∧ (∃ r ∈ p.2.rows "book", r "id" = .int 7) ∧ ∀ r ∈ p.2.rows "book", r "id" = .int 7 →
          ∃ o ∈ p.1.versions, Dep.relatedTo ⟨Shop.book, Shop.category, .forward (Demo.fkf "category" "<class 'shop.Category'>"), []⟩ p.2 r o := by
      cases b <;> decide +kernel
    intro p hp ht
    obtain ⟨h1, h2, h3⟩ := h p hp ht
    exact ⟨h2, fun r hr hi => ⟨_, List.mem_singleton.2 rfl, .inl ⟨ht, h3 r hr hi, fun _ => ⟨"name", by simp, h1⟩⟩⟩⟩
  · cases b <;> decide +kernel
  · apply ok_of
    cases b <;> decide +kernel

end Denorm
