import Verif.Spec.FieldOrder
import Verif.Lemmas.Confluent
import Verif.Lemmas.Returns
import Verif.Lemmas.Transactions
/-!
# flush() settles one layer of fields per pass
-/
namespace Denorm

section
variable {A : App} {D : List Denorm} {cbs : List Callback} {rank : FieldAt → Nat} {L : Nat} {db db' : Db}

/-- The place of a callback field of the instance `x`. -/
abbrev Callback.place (cb : Callback) (x : Row) : FieldAt := (cb.model.table, cb.field, x cb.model.pk)

/-- All fields below layer `k` are right. -/
def Settled (cbs : List Callback) (rank : FieldAt → Nat) (k : Nat) (db : Db) : Prop :=
  ∀ cb ∈ cbs, ∀ x ∈ db.rows cb.model.table, rank (cb.place x) < k → cb.Fresh db x

/-- Rows at the same position before and after: the same but for fields of layer `k` and above, and columns that flushing may change. -/
def Kept (A : App) (cbs : List Callback) (rank : FieldAt → Nat) (k : Nat) (t : TableName) (a b : Row) : Prop :=
  (∀ c, ¬ Touched A t c → b c = a c) ∧ ∀ cb ∈ cbs, cb.model.table = t → rank (cb.place a) < k → b cb.field = a cb.field

/-- What flush() maintains for all of the fields. -/
structure AllGood (A : App) (D : List Denorm) (cbs : List Callback) (db : Db) : Prop where
  each : ∀ cb ∈ cbs, ∃ om, Good A D om cb db
  keys : KeysUnique A db

theorem cb_pk_untouched (hP : Project A D) {cb : Callback} {om : OrmModel} (hF : Flushable A D om cb db) : ¬ Touched A cb.model.table cb.model.pk := by
  have := pk_untouched hP.safe (List.mem_of_find?_eq_some hF.found)
  rwa [hF.model] at this

/-- A field of layer `k` or below is computed from the same data. -/
theorem value_kept (hP : Project A D) (hT : FlushedTogether A D cbs db) (hL : FieldsLayered cbs rank L db) {k : Nat}
    (hrows : ∀ t, Pw (Kept A cbs rank k t) (db.rows t) (db'.rows t)) {cb : Callback} (hcb : cb ∈ cbs) {x y : Row}
    (hx : x ∈ db.rows cb.model.table) (hxy : Kept A cbs rank k cb.model.table x y) (hr : rank (cb.place x) < k + 1) :
    cb.value db x = cb.value db' y := by
  obtain ⟨om, hF, -, -⟩ := hT.each cb hcb
  have hdn := hF.declared.declared
  simp only [Callback.value]
  congr 1
  · refine List.map_congr_left fun c hc => ?_
    by_cases h1 : Touched A cb.model.table c
    · obtain ⟨cb', hcb', ht, rfl⟩ := hT.own cb hcb c hc h1
      refine (hxy.2 cb' hcb' ht ?_).symm
      have : rank (cb'.place x) < rank (cb.place x) := hL.own cb hcb cb' hcb' ht hc x hx
      omega
    · exact (hxy.1 c h1).symm
  · refine List.map_congr_left fun d hd => ?_
    have hdd : d.dep ∈ (cb.denorm).deps := by simpa [Callback.denorm, Denorm.deps] using ⟨d, hd, rfl⟩
    have hthis := hF.declared.this d hd
    obtain ⟨hl, hk⟩ := hP.fixed _ hdn _ hdd
    refine seen_related (R := Kept A cbs rank k) (notBackGeneric (hF.declared.watched d hd)) ?_ ?_ hrows ?_ ?_
    · rw [hthis]
      exact (hxy.1 _ (cb_pk_untouched hP hF)).symm
    · intro c hc
      have h1 := hk c hc
      rw [hthis] at h1
      exact (hxy.1 c h1).symm
    · exact fun p hp a b hab => hab.1 _ (hl p hp)
    · intro a b hab ha c hc
      by_cases h1 : Touched A d.dep.otherTable c
      · obtain ⟨cb', hcb', ht, rfl⟩ := hT.reads cb hcb d hd c hc h1
        refine hab.2 cb' hcb' ht ?_
        have : rank (cb'.place a) < rank (cb.place x) := hL.related cb hcb cb' hcb' d hd ht hc x hx a ha
        omega
      · exact hab.1 c h1

/-- The layers do not change. -/
theorem fieldsLayered_same (hP : Project A D) (hT : FlushedTogether A D cbs db) (hso : SameOutside (Touched A) db db')
    (hL : FieldsLayered cbs rank L db) : FieldsLayered cbs rank L db' := by
  have key : ∀ cb ∈ cbs, ∀ {y : Row}, y ∈ db'.rows cb.model.table → ∃ x ∈ db.rows cb.model.table,
      (∀ c, ¬ Touched A cb.model.table c → y c = x c) ∧ cb.place y = cb.place x := by
    intro cb hcb y hy
    obtain ⟨om, hF, -, -⟩ := hT.each cb hcb
    obtain ⟨x, h1, h2⟩ := (hso _).right hy
    exact ⟨x, h1, h2, by simp only [Callback.place, h2 _ (cb_pk_untouched hP hF)]⟩
  have pk : ∀ cb ∈ cbs, ¬ Touched A cb.model.table cb.model.pk := fun cb hcb => by
    obtain ⟨om, hF, -, -⟩ := hT.each cb hcb
    exact cb_pk_untouched hP hF
  constructor
  · intro cb hcb cb' hcb' ht hc y hy
    obtain ⟨x, hx, h1, h2⟩ := key cb hcb hy
    have h3 := pk cb' hcb'
    rw [ht] at h3
    rw [h1 _ h3, h1 _ (pk cb hcb)]
    exact hL.own cb hcb cb' hcb' ht hc x hx
  · intro cb hcb cb' hcb' d hd ht hc y hy o ho
    obtain ⟨om, hF, -, -⟩ := hT.each cb hcb
    obtain ⟨x, hx, h1, h2⟩ := key cb hcb hy
    have hdd : d.dep ∈ (cb.denorm).deps := by simpa [Callback.denorm, Denorm.deps] using ⟨d, hd, rfl⟩
    have hthis := hF.declared.this d hd
    obtain ⟨hl, hk⟩ := hP.fixed _ hF.declared.declared _ hdd
    obtain ⟨a, ha, hao⟩ := related_back (R := fun t a b => ∀ c, ¬ Touched A t c → b c = a c) (r := x)
      (notBackGeneric (hF.declared.watched d hd)) (by rw [hthis]; exact (h1 _ (pk cb hcb)).symm)
      (fun c hc => by have h3 := hk c hc; rw [hthis] at h3; exact (h1 c h3).symm) hso (fun p hp a b hab => hab _ (hl p hp)) o ho
    have h3 := pk cb' hcb'
    rw [ht] at h3
    rw [hao _ h3, h1 _ (pk cb hcb)]
    exact hL.related cb hcb cb' hcb' d hd ht hc x hx a ha
  · intro cb hcb y hy
    obtain ⟨x, hx, h1, h2⟩ := key cb hcb hy
    rw [h1 _ (pk cb hcb)]
    exact hL.bound cb hcb x hx

theorem saveObject_pre (hS : KeysSafe A) (hu : KeysUnique A db) {m : Mark} (h : A.saveObject m db = .ok db') :
    (A.contentObject db m = .ok none ∧ db' = db) ∨
    ∃ om ∈ A.models, ∃ r mem, A.contentObject db m = .ok (some (om, r)) ∧ om.model.ct = m.ct ∧ r om.model.pk = m.oid ∧
      preSaveAll A om.model db false om.saved r = .ok mem ∧ Saved A om r mem db db' := by
  simp only [App.saveObject] at h
  cases hc : A.contentObject db m with
  | error e => rw [hc] at h; simp at h
  | ok o =>
    rw [hc] at h
    cases o with
    | none =>
      simp only [Except.ok.injEq] at h
      exact .inl ⟨rfl, h.symm⟩
    | some p =>
      obtain ⟨om, r⟩ := p
      simp only at h
      simp only [App.contentObject] at hc
      cases hfind : A.models.find? (fun om => om.model.ct == m.ct) with
      | none => rw [hfind] at hc; simp at hc
      | some om' =>
        rw [hfind] at hc
        simp only at hc
        cases hrow : (db.rows om'.model.table).find? (isRowOf om'.model m.oid) with
        | none => rw [hrow] at hc; simp at hc
        | some r' =>
          rw [hrow] at hc
          simp only [Except.ok.injEq, Option.some.injEq, Prod.mk.injEq] at hc
          obtain ⟨rfl, rfl⟩ := hc
          have hom : om' ∈ A.models := List.mem_of_find?_eq_some hfind
          cases hs : A.save om' r' db with
          | error e => rw [hs] at h; simp at h
          | ok p =>
            rw [hs] at h
            simp only [Except.ok.injEq] at h
            subst h
            obtain ⟨mem, hpre, hSv⟩ := saved_of_save hu hom (hS.kept om' hom om' hom rfl) hrow hs
            exact .inr ⟨om', hom, r', mem, rfl, by simpa using List.find?_some hfind, (find_again hrow).2, hpre, hSv⟩

/-- The values save() computes for settled fields are the stored ones. -/
theorem settled_mem (hP : Project A D) (hT : FlushedTogether A D cbs db) (hL : FieldsLayered cbs rank L db) {k : Nat}
    (hS : Settled cbs rank k db) {om : OrmModel} (hom : om ∈ A.models) {r mem : Row} (hsv : Saved A om r mem db db')
    (hpre : preSaveAll A om.model db false om.saved r = .ok mem) :
    ∀ cb ∈ cbs, cb.model.table = om.model.table → rank (cb.place r) < k → mem cb.field = r cb.field := by
  suffices ∀ (n : Nat), ∀ cb ∈ cbs, cb.model.table = om.model.table → rank (cb.place r) = n → n < k → mem cb.field = r cb.field from
    fun cb hcb ht hr => this _ cb hcb ht rfl hr
  intro n
  induction n using Nat.strongRecOn with
  | _ n ih =>
    intro cb hcb ht hr hn
    obtain ⟨om', hF, -, -⟩ := hT.each cb hcb
    have : om' = om := hP.tables om' (List.mem_of_find?_eq_some hF.found) om hom (by rw [hF.model, ht])
    subst this
    have hrm : r ∈ db.rows cb.model.table := by rw [ht]; exact hsv.inTable
    rw [value_of_pre hF hsv.plain hpre, hS cb hcb r hrm (by omega)]
    have hplain : ∀ c, ¬ Touched A cb.model.table c → mem c = r c := fun c hc =>
      hsv.plain c fun hd => hc ⟨om', hom, .inl ⟨ht, hd⟩⟩
    simp only [Callback.value]
    congr 1
    · refine List.map_congr_left fun c hc => ?_
      by_cases h1 : Touched A cb.model.table c
      · obtain ⟨cb', hcb', ht', rfl⟩ := hT.own cb hcb c hc h1
        have : rank (cb'.place r) < rank (cb.place r) := hL.own cb hcb cb' hcb' ht' hc r hrm
        exact ih _ (by omega) cb' hcb' (ht'.trans ht) rfl (by omega)
      · exact hplain c h1
    · refine List.map_congr_left fun d hd => ?_
      have hdd : d.dep ∈ (cb.denorm).deps := by simpa [Callback.denorm, Denorm.deps] using ⟨d, hd, rfl⟩
      have hthis := hF.declared.this d hd
      obtain ⟨-, hk⟩ := hP.fixed _ hF.declared.declared _ hdd
      rw [relatedRows_congr (r := mem) (r' := r) (notBackGeneric (hF.declared.watched d hd)) (by rw [hthis]; exact hplain _ (cb_pk_untouched hP hF))
        (fun c hc => by have h3 := hk c hc; rw [hthis] at h3; exact hplain c h3)]

/-- Saving keeps settled fields. -/
theorem kept_saved (hP : Project A D) (hO : OnlyFields A D cbs) (hu : KeysUnique A db) (hT : FlushedTogether A D cbs db)
    (hL : FieldsLayered cbs rank L db) {k : Nat} (hS : Settled cbs rank k db) {om : OrmModel} (hom : om ∈ A.models) {r mem : Row}
    (hsv : Saved A om r mem db db') (hpre : preSaveAll A om.model db false om.saved r = .ok mem) (t : TableName) :
    Pw (fun a b => Kept A cbs rank k t a b ∧ ∀ cb ∈ cbs, cb.model.table = t → (t = om.model.table → a om.model.pk ≠ r om.model.pk) → b cb.field = a cb.field)
      (db.rows t) (db'.rows t) := by
  refine (hsv.rows t).imp fun a ha b _ hab => ⟨⟨fun c hc => untouched_rel hom hc hab, ?_⟩, ?_⟩
  · rintro cb hcb rfl hr
    have hun := hO.unreached cb hcb om hom
    by_cases h1 : cb.model.table = om.model.table ∧ a om.model.pk = r om.model.pk
    · have har : a = r := by
        rw [h1.1] at ha
        exact eq_of_key (hu om hom).1 ha hsv.inTable h1.2
      subst har
      rw [hab.saved h1.1 rfl _ hun]
      have := settled_mem hP hT hL hS hom hsv hpre cb hcb h1.1 hr
      simp only [savedRow]
      split
      · exact this
      · rfl
    · exact hab.other (fun ht hk => h1 ⟨ht, hk⟩) _ hun
  · rintro cb hcb rfl hne
    exact hab.other hne _ (hO.unreached cb hcb om hom)

end

section
variable {A : App} {D : List Denorm} {cbs : List Callback} {rank : FieldAt → Nat} {L : Nat} {db db' : Db}

theorem fresh_rows {cb : Callback} (h : db'.rows = db.rows) (x : Row) : cb.Fresh db' x ↔ cb.Fresh db x := by
  have hv : cb.value db' x = cb.value db x := by simp only [Callback.value, related_rows h]
  simp only [Callback.Fresh, hv]

theorem together_flushOne (hu : KeysUnique A db) (hT : FlushedTogether A D cbs db) {m : Mark} (h : A.flushOne m db = .ok db') :
    FlushedTogether A D cbs db' := by
  refine ⟨fun cb hcb => ?_, hT.own, hT.reads⟩
  obtain ⟨om, h1, h2, h3⟩ := hT.each cb hcb
  have := good_flushOne ⟨h1, hu, h2, h3⟩ h
  exact ⟨om, this.flushable, this.keysOk, this.stale⟩

theorem together_flushList (hu : KeysUnique A db) (hT : FlushedTogether A D cbs db) {ms : List Mark} (h : A.flushList ms db = .ok db') :
    FlushedTogether A D cbs db' := by
  refine ⟨fun cb hcb => ?_, hT.own, hT.reads⟩
  obtain ⟨om, h1, h2, h3⟩ := hT.each cb hcb
  have := good_flushList ms ⟨h1, hu, h2, h3⟩ h
  exact ⟨om, this.flushable, this.keysOk, this.stale⟩

/-- Out-of-date fields of layer `k` and below are on instances still to be saved in this pass. -/
def Pending (cbs : List Callback) (rank : FieldAt → Nat) (k : Nat) (ms : List Mark) (db : Db) : Prop :=
  ∀ cb ∈ cbs, ∀ x ∈ db.rows cb.model.table, rank (cb.place x) < k + 1 → cb.Fresh db x ∨ (⟨cb.model.ct, x cb.model.pk⟩ : Mark) ∈ ms

theorem settled_flushOne (hP : Project A D) (hO : OnlyFields A D cbs) (hu : KeysUnique A db) (hT : FlushedTogether A D cbs db)
    (hL : FieldsLayered cbs rank L db) {k : Nat} (hS : Settled cbs rank k db) {m : Mark} {ms : List Mark}
    (hB : Pending cbs rank k (m :: ms) db) (h : A.flushOne m db = .ok db') :
    Settled cbs rank k db' ∧ Pending cbs rank k ms db' := by
  simp only [App.flushOne] at h
  cases hs : A.saveObject m db with
  | error e => rw [hs] at h; simp at h
  | ok db1 =>
    rw [hs] at h
    simp only [Except.ok.injEq] at h
    subst h
    suffices Settled cbs rank k db1 ∧ Pending cbs rank k ms db1 by
      refine ⟨fun cb hcb x hx hr => (fresh_rows rfl x).2 (this.1 cb hcb x hx hr), fun cb hcb x hx hr => ?_⟩
      exact (this.2 cb hcb x hx hr).imp (fresh_rows rfl x).2 id
    have hdone : ∀ cb ∈ cbs, ∀ x ∈ db1.rows cb.model.table, (⟨cb.model.ct, x cb.model.pk⟩ : Mark) = m → cb.Fresh db1 x := by
      rintro cb hcb x hx rfl
      obtain ⟨om, h1, h2, h3⟩ := hT.each cb hcb
      exact (good_saveObject ⟨h1, hu, h2, h3⟩ hs).2 rfl x hx rfl
    rcases saveObject_pre hP.safe hu hs with ⟨_, rfl⟩ | ⟨om, hom, r, mem, _, hct, hk, hpre, hsv⟩
    · refine ⟨hS, fun cb hcb x hx hr => ?_⟩
      by_cases hm : (⟨cb.model.ct, x cb.model.pk⟩ : Mark) = m
      · exact .inl (hdone cb hcb x hx hm)
      · exact (hB cb hcb x hx hr).imp id fun h => (List.mem_cons.1 h).resolve_left hm
    · have hkept := kept_saved hP hO hu hT hL hS hom hsv hpre
      have hkk : ∀ t, Pw (Kept A cbs rank k t) (db.rows t) (db1.rows t) := fun t => (hkept t).imp fun _ _ _ _ h => h.1
      have back : ∀ cb ∈ cbs, ∀ y ∈ db1.rows cb.model.table, ∃ x ∈ db.rows cb.model.table, Kept A cbs rank k cb.model.table x y ∧
          y cb.model.pk = x cb.model.pk ∧ ((⟨cb.model.ct, y cb.model.pk⟩ : Mark) ≠ m → y cb.field = x cb.field) := by
        intro cb hcb y hy
        obtain ⟨om', hF, -, -⟩ := hT.each cb hcb
        obtain ⟨x, hx, h1, h2⟩ := (hkept cb.model.table).right hy
        have hpk := h1.1 _ (cb_pk_untouched hP hF)
        refine ⟨x, hx, h1, hpk, fun hne => h2 cb hcb rfl fun ht hxr => hne ?_⟩
        have : om' = om := hP.tables om' (List.mem_of_find?_eq_some hF.found) om hom (by rw [hF.model, ht])
        subst this
        rw [hF.model] at hct hxr hk
        rw [hpk, hxr, hct, hk]
      refine ⟨fun cb hcb y hy hr => ?_, fun cb hcb y hy hr => ?_⟩
      · obtain ⟨x, hx, h1, hpk, -⟩ := back cb hcb y hy
        have hr' : rank (cb.place x) < k := by simpa only [Callback.place, hpk] using hr
        have h3 := hS cb hcb x hx hr'
        unfold Callback.Fresh at h3 ⊢
        rw [h1.2 cb hcb rfl hr', h3]
        exact value_kept hP hT hL hkk hcb hx h1 (by omega)
      · by_cases hm : (⟨cb.model.ct, y cb.model.pk⟩ : Mark) = m
        · exact .inl (hdone cb hcb y hy hm)
        · obtain ⟨x, hx, h1, hpk, h2⟩ := back cb hcb y hy
          have hr' : rank (cb.place x) < k + 1 := by simpa only [Callback.place, hpk] using hr
          rcases hB cb hcb x hx hr' with h3 | h3
          · left
            unfold Callback.Fresh at h3 ⊢
            rw [h2 hm, h3]
            exact value_kept hP hT hL hkk hcb hx h1 hr'
          · right
            rw [← hpk] at h3
            exact (List.mem_cons.1 h3).resolve_left hm

theorem settled_flushList (hP : Project A D) (hO : OnlyFields A D cbs) {k : Nat} : ∀ (ms : List Mark) {db db' : Db}, KeysUnique A db →
    FlushedTogether A D cbs db → FieldsLayered cbs rank L db → Settled cbs rank k db → Pending cbs rank k ms db →
    A.flushList ms db = .ok db' → Settled cbs rank (k + 1) db'
  | [], db, db', _, _, _, _, hB, h => by
    simp only [App.flushList, Except.ok.injEq] at h
    subst h
    exact fun cb hcb x hx hr => (hB cb hcb x hx hr).resolve_right (by simp)
  | m :: ms, db, db', hu, hT, hL, hS, hB, h => by
    simp only [App.flushList] at h
    cases hs : A.flushOne m db with
    | error e => rw [hs] at h; simp at h
    | ok db1 =>
      rw [hs] at h
      obtain ⟨h1, h2⟩ := settled_flushOne hP hO hu hT hL hS hB hs
      exact settled_flushList hP hO ms (sameKeys_flushOne hP.safe hu hs).2 (together_flushOne hu hT hs)
        (fieldsLayered_same hP hT (flushOne_same hP.safe hu hs) hL) h1 h2 h

/-- A pass of flush() settles another layer. -/
theorem settled_pass (hP : Project A D) (hO : OnlyFields A D cbs) (hp : ∀ l, (A.arrange l).Perm l) {k : Nat} (hu : KeysUnique A db)
    (hT : FlushedTogether A D cbs db) (hL : FieldsLayered cbs rank L db) (hS : Settled cbs rank k db) (h : A.pass db = .ok db') :
    Settled cbs rank (k + 1) db' := by
  refine settled_flushList hP hO _ hu hT hL hS (fun cb hcb x hx _ => ?_) h
  obtain ⟨om, -, -, h3⟩ := hT.each cb hcb
  by_cases hf : cb.Fresh db x
  · exact .inl hf
  · exact .inr ((mem_snapshot hp).2 (h3 x hx hf))

/-! ## When everything is settled -/

/-- Every marker is on a model with denormalized fields. -/
def MarksDeclared (D : List Denorm) (db : Db) : Prop := ∀ m ∈ db.dirty, ∃ dn ∈ D, dn.model.ct = m.ct

theorem declared_saveObject (hP : Project A D) (hu : KeysUnique A db) {m : Mark} (h : A.saveObject m db = .ok db') :
    ∀ m' ∈ db'.dirty, m' ∈ db.dirty ∨ ∃ dn ∈ D, dn.model.ct = m'.ct := by
  rcases saveObject_pre hP.safe hu h with ⟨_, rfl⟩ | ⟨om, hom, r, mem, _, hct, hk, hpre, hsv⟩
  · exact fun _ h => .inl h
  · exact exec_cts (C := fun ct => ∃ dn ∈ D, dn.model.ct = ct) (fun tr htr a ha ct hct => mark_cts hP.installed hP.this htr ha hct) hsv.exec

theorem declared_flushList (hP : Project A D) : ∀ (ms : List Mark) {db db' : Db}, KeysUnique A db →
    (∀ m ∈ db.dirty, m ∈ ms ∨ ∃ dn ∈ D, dn.model.ct = m.ct) → A.flushList ms db = .ok db' → MarksDeclared D db'
  | [], db, db', _, hm, h => by
    simp only [App.flushList, Except.ok.injEq] at h
    subst h
    exact fun m h => (hm m h).resolve_left (by simp)
  | m :: ms, db, db', hu, hm, h => by
    simp only [App.flushList] at h
    cases hs : A.flushOne m db with
    | error e => rw [hs] at h; simp at h
    | ok db1 =>
      rw [hs] at h
      refine declared_flushList hP ms (sameKeys_flushOne hP.safe hu hs).2 (fun m' hm' => ?_) h
      simp only [App.flushOne] at hs
      cases hs' : A.saveObject m db with
      | error e => rw [hs'] at hs; simp at hs
      | ok db2 =>
        rw [hs'] at hs
        simp only [Except.ok.injEq] at hs
        subst hs
        obtain ⟨h1, h2⟩ := List.mem_filter.1 hm'
        rcases declared_saveObject hP hu hs' m' h1 with h3 | h3
        · refine (hm m' h3).imp (fun h => (List.mem_cons.1 h).resolve_left ?_) id
          rintro rfl
          simp at h2
        · exact .inr h3

/-- Saving an instance whose fields are all right writes nothing new, and no trigger acts. -/
theorem saved_same (hu : KeysUnique A db) {om : OrmModel} (hom : om ∈ A.models) {r mem : Row} (hsv : Saved A om r mem db db')
    (hmem : savedRow om mem r = r) (hst : ∀ tr ∈ A.engine.triggers, tr.table = om.model.table → tr.event = .update → ¬ tr.Unconditional) :
    db'.rows = db.rows ∧ db'.dirty = db.dirty := by
  obtain ⟨i, hi⟩ := List.getElem?_of_mem hsv.inTable
  have hn := (hu om hom).2 r hsv.inTable
  have hT : targetsOf (db.rows om.model.table) (isRowOf om.model (mem om.model.pk)) = [i] :=
    targetsOf_unique (hu om hom).1 hi hsv.key.symm (hsv.key ▸ hn)
  have hstart : A.engine.start (saveUpdate om mem) db = [.write .top om.model.table [.upd i fun _ r => savedRow om mem r]] := by
    simp only [Engine.start, saveUpdate, Stmt.ops, Stmt.table, hT]
    cases A.engine.backend <;> rfl
  have he := hsv.exec
  rw [Engine.exec, hstart] at he
  have hset : (db.rows om.model.table).set i r = db.rows om.model.table := by
    obtain ⟨hlt, rfl⟩ := List.getElem?_eq_some_iff.1 hi
    exact List.set_getElem_self hlt
  have hfired : A.engine.fired .top ⟨om.model.table, .update, r, r⟩ = [] := by
    refine List.eq_nil_iff_forall_not_mem.2 fun it hit => ?_
    obtain ⟨tr, htr, hen, a, ha, rfl⟩ := mem_fired.1 hit
    simp only [Engine.enters, Bool.and_eq_true, decide_eq_true_eq] at hen
    rcases fires_update hen.1.1.2 hen.1.2 with h | ⟨c, -, h⟩
    · exact hst tr htr hen.1.1.1 hen.1.1.2 h
    · exact h rfl
  cases hfuel : A.fuel with
  | zero => rw [hfuel] at he; simp [Engine.drain] at he
  | succ n =>
    rw [hfuel] at he
    simp only [Engine.drain, Engine.step, applyOps, applyOp, hi, List.append_nil, hmem, hset, List.flatMap_cons, List.flatMap_nil, hfired] at he
    have he' : Except.ok (ε := DbErr) { db.setRows om.model.table (db.rows om.model.table) with draws := db.draws + 1 } = .ok db' := by
      cases n <;> exact he
    simp only [Except.ok.injEq] at he'
    subst he'
    refine ⟨?_, rfl⟩
    funext t
    simp only [Db.setRows]
    split <;> simp_all

theorem all_settled (hT : FlushedTogether A D cbs db) (hP : Project A D) (hO : OnlyFields A D cbs) (hL : FieldsLayered cbs rank L db)
    (hS : Settled cbs rank L db) (hu : KeysUnique A db) {m : Mark} (hm : ∃ dn ∈ D, dn.model.ct = m.ct) (h : A.flushOne m db = .ok db') :
    db'.rows = db.rows ∧ ∀ m' ∈ db'.dirty, m' ∈ db.dirty ∧ m' ≠ m := by
  simp only [App.flushOne] at h
  cases hs : A.saveObject m db with
  | error e => rw [hs] at h; simp at h
  | ok db1 =>
    rw [hs] at h
    simp only [Except.ok.injEq] at h
    subst h
    suffices db1.rows = db.rows ∧ db1.dirty = db.dirty by
      refine ⟨this.1, fun m' hm' => ?_⟩
      obtain ⟨h1, h2⟩ := List.mem_filter.1 hm'
      exact ⟨this.2 ▸ h1, by rintro rfl; simp at h2⟩
    rcases saveObject_pre hP.safe hu hs with ⟨_, rfl⟩ | ⟨om, hom, r, mem, _, hct, hk, hpre, hsv⟩
    · exact ⟨rfl, rfl⟩
    · obtain ⟨dn, hdn, hdct⟩ := hm
      obtain ⟨om', hom', hmd⟩ := hP.known dn hdn
      have : om' = om := hP.cts om' hom' om hom (by rw [hmd, hdct, hct])
      subst this
      refine saved_same hu hom hsv ?_ (fun tr htr ht => hO.steady dn hdn tr htr (by rw [ht, hmd]))
      funext c
      simp only [savedRow]
      split
      · by_cases hc : c ∈ om'.denormCols
        · obtain ⟨f, hf, rfl⟩ := List.mem_map.1 hc
          obtain ⟨hf, hcomp⟩ := List.mem_filter.1 hf
          obtain ⟨cb, hcb, hcm, hcf⟩ := hO.computed om' hom f hf hcomp
          rw [← hcf]
          exact settled_mem hP hT hL hS hom hsv hpre cb hcb (by rw [hcm]) (hL.bound cb hcb r (by rw [hcm]; exact hsv.inTable))
        · exact hsv.plain c hc
      · rfl

theorem last_flushList (hP : Project A D) (hO : OnlyFields A D cbs) : ∀ (ms : List Mark) {db db' : Db}, KeysUnique A db →
    FlushedTogether A D cbs db → FieldsLayered cbs rank L db → Settled cbs rank L db → (∀ m ∈ ms, ∃ dn ∈ D, dn.model.ct = m.ct) →
    A.flushList ms db = .ok db' → ∀ m ∈ db'.dirty, m ∈ db.dirty ∧ m ∉ ms
  | [], db, db', _, _, _, _, _, h => by
    simp only [App.flushList, Except.ok.injEq] at h
    subst h
    exact fun m hm => ⟨hm, by simp⟩
  | m :: ms, db, db', hu, hT, hL, hS, hms, h => by
    simp only [App.flushList] at h
    cases hs : A.flushOne m db with
    | error e => rw [hs] at h; simp at h
    | ok db1 =>
      rw [hs] at h
      obtain ⟨h1, h2⟩ := all_settled hT hP hO hL hS hu (hms m (List.mem_cons_self ..)) hs
      intro m' hm'
      have hS1 : Settled cbs rank L db1 := fun cb hcb x hx hr => (fresh_rows h1 x).2 (hS cb hcb x (by rwa [h1] at hx) hr)
      obtain ⟨h3, h4⟩ := last_flushList hP hO ms (sameKeys_flushOne hP.safe hu hs).2 (together_flushOne hu hT hs)
        (fieldsLayered_same hP hT (flushOne_same hP.safe hu hs) hL) hS1 (fun m hm => hms m (List.mem_cons_of_mem _ hm)) h m' hm'
      obtain ⟨h5, h6⟩ := h2 m' h3
      exact ⟨h5, by simp [h6, h4]⟩

theorem declared_pass (hP : Project A D) (hp : ∀ l, (A.arrange l).Perm l) (hu : KeysUnique A db) (h : A.pass db = .ok db') :
    MarksDeclared D db' :=
  declared_flushList hP _ hu (fun _ hm => .inl ((mem_snapshot hp).2 hm)) h

/-- flush() does not need more than two passes beyond the number of layers. -/
theorem fields_flush (hP : Project A D) (hO : OnlyFields A D cbs) (hp : ∀ l, (A.arrange l).Perm l) : ∀ (d k : Nat) {db : Db}, k + d = L →
    KeysUnique A db → FlushedTogether A D cbs db → FieldsLayered cbs rank L db → Settled cbs rank k db → A.flush (d + 2) db ≠ .ok none
  | d, k, db, hk, hu, hT, hL, hS, h => by
    unfold App.flush at h
    split at h
    · simp at h
    · simp only at h
      cases hs : A.pass db with
      | error e => rw [hs] at h; simp at h
      | ok db1 =>
        rw [hs] at h
        simp only at h
        have hu1 := (sameKeys_flushList hP.safe _ hu hs).2
        have hT1 := together_flushList hu hT hs
        have hL1 := fieldsLayered_same hP hT (flushList_same hP.safe _ hu hs) hL
        have hS1 := settled_pass hP hO hp hu hT hL hS hs
        cases d with
        | succ d => exact fields_flush hP hO hp d (k + 1) (by omega) hu1 hT1 hL1 hS1 h
        | zero =>
          have hSL : Settled cbs rank L db1 := fun cb hcb x hx hr => hS1 cb hcb x hx (by omega)
          unfold App.flush at h
          split at h
          · simp at h
          · simp only at h
            cases hs1 : A.pass db1 with
            | error e => rw [hs1] at h; simp at h
            | ok db2 =>
              rw [hs1] at h
              simp only at h
              have hd := declared_pass hP hp hu hs
              have : db2.dirty = [] := List.eq_nil_iff_forall_not_mem.2 fun m hm => by
                obtain ⟨h1, h2⟩ := last_flushList hP hO _ hu1 hT1 hL1 hSL (fun m hm => hd m ((mem_snapshot hp).1 hm)) hs1 m hm
                exact h2 ((mem_snapshot hp).2 h1)
              unfold App.flush at h
              rw [if_pos this] at h
              simp at h

end
end Denorm
