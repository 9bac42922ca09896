import Verif.Spec.Crashes
import Verif.Lemmas.Visits
import Verif.Props.Mishaps
import Verif.Props.FlushViolations
import Verif.Props.Collector
import Verif.Props.Cascade
/-!
# Crashes in whole projects (C20)
-/
namespace Denorm

section
variable {A : App} {D : List Denorm} {cbs : List Callback} {S : List (TableName × Col)} {rank : Nat → Nat} {L : Nat} {db db' x : Db}

theorem Tended.saveObject (hP : RankedProject A.engine.backend A.models D cbs S rank L) (hE : Installed A.engine D) (h : Tended A D S db) {m : Mark} (hs : A.saveObject m db = .ok x) :
    Tended A D S x := by
  unfold App.saveObject at hs
  cases hc : A.contentObject db m with
  | error e => rw [hc] at hs; cases hs
  | ok o =>
    rw [hc] at hs
    cases o with
    | none => cases hs; exact h
    | some q =>
      obtain ⟨om, r⟩ := q
      simp only at hs
      cases hv : A.save om r db with
      | error e => rw [hv] at hs; cases hs
      | ok p =>
        rw [hv] at hs
        cases hs
        exact h.saved hP hE hc hv

theorem Tended.flushOne (hP : RankedProject A.engine.backend A.models D cbs S rank L) (hE : Installed A.engine D) (h : Tended A D S db) {m : Mark} (hs : A.flushOne m db = .ok x) :
    Tended A D S x := by
  unfold App.flushOne at hs
  cases hv : A.saveObject m db with
  | error e => rw [hv] at hs; cases hs
  | ok d =>
    rw [hv] at hs
    cases hs
    exact (h.saveObject hP hE hv).drop m

theorem Tended.during (hP : RankedProject A.engine.backend A.models D cbs S rank L) (hE : Installed A.engine D) {ms : List Mark} (hx : A.During ms db x) (h : Tended A D S db) :
    Tended A D S x := by
  induction hx with
  | now => exact h
  | saved hs => exact h.saveObject hP hE hs
  | next hs _ ih => exact ih (h.flushOne hP hE hs)

theorem Tended.flushList (hP : RankedProject A.engine.backend A.models D cbs S rank L) (hE : Installed A.engine D) : ∀ (ms : List Mark) {db : Db}, Tended A D S db →
    A.flushList ms db = .ok x → Tended A D S x
  | [], _, h, hs => by cases hs; exact h
  | m :: ms, db, h, hs => by
    unfold App.flushList at hs
    cases hv : A.flushOne m db with
    | error e => rw [hv] at hs; cases hs
    | ok d =>
      rw [hv] at hs
      exact Tended.flushList hP hE ms (h.flushOne hP hE hv) hs

theorem Tended.visits (hP : RankedProject A.engine.backend A.models D cbs S rank L) (hE : Installed A.engine D) (hx : A.Visits db x) (h : Tended A D S db) : Tended A D S x := by
  induction hx with
  | inPass hd => exact Tended.during hP hE hd h
  | next _ hs _ ih => exact ih (Tended.flushList hP hE _ h hs)

/-- At every moment of a flush(), the database is in order. -/
theorem RankedProject.inOrder_visits (hP : RankedProject A.engine.backend A.models D cbs S rank L) (hE : Installed A.engine D) (hI : InOrder A D cbs S db) (hx : A.Visits db x) :
    InOrder A D cbs S x := by
  have h := Tended.visits hP hE hx ⟨hI.unique, hI.known, hI.counts, hI.sums⟩
  have hg : ∀ cb ∈ cbs, KeysOk cb x ∧ StaleMarked cb x := fun cb hcb => by
    obtain ⟨om, hF⟩ := hP.flushable hE hcb db
    have hs : StaleMarked cb db := staleMarked_iff.2 fun r hr => (hI.marked cb hcb r hr).symm
    have := good_visits hx ⟨hF, hI.unique, hI.keys cb hcb, hs⟩
    exact ⟨this.keysOk, this.stale⟩
  exact ⟨h.unique, h.known, fun cb hcb => (hg cb hcb).1, fun cb hcb r hr => (staleMarked_iff.1 (hg cb hcb).2 r hr).symm, h.counts, h.sums⟩

theorem known_runAll (hP : RankedProject A.engine.backend A.models D cbs S rank L) (hE : Installed A.engine D) {n : Nat} : ∀ {ss : List Stmt} {db : Db}, MarksKnown A db →
    A.engine.runAll n ss db = .ok x → MarksKnown A x
  | [], _, h, hs => by cases hs; exact h
  | s :: ss, db, h, hs => by
    unfold Engine.runAll at hs
    cases hv : A.engine.exec n s db with
    | error e => rw [hv] at hs; cases hs
    | ok d =>
      rw [hv] at hs
      exact known_runAll hP hE (exec_known (hP.project hE) hv h) hs

theorem Collector.Suits.fits {P : Collector} (hS : P.Suits A D cbs S) {cb : Callback} (hcb : cb ∈ cbs) : P.Fits A.engine cb :=
  ⟨hS.order, hS.pks cb hcb, hS.keys, hS.cols, hS.through cb hcb, hS.nulls⟩

/-- Deletions leave some of the keys. -/
theorem alone_keys {P : Collector} (hN : ∀ f ∈ P.refs, f.on = .setNull → f.col ≠ P.pk f.table) (t : TableName) : ∀ {ss : List Stmt} {rows : TableName → List Row}, (∀ s ∈ ss, Removal P s) →
    ((aloneAll ss rows t).map fun r => r (P.pk t)).Sublist ((rows t).map fun r => r (P.pk t))
  | [], _, _ => List.Sublist.refl _
  | s :: ss, rows, h => by
    refine (alone_keys hN t (ss := ss) fun s' hs' => h s' (List.mem_cons_of_mem _ hs')).trans ?_
    rcases h s (List.mem_cons_self ..) with ⟨t0, w, rfl⟩ | ⟨f, hf, hn, w, rfl⟩
    · rw [alone_delete]
      split
      · exact List.filter_sublist.map _
      · exact List.Sublist.refl _
    · rw [alone_update]
      split
      · rename_i e
        have hne := hN f hf hn
        rw [← e] at hne
        rw [List.map_map, List.map_congr_left (g := fun r : Row => r (P.pk t))]
        · exact List.Sublist.refl _
        · intro r _
          simp only [Function.comp]
          split
          · simp [Row.set, Ne.symm hne]
          · rfl
      · exact List.Sublist.refl _

theorem keys_agree {K : Col → Prop} {c : Col} (hc : ¬ K c) {l l' : List Row} (h : Pw (Row.Agrees K) l l') : (l'.map fun r => r c) = l.map fun r => r c := by
  induction h with
  | nil => rfl
  | cons h _ ih => simp only [List.map_cons, ih, h c hc]

/-- Keys stay unique when objects are deleted. -/
theorem unique_delete {P : Collector} (hS : P.Suits A D cbs S) (hu : KeysUnique A db) {n : Nat} {t : TableName} {keys : List Val} (h : A.engine.deleteObjects P n t keys db = .ok x) :
    KeysUnique A x := by
  obtain ⟨G, hc, hr⟩ := deleteObjects_ok h
  have hG := (collected hc).1
  intro om hom
  have hF : P.Fits A.engine { model := om.model, field := "", own := [], deps := [], fn := fun _ _ => .null } :=
    ⟨hS.order, fun p hp => by rw [List.mem_singleton.1 hp]; exact hS.models om hom, hS.keys, hS.cols, by simp, hS.nulls⟩
  have hp := runs_plain (K := Managed A.engine) (fun _ _ h => h) (blind_stmts hF hG) (fun t => Pw.refl (fun r => Row.Agrees.refl r) _) (runAll_runs hr) om.model.table
  have hk : ((x.rows om.model.table).map fun r => r om.model.pk).Sublist ((db.rows om.model.table).map fun r => r om.model.pk) := by
    rw [← hS.models om hom, keys_agree (hS.keys _) hp]
    exact alone_keys hS.nulls _ (removal_stmts hG)
  refine ⟨hk.nodup (hu om hom).1, fun r hr h0 => ?_⟩
  obtain ⟨r0, hr0, e⟩ := List.mem_map.1 (hk.subset (List.mem_map.2 ⟨r, hr, rfl⟩))
  exact (hu om hom).2 r0 hr0 (e.trans h0)

/-- delete() keeps the database in order. -/
theorem RankedProject.inOrder_delete (hP : RankedProject A.engine.backend A.models D cbs S rank L) (hE : Installed A.engine D) (hI : InOrder A D cbs S db) {P : Collector}
    (hS : P.Suits A D cbs S) {n : Nat} {t : TableName} {keys : List Val} (h : A.engine.deleteObjects P n t keys db = .ok x) : InOrder A D cbs S x := by
  have hd : A.engine.deletions P n [(t, keys)] db = x := by simp only [Engine.deletions, h]
  have hN : NoReentry A.engine := noReentry_of_tables hE hP.this hP.acyclic hP.clear
  obtain ⟨G, hc, hr⟩ := deleteObjects_ok h
  have hR := removal_stmts (collected hc).1
  have hg : ∀ cb ∈ cbs, KeysOk cb x ∧ ∀ r ∈ x.rows cb.model.table, Marked cb.model x r ∨ r cb.field = cb.value x r := fun cb hcb => by
    obtain ⟨om, hF⟩ := hP.flushable hE hcb db
    have := deletions_legal (fuel := n) hE hF.declared hN (hS.fits hcb) (hS.sorted cb hcb) (hS.links cb hcb) (freshTracked cb) [(t, keys)] db (hI.keys cb hcb)
      fun r hr => (hI.marked cb hcb r hr).symm
    rw [hd] at this
    exact this
  refine ⟨unique_delete hS hI.unique h, known_runAll hP hE hI.known hr, fun cb hcb => (hg cb hcb).1, fun cb hcb r hr => ((hg cb hcb).2 r hr).symm, fun a ha hca => ?_, fun a ha f hf => ?_⟩
  · have := deletions_agg (fuel := n) hE (hP.counts a ha).1 hN (count_closed (hP.counts a ha).1 hca) (by simp) (hS.spares a ha) (fun f hf hn hm => by
      simp only [List.mem_singleton, Prod.mk.injEq] at hm
      exact (hS.spares a ha f hf hn hm.1).2 hm.2) [(t, keys)] db (aggOk_ints (hI.counts a ha hca)) (hI.counts a ha hca)
    rw [hd] at this
    exact this
  · exact removals_agg hE (hP.counts a ha).1 hN hP.closed (hP.sums a ha f hf).1 (hS.spares a ha) hS.ints hR hr (hI.sums a ha f hf).2 (hI.sums a ha f hf).1

theorem chain_cts {E : Engine} {C : Nat → Prop} (hE : ∀ tr ∈ E.triggers, ∀ a ∈ tr.actions, ∀ ct, a.markCt = some ct → C ct) {fs : List ForeignRef} {fuel : Nat} :
    ∀ (n : Nat) (T : List Todo) (db db' : Db), E.chain fs fuel n T db = .ok db' → ∀ m ∈ db'.dirty, m ∈ db.dirty ∨ C m.ct
  | _, [], db, db', h, m, hm => by
    simp only [Engine.chain, Except.ok.injEq] at h
    subst h; exact .inl hm
  | 0, _ :: _, _, _, h, _, _ => by simp [Engine.chain] at h
  | n + 1, .rows t ops :: T, db, db', h, m, hm => by
    simp only [Engine.chain] at h
    have := chain_cts hE n _ _ db' h m hm
    rwa [(applyOps_withDirty t ops db db.dirty).2] at this
  | n + 1, .refer f o :: T, db, db', h, m, hm => by
    simp only [Engine.chain] at h
    exact chain_cts hE n _ _ db' h m hm
  | n + 1, .fire ch :: T, db, db', h, m, hm => by
    simp only [Engine.chain] at h
    cases hd : E.drain fuel (E.fired .top ch) db with
    | error e => rw [hd] at h; cases h
    | ok d =>
      rw [hd] at h
      rcases chain_cts hE n _ _ db' h m hm with h1 | h1
      · refine drain_cts hE fuel _ db d (fun fr ch' a ha => ?_) hd m h1
        obtain ⟨tr, htr, _, a', ha', e⟩ := mem_fired.1 ha
        simp only [Item.act.injEq] at e
        rw [e.2.2]
        exact hE tr htr a' ha'
      · exact .inr h1

/-- The operation deletes a row, or keeps the key `c` of the row it writes. -/
def RowOp.Spares (c : Col) : RowOp → Prop
  | .ins _ => False
  | .upd _ σ => ∀ x r, σ x r c = r c
  | .del _ => True

theorem map_set_same {c : Col} : ∀ {l : List Row} {i : Nat} {old new : Row}, l[i]? = some old → new c = old c → ((l.set i new).map fun r => r c) = l.map fun r => r c
  | [], _, _, _, h, _ => by simp at h
  | x :: l, 0, old, new, h, e => by
    simp only [List.getElem?_cons_zero, Option.some.injEq] at h
    simp [h, e]
  | x :: l, i + 1, old, new, h, e => by
    simp only [List.getElem?_cons_succ] at h
    simp [map_set_same h e]

theorem applyOps_keys {E : Engine} {t u : TableName} {c : Col} : ∀ {ops : List RowOp} {db : Db}, (t = u → ∀ op ∈ ops, op.Spares c) →
    (((applyOps E t ops db).1.rows u).map fun r => r c).Sublist ((db.rows u).map fun r => r c)
  | [], _, _ => List.Sublist.refl _
  | op :: ops, db, h => by
    simp only [applyOps]
    refine (applyOps_keys fun e o ho => h e o (List.mem_cons_of_mem _ ho)).trans ?_
    by_cases ht : t = u
    · have ho := h ht op (List.mem_cons_self ..)
      subst ht
      cases op with
      | ins r => exact ho.elim
      | upd i σ =>
        simp only [applyOp]
        cases hr : (db.rows t)[i]? with
        | none => exact List.Sublist.refl _
        | some old =>
          simp only [Db.setRows, if_true]
          rw [map_set_same hr (ho _ _)]
          exact List.Sublist.refl _
      | del w =>
        simp only [applyOp]
        cases hr : (db.rows t).find? w with
        | none => exact List.Sublist.refl _
        | some old =>
          simp only [Db.setRows, if_true]
          exact List.eraseP_sublist.map _
    · have : (applyOp E t op db).1.rows u = db.rows u := by
        have hu : u ≠ t := fun e => ht e.symm
        cases op with
        | ins r => simp [applyOp, Db.setRows, hu]
        | upd i σ =>
          simp only [applyOp]
          cases (db.rows t)[i]? <;> simp [Db.setRows, hu]
        | del w =>
          simp only [applyOp]
          cases (db.rows t).find? w <;> simp [Db.setRows, hu]
      rw [this]
      exact List.Sublist.refl _

/-- Foreign keys of the database leave some of the keys. -/
theorem chain_keys {E : Engine} {u : TableName} {c : Col} (hc : ¬ Managed E u c) {fs : List ForeignRef} (hf : ∀ f ∈ fs, f.action = .setNull → f.table = u → f.col ≠ c) {fuel : Nat} :
    ∀ (n : Nat) (T : List Todo) (db db' : Db), E.chain fs fuel n T db = .ok db' → (∀ td ∈ T, TodoOk (fun t op => t = u → op.Spares c) fs td) →
      ((db'.rows u).map fun r => r c).Sublist ((db.rows u).map fun r => r c)
  | _, [], db, db', h, _ => by
    simp only [Engine.chain, Except.ok.injEq] at h
    subst h; exact List.Sublist.refl _
  | 0, _ :: _, _, _, h, _ => by simp [Engine.chain] at h
  | n + 1, .rows t ops :: T, db, db', h, hT => by
    simp only [Engine.chain] at h
    have ho := hT _ (List.mem_cons_self ..)
    refine (chain_keys hc hf n _ _ db' h fun td htd => ?_).trans (applyOps_keys fun e op hop => ho op hop e)
    rcases List.mem_append.1 htd with h1 | h1
    · obtain ⟨ch, _, h2⟩ := List.mem_flatMap.1 h1
      exact todoOk_follow h2
    · exact hT td (List.mem_cons_of_mem _ h1)
  | n + 1, .refer f o :: T, db, db', h, hT => by
    simp only [Engine.chain] at h
    have hff : f ∈ fs := hT _ (List.mem_cons_self ..)
    refine chain_keys hc hf n _ _ db' h fun td htd => ?_
    rcases List.mem_append.1 htd with h1 | h1
    · refine todoOk_todos (fun op ho e => ?_) h1
      rcases mem_refOps ho with ⟨_, rfl⟩ | ⟨ha, i, rfl⟩
      · trivial
      · intro x r
        exact Row.set_away (hf f hff ha e).symm
    · exact hT td (List.mem_cons_of_mem _ h1)
  | n + 1, .fire ch :: T, db, db', h, hT => by
    simp only [Engine.chain] at h
    cases hd : E.drain fuel (E.fired .top ch) db with
    | error e => rw [hd] at h; cases h
    | ok d =>
      rw [hd] at h
      have hp := drain_plain (E := E) (K := Managed E) (fun _ _ h => h) (t := u) fuel (T := E.fired .top ch) (U := []) (rows := db.rows) (within_all_fired fun _ _ h => h) .nil
        (fun t' => Pw.refl (fun r => Row.Agrees.refl r) _) (by rw [List.append_nil]; exact hd) u
      have := chain_keys hc hf n _ _ db' h fun td htd => hT td (List.mem_cons_of_mem _ htd)
      rw [keys_agree hc hp] at this
      simpa [putRows, plainOps] using this

/-- What the foreign keys of the database delete and clear keeps it in order. -/
theorem RankedProject.inOrder_cascade (hP : RankedProject A.engine.backend A.models D cbs S rank L) (hE : Installed A.engine D) (hI : InOrder A D cbs S db) (hb : A.engine.backend ≠ .mysql)
    {fs : List ForeignRef} (hS : RefsSuit A D cbs S fs) {n : Nat} {t : TableName} {w : Row → Bool}
    (hL : ∀ cb ∈ cbs, ∀ dp ∈ cb.deps, dp.dep.other.table = t → dp.dep.m2mTable = none)
    (h : A.engine.execRefs fs n (.delete t w) db = .ok x) : InOrder A D cbs S x := by
  have hu : KeysUnique A x := fun om hom => by
    have h' := h
    rw [Engine.execRefs_delete hb] at h'
    have hk := chain_keys (u := om.model.table) (c := om.model.pk) (fun hm => hP.keys om hom (let ⟨dn, hdn, e1, e2, _⟩ := managed_maintained hE hP.this hm; ⟨dn, hdn, e1, e2⟩)) (hS.keys om hom) _ _ _ _ h' fun td htd =>
      todoOk_todos (fun op ho _ => by rw [mem_deleteOps ho]; trivial) htd
    refine ⟨hk.nodup (hI.unique om hom).1, fun r hr h0 => ?_⟩
    obtain ⟨r0, hr0, e⟩ := List.mem_map.1 (hk.subset (List.mem_map.2 ⟨r, hr, rfl⟩))
    exact (hI.unique om hom).2 r0 hr0 (e.trans h0)
  have hN : NoReentry A.engine := noReentry_of_tables hE hP.this hP.acyclic hP.clear
  have hg : ∀ cb ∈ cbs, KeysOk cb x ∧ ∀ r ∈ x.rows cb.model.table, Marked cb.model x r ∨ r cb.field = cb.value x r := fun cb hcb => by
    obtain ⟨om, hF⟩ := hP.flushable hE hcb db
    exact track_execRefs hb (tracks_of_installed hE hF.declared) hN (freshTracked cb) (hS.fields cb hcb) h
      ⟨fun dp hdp e hne => absurd (hL cb hcb dp hdp e) hne, fun t' w' e => by cases e; exact hL cb hcb⟩ (hI.keys cb hcb) fun r hr => (hI.marked cb hcb r hr).symm
  have hpr := hP.project hE
  refine ⟨hu, fun m hm => ?_, fun cb hcb => (hg cb hcb).1, fun cb hcb r hr => ((hg cb hcb).2 r hr).symm, fun a ha hca => ?_, fun a ha f hf => ?_⟩
  · rw [Engine.execRefs_delete hb] at h
    rcases chain_cts (C := fun ct => ∃ om ∈ A.models, om.model.ct = ct) (fun tr htr a ha ct hct => by
      obtain ⟨dn, hdn, e⟩ := mark_cts hpr.installed hpr.this htr ha hct
      obtain ⟨om, hom, e'⟩ := hpr.known dn hdn
      exact ⟨om, hom, by rw [e', e]⟩) _ _ _ _ h m hm with h1 | h1
    · exact hI.known m h1
    · exact h1
  · have hr : AggRefsOk a [(a.model.table, a.fieldname)] fs := by
      intro f hf hn
      refine ⟨fun hm => ?_, (hS.aggs a ha f hf hn).2⟩
      simp only [List.mem_singleton, Prod.mk.injEq] at hm
      exact ((hS.aggs a ha f hf hn).2 hm.1).2 hm.2
    exact (agg_execRefs (s := .delete t w) (db := db) hb hE (hP.counts a ha).1 hN (count_closed (hP.counts a ha).1 hca) (by simp) hr trivial (aggOk_ints (hI.counts a ha hca)) (hI.counts a ha hca) h).1
  · exact agg_execRefs (s := .delete t w) (db := db) hb hE (hP.counts a ha).1 hN hP.closed (hP.sums a ha f hf).1 (hS.aggs a ha) trivial (hI.sums a ha f hf).2 (hI.sums a ha f hf).1 h

theorem known_ops (hP : Project A D) {n : Nat} {t : TableName} {ops : List RowOp} (h : A.engine.drain n (writes A.engine.backend .top t ops) db = .ok x) (hm : MarksKnown A db) :
    MarksKnown A x := by
  intro m hm'
  rcases drain_cts (C := fun ct => ∃ om ∈ A.models, om.model.ct = ct) (fun tr htr a ha ct hct => by
    obtain ⟨dn, hdn, e⟩ := mark_cts hP.installed hP.this htr ha hct
    obtain ⟨om, hom, e'⟩ := hP.known dn hdn
    exact ⟨om, hom, by rw [e', e]⟩) n _ _ _ (fun fr ch a ha => by
      obtain ⟨l, e, _⟩ := mem_writes ha
      simp at e) h m hm' with h1 | h1
  · exact hm m h1
  · exact h1

/-- Upserts keep the database in order. -/
theorem RankedProject.inOrder_write (hP : RankedProject A.engine.backend A.models D cbs S rank L) (hE : Installed A.engine D) (hI : InOrder A D cbs S db) {w : DbWrite}
    (hS : WriteSuits A D cbs S w db) {n : Nat} (h : A.engine.write n db w = .ok x) (hu : KeysUnique A x) : InOrder A D cbs S x := by
  have hN : NoReentry A.engine := noReentry_of_tables hE hP.this hP.acyclic hP.clear
  have hg : ∀ cb ∈ cbs, KeysOk cb x ∧ ∀ r ∈ x.rows cb.model.table, Marked cb.model x r ∨ r cb.field = cb.value x r := fun cb hcb => by
    obtain ⟨om, hF⟩ := hP.flushable hE hcb db
    exact track_write (tracks_of_installed hE hF.declared) hN (freshTracked cb) h (hS.fields cb hcb) (hI.keys cb hcb) fun r hr => (hI.marked cb hcb r hr).symm
  refine ⟨hu, ?_, fun cb hcb => (hg cb hcb).1, fun cb hcb r hr => ((hg cb hcb).2 r hr).symm, fun a ha hca => ?_, fun a ha f hf => ?_⟩
  · cases w with
    | stmt s => exact exec_known (hP.project hE) h hI.known
    | upsert t us oc rs => exact known_ops (hP.project hE) h hI.known
    | replace t us rs =>
      simp only [Engine.write] at h
      rw [Engine.replace_loud (hS.loud _ _ _ rfl)] at h
      exact known_ops (hP.project hE) h hI.known
  · exact (agg_write hE (hP.counts a ha).1 hN (count_closed (hP.counts a ha).1 hca) (by simp) (parts_imp (fun _ => countLegal_agg) (hS.counts a ha hca)) (hS.simple a ha)
      (aggOk_ints (hI.counts a ha hca)) (hI.counts a ha hca) h).1
  · exact agg_write hE (hP.counts a ha).1 hN hP.closed (hP.sums a ha f hf).1 (hS.sums a ha f hf) (hS.simple a ha) (hI.sums a ha f hf).2 (hI.sums a ha f hf).1 h

theorem inOrder_crashes (hP : RankedProject A.engine.backend A.models D cbs S rank L) (hE : Installed A.engine D) (hI : InOrder A D cbs S db) (h : CrashHistory A D cbs S db db') :
    InOrder A D cbs S db' := by
  induction h with
  | start => exact hI
  | program _ hL ih => exact hP.inOrder_calls hE ih hL
  | script _ hL hs ih => exact C96_script_inOrder hP hE ih hL hs
  | marks _ hm ih =>
    exact ⟨ih.unique, fun m h => (List.mem_append.1 h).elim (ih.known m) (hm m), ih.keys, fun cb hcb r hr => (ih.marked cb hcb r hr).imp id fun h => List.mem_append_left _ h, ih.counts, ih.sums⟩
  | delete _ hS h ih => exact hP.inOrder_delete hE ih hS h
  | cascade _ hb hS hL h ih => exact hP.inOrder_cascade hE ih hb hS hL h
  | write _ hS h hu ih => exact hP.inOrder_write hE ih hS h hu
  | @crash d x n _ hx ih =>
    have := RankedProject.inOrder_visits (A := A.limit n) (ranked_limit hP n) hE ⟨ih.unique, ih.known, ih.keys, ih.marked, ih.counts, ih.sums⟩ hx
    exact ⟨this.unique, this.known, this.keys, this.marked, this.counts, this.sums⟩
  | @mishap d H n k _ ht ih =>
    have := RankedProject.inOrder_flushWith (A := A.limit n) (ranked_limit hP n) hE ht ⟨ih.unique, ih.known, ih.keys, ih.marked, ih.counts, ih.sums⟩ k
    exact ⟨this.unique, this.known, this.keys, this.marked, this.counts, this.sums⟩

/-- C20 for projects as in C85, for whole histories: programs run, with `atomic()` blocks and exceptions, objects are deleted, by Django or by the database with all that refers to them, upserts are executed, rebuildall() adds markers, and flush() is called, dies at any moment, and is called again. At the end every `@denormalized` field is right or
its instance marked and every aggregate is right (`InOrder`), and running flush() again completes the work: it returns, after `L + 1` passes at most, and everything is right. -/
theorem C20_history_partial (hP : RankedProject A.engine.backend A.models D cbs S rank L) (hE : Installed A.engine D) (hp : ∀ l, (A.arrange l).Perm l) (hI : InOrder A D cbs S db)
    (h : CrashHistory A D cbs S db db') :
    InOrder A D cbs S db' ∧ ∃ e N, (∀ m, N ≤ m → (A.limit m).flush (L + 1) db' = .ok (some e)) ∧ AllRight D cbs e := by
  have hd := inOrder_crashes hP hE hI h
  obtain ⟨e, N, h1, h2, _⟩ := C85_program hP hE hp hd (cs := []) ⟨fun _ _ => trivial, fun _ _ _ => trivial, fun _ _ _ _ => trivial, hd.unique⟩
  exact ⟨hd, e, N, h1, h2⟩

/-- The state in which flush() returns is one of those that exist while it runs. -/
theorem visits_end : ∀ (n : Nat) {db : Db}, A.flush n db = .ok (some db') → A.Visits db db'
  | 0, db, h => by
    simp only [App.flush] at h
    split at h
    · cases h; exact .inPass (.now _ _)
    · cases h
  | n + 1, db, h => by
    simp only [App.flush] at h
    split at h
    · cases h; exact .inPass (.now _ _)
    · cases h1 : A.pass db with
      | error e => rw [h1] at h; cases h
      | ok d =>
        rw [h1] at h
        exact .next ‹_› h1 (visits_end n h)

/-- C20 is violated where C45 is: a field is computed from one that is declared after it. Its instance is marked before flush(); there is a moment at which it is out of date and no longer
marked, and running flush() again, however often, changes nothing. -/
theorem C20_violated (b : Backend) : ∃ (A : App) (D : List Denorm) (cb : Callback) (db x : Db), Ready b A D cb db ∧ A.Visits db x ∧
    (∃ r ∈ x.rows cb.model.table, r cb.field ≠ cb.value x r ∧ ¬ Marked cb.model x r) ∧ ∀ n, A.flush n x = .ok (some x) := by
  obtain ⟨A, D, _, cb, db, x, _, hR, _, _, _, _, h, r, hr, hne⟩ := C45_violated_by_order b
  have hc := flush_clean _ h
  refine ⟨A, D, cb, db, x, hR, visits_end 1 h, ⟨r, hr, hne, fun hm => ?_⟩, fun n => ?_⟩
  · unfold Marked at hm
    rw [hc] at hm
    cases hm
  · cases n <;> simp [App.flush, hc]

end

namespace Cart
set_option maxRecDepth 100000

/-- The database is filled; flush() dies after it has saved the first item, before it has deleted the marker: the amount of the other item is still out of date (its price is 20). -/
example (b : Backend) : ∃ x, CrashHistory (app b) decls [amount] S emptyDb x ∧ ((x.rows "item").map (fun r => r "amount") = [.int 6, .int 10] ∧ x.dirty ≠ []) := by
  have h : (match ((app b).limit 100).snapshot ((app b).calls program emptyDb) with
      | m :: _ => match ((app b).limit 100).saveObject m ((app b).calls program emptyDb) with
        | .ok x => decide ((x.rows "item").map (fun r => r "amount") = [.int 6, .int 10] ∧ x.dirty ≠ [])
        | .error _ => false
      | [] => false) = true := by cases b <;> decide +kernel
  cases hs : ((app b).limit 100).snapshot ((app b).calls program emptyDb) with
  | nil => rw [hs] at h; cases h
  | cons m ms =>
    rw [hs] at h
    simp only at h
    cases hx : ((app b).limit 100).saveObject m ((app b).calls program emptyDb) with
    | error e => rw [hx] at h; cases h
    | ok x =>
      rw [hx] at h
      exact ⟨x, .crash (.program .start (cart_legal b)) (.inPass (by rw [hs]; exact .saved hx)), of_decide_eq_true h⟩

/-- `C20_history_partial` applies to all histories of this project. -/
example (b : Backend) {db' : Db} (h : CrashHistory (app b) decls [amount] S emptyDb db') :
    ∃ e N, (∀ m, N ≤ m → ((app b).limit m).flush 4 db' = .ok (some e)) ∧ AllRight decls [amount] e :=
  (C20_history_partial (A := app b) (works b) (installed b) (fun l => List.Perm.refl l) (inOrder_empty b) h).2

end Cart
end Denorm
