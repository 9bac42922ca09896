import Verif.Lemmas.AggInv
import Verif.Spec.Range
/-!
# The order in which an aggregate is counted up and down
-/
namespace Denorm

/-- Whenever `y` occurs in the list, `x` occurred before. -/
def Before {α : Type _} (x y : α) (l : List α) : Prop := ∀ P Q, l = P ++ y :: Q → x ∈ P

theorem before_of_notMem {α : Type _} {x y : α} {l : List α} (h : y ∉ l) : Before x y l := by
  intro P Q he
  exact absurd (by rw [he]; simp) h

theorem Before.append {α : Type _} {x y : α} {l l' : List α} (h : Before x y l) (h' : Before x y l') : Before x y (l ++ l') := by
  intro P Q he
  rcases List.append_eq_append_iff.1 he with ⟨as, h1, h2⟩ | ⟨bs, h1, h2⟩
  · rw [h1]
    exact List.mem_append.2 (.inr (h' as Q h2))
  · cases bs with
    | nil =>
      simp only [List.append_nil] at h1
      simp only [List.nil_append] at h2
      exact absurd (h' [] Q h2.symm) (by simp)
    | cons b bs =>
      simp only [List.cons_append, List.cons.injEq] at h2
      obtain ⟨rfl, rfl⟩ := h2
      exact h P bs h1

theorem before_flatMap {α β : Type _} {x y : β} {f : α → List β} : ∀ {l : List α}, (∀ a ∈ l, Before x y (f a)) → Before x y (l.flatMap f)
  | [], _ => before_of_notMem (by simp)
  | a :: l, h => by
    rw [List.flatMap_cons]
    exact (h a (List.mem_cons_self ..)).append (before_flatMap fun b hb => h b (List.mem_cons_of_mem _ hb))

theorem before_dedupFrom {α : Type _} [DecidableEq α] {x y : α} : ∀ {l seen : List α} , (∀ P Q, l = P ++ y :: Q → x ∈ P ∨ x ∈ seen ∨ y ∈ seen) →
    ∀ P Q, dedupFrom seen l = P ++ y :: Q → x ∈ P ∨ x ∈ seen
  | [], seen, _, P, Q, h => by simp [dedupFrom] at h
  | b :: l, seen, hb, P, Q, h => by
    simp only [dedupFrom] at h
    split at h
    · rename_i hs
      refine before_dedupFrom (l := l) (seen := seen) ?_ P Q h
      intro P' Q' he
      rcases hb (b :: P') Q' (by simp [he]) with h1 | h1
      · rcases List.mem_cons.1 h1 with rfl | h1
        · exact .inr (.inl hs)
        · exact .inl h1
      · exact .inr h1
    · rename_i hs
      cases P with
      | nil =>
        simp only [List.nil_append, List.cons.injEq] at h
        obtain ⟨rfl, _⟩ := h
        rcases hb [] l (by simp) with h1 | h1 | h1
        · simp at h1
        · exact .inr h1
        · exact absurd h1 hs
      | cons p P =>
        simp only [List.cons_append, List.cons.injEq] at h
        obtain ⟨rfl, h⟩ := h
        have := before_dedupFrom (l := l) (seen := b :: seen) (x := x) (y := y) ?_ P Q h
        · rcases this with h1 | h1
          · exact .inl (List.mem_cons_of_mem _ h1)
          · rcases List.mem_cons.1 h1 with rfl | h1
            · exact .inl (List.mem_cons_self ..)
            · exact .inr h1
        · intro P' Q' he
          rcases hb (b :: P') Q' (by simp [he]) with h1 | h1 | h1
          · rcases List.mem_cons.1 h1 with rfl | h1
            · exact .inr (.inl (List.mem_cons_self ..))
            · exact .inl h1
          · exact .inr (.inl (List.mem_cons_of_mem _ h1))
          · exact .inr (.inr (List.mem_cons_of_mem _ h1))

theorem Before.dedup {α : Type _} [DecidableEq α] {x y : α} {l : List α} (h : Before x y l) : Before x y (dedup l) := by
  intro P Q he
  have := before_dedupFrom (l := l) (seen := []) (x := x) (y := y) (fun P Q e => .inl (h P Q e)) P Q he
  simpa using this

/-- Every entry of a trigger set holds the actions of the generated triggers of its name, in their order. -/
def ActionsOf (b : Backend) (gs : List PyTrigger) (ts : TriggerSet) : Prop :=
  (∀ p ∈ ts, p.2.actions = (gs.filter fun g => g.name b == p.1).flatMap (·.actions)) ∧ (∀ g ∈ gs, g.name b ∈ ts.map (·.1)) ∧
    (ts.map (·.1)).Nodup

theorem ActionsOf.add {b : Backend} {gs : List PyTrigger} {ts : TriggerSet} (h : ActionsOf b gs ts) (t : PyTrigger) :
    ActionsOf b (gs ++ [t]) (TriggerSet.add b ts t) := by
  obtain ⟨h0, hn, hnd⟩ := h
  have keep : ∀ p ∈ ts, p.1 ≠ t.name b → p.2.actions = ((gs ++ [t]).filter fun g => g.name b == p.1).flatMap (·.actions) := by
    intro p hp hne
    rw [h0 p hp]
    simp [List.filter_append, Ne.symm hne]
  rcases TriggerSet.add_cases b t ts with ⟨h1, h2⟩ | ⟨l1, t0, l2, h1, h2, h3⟩
  · rw [h2]
    refine ⟨?_, ?_, ?_⟩
    · intro p hp
      rcases List.mem_append.1 hp with hp | hp
      · exact keep p hp fun he => h1 (he ▸ List.mem_map_of_mem hp)
      · rw [List.mem_singleton] at hp
        subst hp
        have : gs.filter (fun g => g.name b == t.name b) = [] := by
          rw [List.filter_eq_nil_iff]
          intro g hg he
          simp only [beq_iff_eq] at he
          exact h1 (he ▸ hn g hg)
        simp [List.filter_append, this]
    · intro g hg
      rw [List.map_append, List.mem_append]
      rcases List.mem_append.1 hg with hg | hg
      · exact .inl (hn g hg)
      · rw [List.mem_singleton] at hg
        subst hg; right; simp
    · rw [List.map_append, List.nodup_append]
      refine ⟨hnd, by simp, ?_⟩
      intro x hx y hy
      simp only [List.map_cons, List.map_nil, List.mem_singleton] at hy
      rintro rfl
      exact h1 (hy ▸ hx)
  · have hmap : (TriggerSet.add b ts t).map (·.1) = ts.map (·.1) := by rw [h3, h1]; simp
    have hother : ∀ p ∈ l1 ++ l2, p.1 ≠ t.name b := by
      intro p hp he
      rw [h1] at hnd
      simp only [List.map_append, List.map_cons] at hnd
      rw [List.nodup_append] at hnd
      obtain ⟨_, n2, n3⟩ := hnd
      rcases List.mem_append.1 hp with hp | hp
      · exact n3 p.1 (List.mem_map_of_mem hp) (t.name b) (List.mem_cons_self ..) he
      · exact (List.nodup_cons.1 n2).1 (he ▸ List.mem_map_of_mem hp)
    refine ⟨?_, ?_, by rw [hmap]; exact hnd⟩
    · intro p hp
      rw [h3] at hp
      simp only [List.mem_append, List.mem_cons] at hp
      rcases hp with hp | rfl | hp
      · exact keep p (by rw [h1]; simp [hp]) (hother p (by simp [hp]))
      · have := h0 (t.name b, t0) (by rw [h1]; simp)
        simp only at this ⊢
        rw [this]
        simp [List.filter_append]
      · exact keep p (by rw [h1]; simp [hp]) (hother p (by simp [hp]))
    · intro g hg
      rw [hmap]
      rcases List.mem_append.1 hg with hg | hg
      · exact hn g hg
      · rw [List.mem_singleton] at hg
        subst hg
        exact List.mem_map.2 ⟨(g.name b, t0), by rw [h1]; simp, rfl⟩

theorem actionsOf_append (b : Backend) (gs' : List PyTrigger) : ∀ (gs : List PyTrigger) (ts : TriggerSet),
    ActionsOf b gs ts → ActionsOf b (gs ++ gs') (TriggerSet.append b ts gs') := by
  induction gs' with
  | nil => intro gs ts h; simpa [TriggerSet.append] using h
  | cons g gs' ih =>
    intro gs ts h
    have := ih _ _ (h.add g)
    simpa [TriggerSet.append] using this

/-- An installed trigger runs the actions of all declared triggers of its name, in the order of declaration, each once. -/
theorem installed_actions_eq {b : Backend} {D : List Denorm} {tr : DbTrigger} (h : tr ∈ installedTriggers b D) :
    tr.actions = dedup (((generated D).filter fun g => g.name b == tr.name).flatMap (·.actions)) := by
  obtain ⟨p, hp, rfl⟩ := List.mem_map.1 h
  have hA : ActionsOf b (generated D) (buildTriggerset b D) := by
    rw [buildTriggerset_eq]
    simpa using actionsOf_append b (generated D) [] [] ⟨by simp, by simp, by simp⟩
  simp only [PyTrigger.compile]
  rw [hA.1 p hp]

/-- For updates an aggregate is counted up before it is counted down. -/
theorem agg_before {E : Engine} {D : List Denorm} {a : AggDenorm} (hE : Installed E D) (hD : AggDeclared E.backend D a) {tr : DbTrigger}
    (htr : tr ∈ E.triggers) (hev : tr.event = .update) : Before a.increment a.decrement tr.actions := by
  have hI : tr ∈ installedTriggers E.backend D := hE ▸ htr
  rw [installed_actions_eq hI]
  refine Before.dedup (before_flatMap fun g hg => ?_)
  obtain ⟨hg, hn⟩ := List.mem_filter.1 hg
  simp only [beq_iff_eq] at hn
  by_cases hdec : a.decrement ∈ g.actions
  · obtain ⟨ev, rfl⟩ := AggDenorm.mem_triggers.1 (agg_from hD (.inr rfl) g hg hdec)
    obtain ⟨tr2, htr2, _, k2, _, _, _, k6⟩ := agg_installed hE hD ev
    have := installed_unique hI (hE ▸ htr2) (hn.symm.trans k6.symm)
    subst this
    have : ev = .update := k2.symm.trans hev
    subst this
    intro P Q he
    simp only [AggDenorm.trigger, mkTrigger] at he
    cases P with
    | nil => simp only [List.nil_append, List.cons.injEq] at he; exact absurd he.1 a.incr_ne_decr
    | cons p P =>
      simp only [List.cons_append, List.cons.injEq] at he
      rw [he.1]; exact List.mem_cons_self ..
  · exact before_of_notMem hdec

theorem nonNeg_of_count {a : AggDenorm} (hc : a.agg = .count) (o : Row) : a.NonNeg o := by
  intro f hf
  rw [hc] at hf
  cases hf

theorem nonNegLegal_of_count {a : AggDenorm} (hc : a.agg = .count) (s : Stmt) : NonNegLegal a s := by
  cases s with
  | insert t rs => exact fun _ r _ => nonNeg_of_count hc r
  | update t w σ => exact fun _ x r _ => nonNeg_of_count hc _
  | delete t w => trivial

theorem share_nonneg {a : AggDenorm} {o : Row} (h : a.NonNeg o) (k : Val) : 0 ≤ a.share k o := by
  unfold AggDenorm.share AggDenorm.amount
  split
  · split
    · simp
    · rename_i hf
      exact h _ hf
  · simp

theorem sum_nonneg : ∀ {l : List Int}, (∀ x ∈ l, 0 ≤ x) → 0 ≤ l.sum
  | [], _ => by simp
  | x :: l, h => by
    have h1 := h x (List.mem_cons_self ..)
    have h2 := sum_nonneg fun y hy => h y (List.mem_cons_of_mem _ hy)
    simp only [List.sum_cons]
    omega

theorem total_nonneg {a : AggDenorm} {db : Db} (h : ∀ o ∈ db.rows a.related.table, a.NonNeg o) (k : Val) : 0 ≤ a.total db k := by
  rw [total_eq]
  refine sum_nonneg fun x hx => ?_
  obtain ⟨o, ho, rfl⟩ := List.mem_map.1 hx
  exact share_nonneg (h o ho) k

/-- The row write keeps negative numbers out of the summed column. -/
def OpNonNeg (a : AggDenorm) : RowOp → Prop
  | .ins r => a.NonNeg r
  | .upd _ σ => ∀ x r, a.NonNeg r → a.NonNeg (σ x r)
  | .del _ => True

theorem applyOp_nonneg {E : Engine} {a : AggDenorm} {t : TableName} {op : RowOp} {db : Db} (h : ∀ o ∈ db.rows a.related.table, a.NonNeg o)
    (hop : t = a.related.table → OpNonNeg a op) : (∀ o ∈ (applyOp E t op db).1.rows a.related.table, a.NonNeg o) ∧
      ∀ ch ∈ (applyOp E t op db).2, ch.table = a.related.table → a.NonNeg ch.new ∧ a.NonNeg ch.old := by
  by_cases ht : t = a.related.table
  · have hop := hop ht
    obtain ⟨x, hx, hch, hu, hi, hd⟩ := applyOp_effect E t op db
    rw [hch]
    rw [← ht] at h ⊢
    generalize (applyOp E t op db).1.rows t = rows' at hx
    cases hx with
    | none => exact ⟨h, by simp [effectChange]⟩
    | ins r =>
      have := hi _ _ rfl
      subst this
      refine ⟨fun o ho => ?_, fun ch hch => ?_⟩
      · rcases List.mem_append.1 ho with ho | ho
        · exact h o ho
        · simp only [List.mem_singleton] at ho
          exact ho ▸ hop
      · simp only [effectChange, List.mem_singleton] at hch
        subst hch
        exact fun _ => ⟨hop, hop⟩
    | upd l1 l2 old new he =>
      obtain ⟨i, σ, rfl, rfl⟩ := hu _ _ rfl
      have hold : a.NonNeg old := h old (by rw [he]; simp)
      have hnew := hop (E.rand db.draws) old hold
      refine ⟨fun o ho => ?_, fun ch hch => ?_⟩
      · rcases List.mem_append.1 ho with ho | ho
        · exact h o (by rw [he]; simp [ho])
        · rcases List.mem_cons.1 ho with rfl | ho
          · exact hnew
          · exact h o (by rw [he]; simp [ho])
      · simp only [effectChange, List.mem_singleton] at hch
        subst hch
        exact fun _ => ⟨hnew, hold⟩
    | del l1 l2 old he =>
      have hold : a.NonNeg old := h old (by rw [he]; simp)
      refine ⟨fun o ho => h o ?_, fun ch hch => ?_⟩
      · rw [he]
        rcases List.mem_append.1 ho with ho | ho <;> simp [ho]
      · simp only [effectChange, List.mem_singleton] at hch
        subst hch
        exact fun _ => ⟨hold, hold⟩
  · refine ⟨?_, fun ch hch hct => absurd ?_ ht⟩
    · rw [applyOp_rows_other E op db (fun e => ht e.symm)]
      exact h
    · obtain ⟨x, _, hc, _⟩ := applyOp_effect E t op db
      rw [hc] at hch
      rcases x with _ | ⟨e, o, n⟩
      · simp [effectChange] at hch
      · simp only [effectChange, List.mem_singleton] at hch
        subst hch
        exact hct

theorem applyOps_nonneg {E : Engine} {a : AggDenorm} {t : TableName} : ∀ {ops : List RowOp} {db : Db},
    (∀ o ∈ db.rows a.related.table, a.NonNeg o) → (t = a.related.table → ∀ op ∈ ops, OpNonNeg a op) →
    ∀ o ∈ (applyOps E t ops db).1.rows a.related.table, a.NonNeg o
  | [], _, h, _ => h
  | op :: ops, _, h, hops => by
    simp only [applyOps]
    exact applyOps_nonneg (applyOp_nonneg h fun ht => hops ht op (List.mem_cons_self ..)).1 fun ht o ho => hops ht o (List.mem_cons_of_mem _ ho)

theorem effs_actions (a : AggDenorm) (i : Nat) (k : Val) (ch : Change) : ∀ l : List Item, (∀ it ∈ l, ∃ fr' x, it = .act fr' ch x) →
    a.effs i k l = ((l.filterMap Item.action).map (a.actEff ch k)).sum
  | [], _ => rfl
  | it :: l, h => by
    obtain ⟨fr', x, rfl⟩ := h it (List.mem_cons_self ..)
    rw [effs_cons, effs_actions a i k ch l (fun it hit => h it (List.mem_cons_of_mem _ hit))]
    simp [List.filterMap_cons, Item.action, AggDenorm.eff]

/-- In the middle of the actions of one row change a count has not been lowered, unless everything has been done. -/
theorem fired_prefix {E : Engine} {D : List Denorm} {a : AggDenorm} (hE : Installed E D) (hD : AggDeclared E.backend D a)
    {fr : Frame} {ch : Change} (hc : ch.table = a.related.table → a.NonNeg ch.new ∧ a.NonNeg ch.old) (hb : NotBlocked E fr ch) (i : Nat) (k : Val)
    {P : List Item} (hP : P <+: E.fired fr ch) : 0 ≤ a.effs i k P ∨ a.effs i k P = a.shift ch k := by
  obtain ⟨Z, hZ⟩ := hP
  have hacts : ∀ it ∈ P, ∃ fr' x, it = .act fr' ch x := by
    intro it hit
    obtain ⟨tr, _, _, x, _, rfl⟩ := mem_fired.1 (show it ∈ E.fired fr ch by rw [← hZ]; exact List.mem_append.2 (.inl hit))
    exact ⟨_, x, rfl⟩
  rw [effs_actions a i k ch P hacts, sum_actEff]
  have hsplit : (E.fired fr ch).filterMap Item.action = P.filterMap Item.action ++ Z.filterMap Item.action := by
    rw [← hZ, List.filterMap_append]
  have hle : ∀ x, (P.filterMap Item.action).count x ≤ E.timesRun fr ch x := by
    intro x
    rw [Engine.timesRun, hsplit, List.count_append]; omega
  have hi := hle a.increment
  have hd := hle a.decrement
  by_cases ht : ch.table = a.related.table
  · have s1 := share_nonneg (hc ht).1 k
    obtain ⟨tr, htr, h1, h2, h3, hn, h4⟩ := agg_timesRun hE hD hb ht (x := a.increment) (.inl rfl)
    obtain ⟨tr', htr', _, _, _, hn', h4'⟩ := agg_timesRun hE hD hb ht (x := a.decrement) (.inr rfl)
    have := installed_unique (hE ▸ htr) (hE ▸ htr') (hn.trans hn'.symm)
    subst this
    rw [h4] at hi
    rw [h4'] at hd
    have hne := a.incr_ne_decr
    rw [AggDenorm.shift, if_pos ht]
    cases hev : ch.event with
    | insert =>
      have h6 : a.decrement ∉ (a.trigger .insert).actions := by simp [AggDenorm.trigger, mkTrigger, hne.symm]
      rw [hev] at hd
      rw [if_neg (fun h => h6 h.2)] at hd
      have : (P.filterMap Item.action).count a.decrement = 0 := by omega
      rw [this]
      left
      have := Int.mul_nonneg (Int.natCast_nonneg ((P.filterMap Item.action).count a.increment)) s1
      simpa using this
    | delete =>
      have h5 : a.increment ∉ (a.trigger .delete).actions := by simp [AggDenorm.trigger, mkTrigger, hne]
      rw [hev, if_neg (fun h => h5 h.2)] at hi
      have hi0 : (P.filterMap Item.action).count a.increment = 0 := by omega
      rw [hi0]
      have hd1 : (P.filterMap Item.action).count a.decrement ≤ 1 := by
        refine Nat.le_trans hd ?_
        split <;> omega
      by_cases h0 : (P.filterMap Item.action).count a.decrement = 0
      · rw [h0]; left; simp
      · have : (P.filterMap Item.action).count a.decrement = 1 := by omega
        rw [this]; right; simp
    | update =>
      have hd1 : (P.filterMap Item.action).count a.decrement ≤ 1 := by
        refine Nat.le_trans hd ?_
        split <;> omega
      have hi1 : (P.filterMap Item.action).count a.increment ≤ 1 := by
        refine Nat.le_trans hi ?_
        split <;> omega
      by_cases h0 : (P.filterMap Item.action).count a.decrement = 0
      · rw [h0]
        left
        have := Int.mul_nonneg (Int.natCast_nonneg ((P.filterMap Item.action).count a.increment)) s1
        simpa using this
      · have hd2 : (P.filterMap Item.action).count a.decrement = 1 := by omega
        have hmem : a.decrement ∈ P.filterMap Item.action := by
          rw [← List.count_pos_iff]; omega
        have hbef : Before a.increment a.decrement ((E.fired fr ch).filterMap Item.action) := by
          rw [fired_actions]
          refine before_flatMap fun tr htr => ?_
          obtain ⟨htr, hen⟩ := List.mem_filter.1 htr
          refine agg_before hE hD htr ?_
          simp only [Engine.enters, Bool.and_eq_true, decide_eq_true_eq] at hen
          exact hen.1.1.2.trans hev
        obtain ⟨X, Y, hXY⟩ := List.append_of_mem hmem
        have hinc := hbef X (Y ++ Z.filterMap Item.action) (by rw [hsplit, hXY]; simp)
        have hinc' : a.increment ∈ P.filterMap Item.action := by rw [hXY]; exact List.mem_append.2 (.inl hinc)
        have hi2 : (P.filterMap Item.action).count a.increment = 1 := by
          have := List.count_pos_iff.2 hinc'; omega
        rw [hi2, hd2]; right; simp
  · rw [agg_timesRun_other hE hD ht (.inl rfl)] at hi
    rw [agg_timesRun_other hE hD ht (.inr rfl)] at hd
    have e1 : (P.filterMap Item.action).count a.increment = 0 := by omega
    have e2 : (P.filterMap Item.action).count a.decrement = 0 := by omega
    rw [e1, e2]; left; simp

/-! ## Invariants that know the order of the work -/

/-- As `PhaseInv`, for properties that depend on the order of the work left. -/
structure OrdInv (E : Engine) (t : TableName) (I : List RowOp → List Item → Db → Prop) : Prop where
  nested : ∀ {ops it W new db db'}, I ops (it :: W) db → E.step it db = .ok (new, db') → I ops (new ++ W) db'
  top : ∀ {ops rest db}, I (ops ++ rest) [] db → I rest ((applyOps E t ops db).2.flatMap (E.fired .top)) (applyOps E t ops db).1

theorem OrdInv.follow {E : Engine} {t : TableName} {I : List RowOp → List Item → Db → Prop} (h : OrdInv E t I) {ops : List RowOp}
    {W W' : List Item} {db db' : Db} (hr : E.Reach W db W' db') (hI : I ops W db) : I ops W' db' := by
  induction hr with
  | refl => exact hI
  | step hs _ ih => exact ih (h.nested hI hs)

theorem OrdInv.oneByOne {E : Engine} {t : TableName} {I : List RowOp → List Item → Db → Prop} (h : OrdInv E t I) :
    ∀ {ops : List RowOp} {W' : List Item} {db db' : Db}, I ops [] db → E.Reach (ops.map fun op => .write .top t [op]) db W' db' →
      ∃ rest V, I rest V db'
  | [], W', db, db', hI, hr => by
    generalize hW : ([] : List RowOp).map _ = W at hr
    simp only [List.map_nil] at hW
    cases hr with
    | refl => exact ⟨[], [], hI⟩
    | step hs hr => exact absurd hW (by simp)
  | op :: ops, W', db, db', hI, hr => by
    generalize hW : (op :: ops).map _ = W at hr
    simp only [List.map_cons] at hW
    cases hr with
    | refl => exact ⟨_, [], hI⟩
    | @step it W new _ db1 _ _ hs hr =>
      simp only [List.cons.injEq] at hW
      obtain ⟨rfl, rfl⟩ := hW
      simp only [Engine.step, Except.ok.injEq, Prod.mk.injEq] at hs
      obtain ⟨rfl, rfl⟩ := hs
      have h1 := h.top (ops := [op]) (rest := ops) hI
      rcases Engine.reach_append hr rfl with ⟨A', h2, h3⟩ | ⟨db1, h2, h3⟩
      · exact ⟨ops, A', h.follow h2 h1⟩
      · exact h.oneByOne (h.follow h2 h1) h3

theorem OrdInv.reach {E : Engine} {s : Stmt} {I : List RowOp → List Item → Db → Prop} (h : OrdInv E s.table I) {W' : List Item}
    {db db' : Db} (hI : I (s.ops db) [] db) (hr : E.Reach (E.start s db) db W' db') : ∃ rest V, I rest V db' := by
  by_cases hb : E.backend = .postgresql
  · rw [Engine.start, hb] at hr
    simp only [writes] at hr
    generalize hW : [Item.write Frame.top s.table (s.ops db)] = W at hr
    cases hr with
    | refl => exact ⟨_, [], hI⟩
    | @step it W new _ db1 _ _ hs hr =>
      simp only [List.cons.injEq] at hW
      obtain ⟨rfl, rfl⟩ := hW
      simp only [Engine.step, Except.ok.injEq, Prod.mk.injEq] at hs
      obtain ⟨rfl, rfl⟩ := hs
      have h1 := h.top (ops := s.ops db) (rest := []) (by simpa using hI)
      rw [List.append_nil] at hr
      exact ⟨[], _, h.follow hr h1⟩
  · have : E.start s db = (s.ops db).map fun op => .write .top s.table [op] := by
      cases hb' : E.backend <;> simp_all [Engine.start, writes]
    rw [this] at hr
    exact h.oneByOne hI hr

/-! ## Counts, and sums of non-negative numbers, do not go negative -/

/-- Whatever part of the work left is done, no count is below zero. -/
structure CountInv (E : Engine) (a : AggDenorm) (S : List (TableName × Col)) (rank : String → Nat) (s : Stmt) (ops : List RowOp)
    (W : List Item) (db : Db) : Prop extends AggInv E a S rank s ops W db where
  nonneg : ∀ o ∈ db.rows a.related.table, a.NonNeg o
  low : ∀ i r, (db.rows a.model.table)[i]? = some r → ∀ P, P <+: W → ∀ v, r a.fieldname = .int v → 0 ≤ v + a.effs i (r a.model.pk) P

/-- Triggers do not write the columns that decide what a row counts for. -/
def RelevantFree (D : List Denorm) (a : AggDenorm) : Prop := ∀ dn ∈ D, ∀ c ∈ a.relevant, (a.related.table, c) ∉ dn.writes

theorem prefix_append {α : Type _} {P A B : List α} (h : P <+: A ++ B) : P <+: A ∨ ∃ Q, Q <+: B ∧ P = A ++ Q := by
  obtain ⟨Z, hZ⟩ := h
  rcases List.append_eq_append_iff.1 hZ with ⟨as, h1, h2⟩ | ⟨bs, h1, h2⟩
  · exact .inl ⟨as, h1.symm⟩
  · exact .inr ⟨bs, ⟨Z, h2.symm⟩, h1⟩

/-- The triggers fired by a list of writes, seen from the database before. -/
theorem fired_all {E : Engine} {D : List Denorm} {a : AggDenorm} (hE : Installed E D) (hD : AggDeclared E.backend D a)
    {t : TableName} (i : Nat) (k : Val) : ∀ {ops : List RowOp} {db : Db} {P : List Item}, (∀ o ∈ db.rows a.related.table, a.NonNeg o) →
    (t = a.related.table → ∀ op ∈ ops, OpNonNeg a op) → P <+: (applyOps E t ops db).2.flatMap (E.fired .top) → 0 ≤ a.total db k + a.effs i k P
  | [], db, P, hn, _, h => by
    simp only [applyOps, List.flatMap_nil, List.prefix_nil] at h
    subst h
    have := total_nonneg hn k
    simpa [AggDenorm.effs] using this
  | op :: ops, db, P, hn, hops, h => by
    obtain ⟨hn1, hn2⟩ := applyOp_nonneg (E := E) hn fun ht => hops ht op (List.mem_cons_self ..)
    have hnb : ∀ ch : Change, NotBlocked E .top ch := by intro ch _ tr _ _ _ _; simp [Frame.top]
    simp only [applyOps, List.flatMap_append] at h
    have htot := total_apply E a t op db k
    have t0 := total_nonneg hn k
    have t1 := total_nonneg hn1 k
    rcases prefix_append h with h | ⟨Q, hQ, rfl⟩
    · obtain ⟨x, _, hch, _⟩ := applyOp_effect E t op db
      rw [hch] at h htot hn2
      rcases x with _ | ⟨e, o, n⟩
      · simp only [effectChange, List.flatMap_nil, List.prefix_nil] at h
        subst h
        simpa [AggDenorm.effs] using t0
      · simp only [effectChange, List.flatMap_cons, List.flatMap_nil, List.append_nil] at h
        simp only [effectChange, List.map_cons, List.map_nil, List.sum_cons, List.sum_nil] at htot
        rcases fired_prefix hE hD (hn2 _ (by simp [effectChange])) (hnb _) i k h with h1 | h1 <;> omega
    · have ih := fired_all hE hD i k hn1 (fun ht o ho => hops ht o (List.mem_cons_of_mem _ ho)) hQ
      rw [effs_append, effs_changes hE hD _ _ fun ch _ => hnb ch]
      omega

theorem total_applyOps (E : Engine) (a : AggDenorm) (t : TableName) (k : Val) : ∀ (ops : List RowOp) (db : Db),
    a.total (applyOps E t ops db).1 k = a.total db k + ((applyOps E t ops db).2.map fun ch => a.shift ch k).sum
  | [], db => by simp [applyOps]
  | op :: ops, db => by
    simp only [applyOps, total_applyOps E a t k ops, total_apply, List.map_append, List.sum_append]
    omega

theorem shift_same {a : AggDenorm} {ch : Change} (hev : ch.event = .update)
    (h : ch.table = a.related.table → ∀ c ∈ a.relevant, ch.old c = ch.new c) (k : Val) : a.shift ch k = 0 := by
  unfold AggDenorm.shift
  split
  · rename_i ht
    rw [hev]
    simp [share_congr (h ht) k]
  · rfl

/-- A row write of a trigger changes no right number. -/
theorem nested_shift {E : Engine} {D : List Denorm} {a : AggDenorm} {S : List (TableName × Col)} {rank : String → Nat}
    (hC : AggCtx E D a S rank) (hF : RelevantFree D a) {fr : Frame} {t : TableName} {op : RowOp} {ops : List RowOp} {db : Db}
    (h : AggItem E rank S (.write fr t (op :: ops))) (k : Val) : ∀ ch ∈ (applyOp E t op db).2, a.shift ch k = 0 := by
  obtain ⟨i, u, ch0, db0, rfl, hut, hch0, tr, htr, hu, htc⟩ := h.2 op (List.mem_cons_self ..)
  intro ch hch
  simp only [applyOp] at hch
  split at hch
  · simp at hch
  · rename_i old _
    simp only [List.mem_singleton] at hch
    subst hch
    refine shift_same rfl ?_ k
    intro ht c hc
    simp only at ht ⊢
    refine (UpdAction.set_other _ _ _ _ _ _ ?_).symm
    intro hcu
    obtain ⟨dn, hdn, hw⟩ := managed_writes hC.inst ⟨tr, htr, u, hu, hut, rfl⟩
    exact hF dn hdn c hc (by rw [hcu, ← ht]; exact hw)

theorem nested_opNonNeg {E : Engine} {D : List Denorm} {a : AggDenorm} {S : List (TableName × Col)} {rank : String → Nat}
    (hC : AggCtx E D a S rank) (hF : RelevantFree D a) {fr : Frame} {t : TableName} {ops : List RowOp}
    (h : AggItem E rank S (.write fr t ops)) (ht : t = a.related.table) : ∀ op ∈ ops, OpNonNeg a op := by
  intro op hop
  obtain ⟨i, u, ch0, db0, rfl, hut, hch0, tr, htr, hu, htc⟩ := h.2 op hop
  intro x r hr f hf
  rw [UpdAction.set_other]
  · exact hr f hf
  · intro hcu
    obtain ⟨dn, hdn, hw⟩ := managed_writes hC.inst ⟨tr, htr, u, hu, hut, rfl⟩
    exact hF dn hdn f (by simp [AggDenorm.relevant, hf]) (by rw [hcu, ← ht]; exact hw)

theorem aggItem_tail {E : Engine} {rank : String → Nat} {S : List (TableName × Col)} {fr : Frame} {t : TableName} {op : RowOp} {ops : List RowOp}
    (h : AggItem E rank S (.write fr t (op :: ops))) : AggItem E rank S (.write fr t ops) := by
  refine ⟨?_, fun o ho => h.2 o (List.mem_cons_of_mem _ ho)⟩
  rcases h.1 with ⟨h1, h2, h3⟩ | ⟨col, h1, h2, h3⟩
  · exact .inl ⟨h1, h2, fun o ho => h3 o (List.mem_cons_of_mem _ ho)⟩
  · exact .inr ⟨col, h1, fun o ho => h2 o (List.mem_cons_of_mem _ ho), h3⟩

/-- The row writes of one UPDATE of a trigger. -/
theorem nested_list {E : Engine} {D : List Denorm} {a : AggDenorm} {S : List (TableName × Col)} {rank : String → Nat}
    (hC : AggCtx E D a S rank) (hF : RelevantFree D a) {fr : Frame} {t : TableName} :
    ∀ {ops : List RowOp} {db : Db}, AggItem E rank S (.write fr t ops) → (∀ t, ∀ r ∈ db.rows t, IntRow S t r) →
    (∀ o ∈ db.rows a.related.table, a.NonNeg o) →
    (∀ (j : Nat) (r' : Row), ((applyOps E t ops db).1.rows a.model.table)[j]? = some r' → ∃ r : Row, (db.rows a.model.table)[j]? = some r ∧
      r' a.model.pk = r a.model.pk ∧ ∀ v, r a.fieldname = .int v →
        r' a.fieldname = .int (v + if t = a.model.table then (ops.map (opDelta a.fieldname j)).sum else 0)) ∧
    (∀ i k P, P <+: (applyOps E t ops db).2.flatMap (E.fired fr) → 0 ≤ a.effs i k P) ∧
    (∀ i k, a.effs i k ((applyOps E t ops db).2.flatMap (E.fired fr)) = 0)
  | [], db, _, _, _ => by
    refine ⟨fun j r' h => ⟨r', h, rfl, fun v hv => by simp [hv]⟩, ?_, fun i k => rfl⟩
    intro i k P h
    simp only [applyOps, List.flatMap_nil, List.prefix_nil] at h
    subst h
    simp [AggDenorm.effs]
  | op :: ops, db, hit, hI, hn => by
    obtain ⟨hn1, hn2⟩ := applyOp_nonneg (E := E) hn fun ht => nested_opNonNeg hC hF hit ht op (List.mem_cons_self ..)
    obtain ⟨hO, hrows, _, _⟩ := nested_facts hC hit hI
    obtain ⟨ih1, ih2, ih3⟩ := nested_list hC hF (ops := ops) (db := (applyOp E t op db).1) (aggItem_tail hit) hO.ints hn1
    have hz := fun k => nested_shift hC hF (db := db) hit k
    have he : ∀ i k, a.effs i k ((applyOp E t op db).2.flatMap (E.fired fr)) = 0 := by
      intro i k
      rw [effs_changes hC.inst hC.decl _ _ fun ch hc => (hO.changes ch hc).2.1]
      have : ∀ l : List Change, (∀ ch ∈ l, a.shift ch k = 0) → (l.map fun ch => a.shift ch k).sum = 0 := by
        intro l
        induction l with
        | nil => intro _; rfl
        | cons c l ih =>
          intro h
          simp [h c (List.mem_cons_self ..), ih fun c hc => h c (List.mem_cons_of_mem _ hc)]
      exact this _ (hz k)
    refine ⟨?_, ?_, ?_⟩
    · intro j r' hr'
      obtain ⟨r1, h1, h2, h3⟩ := ih1 j r' hr'
      obtain ⟨r, h4, h5, h6⟩ := hrows j r1 h1
      refine ⟨r, h4, h2.trans h5, fun v hv => ?_⟩
      rw [h3 _ (h6 v hv)]
      split
      · simp only [List.map_cons, List.sum_cons, Val.int.injEq]; omega
      · simp
    · intro i k P hP
      simp only [applyOps, List.flatMap_append] at hP
      rcases prefix_append hP with hP | ⟨Q, hQ, rfl⟩
      · obtain ⟨x, _, hch, _⟩ := applyOp_effect E t op db
        rcases x with _ | ⟨e, o, n⟩
        · rw [hch] at hP
          simp only [effectChange, List.flatMap_nil, List.prefix_nil] at hP
          subst hP; simp [AggDenorm.effs]
        · have hm : (⟨t, e, o, n⟩ : Change) ∈ (applyOp E t op db).2 := by rw [hch]; simp [effectChange]
          rw [hch] at hP
          simp only [effectChange, List.flatMap_cons, List.flatMap_nil, List.append_nil] at hP
          rcases fired_prefix hC.inst hC.decl (hn2 _ hm) (hO.changes _ hm).2.1 i k hP with h1 | h1
          · exact h1
          · rw [h1, hz k _ hm]; exact Int.le_refl 0
      · rw [effs_append, he]
        have := ih2 i k Q hQ
        omega
    · intro i k
      simp only [applyOps, List.flatMap_append, effs_append, he, ih3]
      rfl

/-- Part of the row writes of one UPDATE: the row at position `i` has got nothing or everything. -/
theorem effs_writes_prefix (a : AggDenorm) (i : Nat) (k : Val) (b : Backend) (fr : Frame) (u : UpdAction) (ch : Change) (db : Db)
    {P : List Item} (h : P <+: writes b fr u.table (u.ops ch db)) :
    a.effs i k P = 0 ∨ a.effs i k P = a.effs i k (writes b fr u.table (u.ops ch db)) := by
  have hm : P <+: (u.ops ch db).map (fun op => Item.write fr u.table [op]) →
      a.effs i k P = 0 ∨ a.effs i k P = if u.table = a.model.table then ((u.ops ch db).map (opDelta a.fieldname i)).sum else 0 := by
    intro h
    unfold UpdAction.ops at h ⊢
    have hnd := nodup_targetsOf (db.rows u.table) (u.where_ ch db)
    generalize targetsOf (db.rows u.table) (u.where_ ch db) = l at h hnd
    obtain ⟨Z, hZ⟩ := h
    simp only [List.map_map] at hZ
    obtain ⟨l1, l2, rfl, h1, h2⟩ := List.append_eq_map_iff.1 hZ
    have hP : a.effs i k P = if u.table = a.model.table then ((l1.map fun j => RowOp.upd j (u.set ch db)).map (opDelta a.fieldname i)).sum else 0 := by
      rw [← effs_writes a i k .sqlite fr u.table, ← h1]
      simp [writes, Function.comp_def]
    rw [hP]
    split
    · rw [sum_targets _ _ _ hnd, sum_targets _ _ _ (List.nodup_append.1 hnd).1]
      by_cases hi : i ∈ l1
      · right; simp [hi]
      · left; simp [hi]
    · exact .inl rfl
  rw [effs_writes]
  cases b
  · exact hm h
  · exact hm h
  · simp only [writes] at h
    rcases List.prefix_cons_iff.1 h with rfl | ⟨Q, rfl, hQ⟩
    · left; rfl
    · simp only [List.prefix_nil] at hQ
      subst hQ
      right; simp [AggDenorm.effs, AggDenorm.eff]

theorem countInv_ord {E : Engine} {D : List Denorm} {a : AggDenorm} {S : List (TableName × Col)} {rank : String → Nat}
    (hC : AggCtx E D a S rank) (hF : RelevantFree D a) {s : Stmt} (hc : NonNegLegal a s) {db0 : Db} (hL : AggLegal a S db0 s) :
    OrdInv E s.table (CountInv E a S rank s) where
  nested := by
    intro ops it W new db db' h hs
    have hit := h.items it (List.mem_cons_self ..)
    refine ⟨(aggInv_nested hC s ops).step hs h.toAggInv, ?_, ?_⟩
    · cases it with
      | write fr t wops =>
        simp only [Engine.step, Except.ok.injEq, Prod.mk.injEq] at hs
        rw [← hs.2]
        exact applyOps_nonneg h.nonneg fun ht => nested_opNonNeg hC hF hit ht
      | act fr ch x =>
        have : db'.rows = db.rows := by
          cases x with
          | markValues ct sd c q =>
            simp only [Engine.step, Except.ok.injEq, Prod.mk.injEq] at hs
            rw [← hs.2]; rfl
          | markSelect ct sel t k sd c q =>
            simp only [Engine.step, Except.ok.injEq, Prod.mk.injEq] at hs
            rw [← hs.2]; rfl
          | update u =>
            simp only [Engine.step] at hs
            split at hs
            · simp at hs
            · simp only [Except.ok.injEq, Prod.mk.injEq] at hs
              rw [← hs.2]
        rw [this]
        exact h.nonneg
    have hlow := h.low
    cases it with
    | write fr t wops =>
      simp only [Engine.step, Except.ok.injEq, Prod.mk.injEq] at hs
      obtain ⟨rfl, rfl⟩ := hs
      obtain ⟨h1, h2, h3⟩ := nested_list hC hF hit h.ints h.nonneg
      intro i r' hr' P hP v hv
      obtain ⟨r, hr, hpk, hval⟩ := h1 i r' hr'
      obtain ⟨v0, hv0, _⟩ := h.sums i r hr
      have hv' : v = v0 + if t = a.model.table then (wops.map (opDelta a.fieldname i)).sum else 0 := by
        have := hval v0 hv0
        rw [hv] at this
        simpa using this
      rw [hpk]
      have key : ∀ Q, Q <+: W → 0 ≤ v + a.effs i (r a.model.pk) Q := by
        intro Q hQ
        have := hlow i r hr (.write fr t wops :: Q) ((List.prefix_cons_inj _).2 hQ) v0 hv0
        rw [effs_cons] at this
        simp only [AggDenorm.eff] at this
        rw [hv']; omega
      rcases prefix_append hP with hP | ⟨Q, hQ, rfl⟩
      · have e1 := h2 i (r a.model.pk) P hP
        have e2 := key [] List.nil_prefix
        simp only [AggDenorm.effs, List.map_nil, List.sum_nil] at e2
        omega
      · rw [effs_append, h3]
        have := key Q hQ
        omega
    | act fr ch x =>
      cases x with
      | markValues ct sd c q =>
        simp only [Engine.step, Except.ok.injEq, Prod.mk.injEq] at hs
        obtain ⟨rfl, rfl⟩ := hs
        intro i r hr P hP v hv
        have := hlow i r hr (_ :: P) ((List.prefix_cons_inj _).2 hP) v hv
        rw [effs_cons] at this
        simpa [AggDenorm.eff, AggDenorm.actEff, AggDenorm.increment, AggDenorm.decrement] using this
      | markSelect ct sel t k sd c q =>
        simp only [Engine.step, Except.ok.injEq, Prod.mk.injEq] at hs
        obtain ⟨rfl, rfl⟩ := hs
        intro i r hr P hP v hv
        have := hlow i r hr (_ :: P) ((List.prefix_cons_inj _).2 hP) v hv
        rw [effs_cons] at this
        simpa [AggDenorm.eff, AggDenorm.actEff, AggDenorm.increment, AggDenorm.decrement] using this
      | update u =>
        simp only [Engine.step] at hs
        split at hs
        · simp at hs
        · simp only [Except.ok.injEq, Prod.mk.injEq] at hs
          obtain ⟨rfl, rfl⟩ := hs
          intro i r hr P hP v hv
          have e0 := hlow i r hr [] List.nil_prefix v hv
          simp only [AggDenorm.effs, List.map_nil, List.sum_nil] at e0
          have e1 := effs_update hC hit hr
          rcases prefix_append hP with hP | ⟨Q, hQ, rfl⟩
          · rcases effs_writes_prefix a i (r a.model.pk) _ fr u ch db hP with h1 | h1
            · omega
            · have := hlow i r hr [.act fr ch (.update u)] ((List.prefix_cons_inj _).2 List.nil_prefix) v hv
              rw [effs_cons, show a.effs i (r a.model.pk) [] = 0 from rfl] at this
              omega
          · have := hlow i r hr (.act fr ch (.update u) :: Q) ((List.prefix_cons_inj _).2 hQ) v hv
            rw [effs_cons] at this
            rw [effs_append]
            omega
  top := by
    intro ops rest db h
    have hA := (aggInv_phase hC hL).writeAll (W := []) (by simp) h.toAggInv
    rw [List.append_nil] at hA
    have hops : s.table = a.related.table → ∀ op ∈ ops ++ rest, OpNonNeg a op := by
      intro ht op hop
      have := h.tops op hop
      cases s with
      | insert t rs => obtain ⟨r, hr, rfl⟩ := this; exact hc ht r hr
      | update t w σ => obtain ⟨i, rfl⟩ := this; exact hc ht
      | delete t w => cases this; trivial
    have hops' : s.table = a.related.table → ∀ op ∈ ops, OpNonNeg a op := fun ht op hop => hops ht op (List.mem_append.2 (.inl hop))
    refine ⟨hA, applyOps_nonneg h.nonneg hops', ?_⟩
    intro i r hr P hP v hv
    obtain ⟨v0, hv0, hs⟩ := hA.sums i r hr
    rw [hv] at hv0
    simp only [Val.int.injEq] at hv0
    subst hv0
    have hnb : ∀ ch : Change, NotBlocked E .top ch := by intro ch _ tr _ _ _ _; simp [Frame.top]
    rw [effs_changes hC.inst hC.decl _ _ fun ch _ => hnb ch, total_applyOps] at hs
    have := fired_all hC.inst hC.decl i (r a.model.pk) h.nonneg hops' hP
    omega

/-- At every moment of a legal statement no count, and no sum of non-negative numbers, is negative. -/
theorem count_reach {E : Engine} {D : List Denorm} {a : AggDenorm} {S : List (TableName × Col)} (hE : Installed E D)
    (hD : AggDeclared E.backend D a) (hN : NoReentry E) (hS : IntClosed E.backend D S) (hm : (a.model.table, a.fieldname) ∈ S)
    (hF : RelevantFree D a) {s : Stmt} {db db' : Db} {W : List Item} (hc : NonNegLegal a s) (hn : ∀ o ∈ db.rows a.related.table, a.NonNeg o)
    (hL : AggLegal a S db s)
    (hI : ∀ t, ∀ r ∈ db.rows t, IntRow S t r) (hok : AggOk a db) (hr : E.Reach (E.start s db) db W db') :
    ∀ r ∈ db'.rows a.model.table, ∃ n, r a.fieldname = .int n ∧ 0 ≤ n := by
  obtain ⟨rank, hR⟩ := hN.ranked
  have hC : AggCtx E D a S rank := ⟨hE, hD, hR, hS, hm⟩
  have h0 : CountInv E a S rank s (s.ops db) [] db := by
    refine ⟨aggInv_start hL hI hok, hn, ?_⟩
    intro i r hr P hP v hv
    simp only [List.prefix_nil] at hP
    subst hP
    rw [hok r (List.mem_of_getElem? hr)] at hv
    simp only [Val.int.injEq] at hv
    have := total_nonneg hn (r a.model.pk)
    rw [← hv]
    simpa [AggDenorm.effs] using this
  obtain ⟨rest, V, h⟩ := (countInv_ord hC hF hc hL).reach h0 hr
  intro r hr
  obtain ⟨i, hi⟩ := List.mem_iff_getElem?.1 hr
  obtain ⟨v, h1, _⟩ := h.sums i r hi
  have := h.low i r hi [] List.nil_prefix v h1
  exact ⟨v, h1, by simpa [AggDenorm.effs] using this⟩

end Denorm
