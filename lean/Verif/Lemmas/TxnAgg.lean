import Verif.Spec.TxnAgg
import Verif.Lemmas.TxnInv
import Verif.Lemmas.AggInv
/-!
# What holds in every committed state
-/
namespace Denorm

/-! ## Properties that hold of a merged state if they hold of its parts -/

/-- If `P` holds of the committed state a session has started from, of what the session sees, and of what is committed now, it holds of what the session leaves when it commits. -/
def MergeClosed (S : Schema) (P : Db → Prop) : Prop :=
  ∀ base view cur, MergeableDb S base view cur → P base → P view → P cur → P (Db.merge S base view cur)

structure TxnOk (S : Schema) (P : Db → Prop) (cur : Db) (T : Txn) : Prop where
  nbase : KeysDistinct S T.base
  nview : KeysDistinct S T.view
  pbase : P T.base
  pview : P T.view
  outside : ∀ t κ, (t, κ) ∉ T.locks.rows → SameAt (S.key t) κ (T.base.rows t) (T.view.rows t)
  inside : ∀ t κ, (t, κ) ∈ T.locks.rows → SameAt (S.key t) κ (T.base.rows t) (cur.rows t)

structure AllOk (S : Schema) (P : Db → Prop) (X : DbServer) : Prop where
  keys : KeysDistinct S X.db
  now : P X.db
  sessions : ∀ (i : Nat) T, X.sessions[i]? = some (some T) → TxnOk S P X.db T
  apart : ∀ (i j : Nat) T U, i ≠ j → X.sessions[i]? = some (some T) → X.sessions[j]? = some (some U) → ∀ l ∈ T.locks.rows, l ∉ U.locks.rows

theorem TxnOk.mergeable {S : Schema} {P : Db → Prop} {cur : Db} {T : Txn} (h : TxnOk S P cur T) (hc : KeysDistinct S cur) : MergeableDb S T.base T.view cur := by
  intro t
  refine ⟨h.nbase t, h.nview t, hc t, fun κ => ?_⟩
  by_cases hl : (t, κ) ∈ T.locks.rows
  · exact .inr (h.inside t κ hl)
  · exact .inl (h.outside t κ hl)

section
variable {A : App} {S : Schema} {P : Db → Prop} {X : DbServer}

theorem allOk_sight (hP : MergeClosed S P) (hX : AllOk S P X) (i : Nat) : KeysDistinct S (X.sight S i).1 ∧ P (X.sight S i).1 ∧
    ∀ t κ, (t, κ) ∉ (X.sight S i).2.rows → SameAt (S.key t) κ (X.db.rows t) ((X.sight S i).1.rows t) := by
  rcases sight_cases X S i with ⟨T, h1, h2⟩ | h2
  · rw [h2]
    have hs := hX.sessions i T h1
    have hM := hs.mergeable hX.keys
    exact ⟨fun t => nodup_merge (hM t), hP _ _ _ hM hs.pbase hs.pview hX.now, fun t κ hl => (merge_sameAt_cur (hM t) (hs.outside t κ hl)).symm⟩
  · rw [h2]
    exact ⟨hX.keys, hX.now, fun t κ _ => SameAt.refl _ _ _⟩

theorem allOk_stmt (hP : MergeClosed S P) (hX : AllOk S P X) (hN : NoReentry A.engine) (hm : ∀ t, ¬ Managed A.engine t (S.key t)) {i : Nat} {s : Stmt}
    (hs : KeepsKeys S (X.sight S i).1 s) (hstep : ∀ v, A.exec s (X.sight S i).1 = .ok v → P (X.sight S i).1 → P v) : AllOk S P (A.move S X (.stmt i s)) := by
  simp only [App.move]
  cases he : A.exec s (X.sight S i).1 with
  | error e => exact hX
  | ok v =>
    simp only
    split
    · exact hX
    · rename_i hw
      split
      · exact hX
      · have hw' := Bool.eq_false_iff.2 hw
        obtain ⟨g1, g2, g3⟩ := allOk_sight hP hX i
        have hrows : ∀ j U, i ≠ j → X.sessions[j]? = some (some U) →
            ∀ l ∈ ((locksOf S (A.changesOf s (X.sight S i).1)).append (X.sight S i).2).rows, l ∉ U.locks.rows := by
          intro j U hij hU l hl
          simp only [Locks.append, List.mem_append] at hl
          rcases hl with hl | hl
          · exact apart_of_free (free_of_waits hw' (by simpa using Ne.symm hij) hU) l hl
          · rcases sight_cases X S i with ⟨T, h1, h2⟩ | h2
            · rw [h2] at hl
              exact hX.apart i j T U hij h1 hU l hl
            · rw [h2] at hl; simp [Locks.free] at hl
        refine ⟨hX.keys, hX.now, ?_, ?_⟩
        · intro j U hU
          rcases getElem?_set_some hU with ⟨_, h1⟩ | ⟨_, h1⟩
          · simp only [Option.some.injEq] at h1
            subst h1
            refine ⟨hX.keys, keysDistinct_exec hN (engine_of_exec he) hs hm g1, hX.now, hstep v he g2, fun t κ hl => ?_, fun _ _ _ => SameAt.refl _ _ _⟩
            simp only [Locks.append, List.mem_append, not_or] at hl
            exact (g3 t κ hl.2).trans (exec_sameAt he hl.1)
          · exact hX.sessions j U h1
        · intro j j' U U' hjj hU hU' l hl hl'
          rcases getElem?_set_some hU with ⟨e1, h1⟩ | ⟨e1, h1⟩ <;> rcases getElem?_set_some hU' with ⟨e2, h2⟩ | ⟨e2, h2⟩
          · exact hjj (e1.symm.trans e2)
          · simp only [Option.some.injEq] at h1
            subst h1
            exact hrows j' U' (e1 ▸ hjj) h2 l hl hl'
          · simp only [Option.some.injEq] at h2
            subst h2
            exact hrows j U e1 h1 l hl' hl
          · exact hX.apart j j' U U' hjj h1 h2 l hl hl'

theorem allOk_close (hX : AllOk S P X) (i : Nat) : AllOk S P ⟨X.db, X.sessions.set i none⟩ := by
  refine ⟨hX.keys, hX.now, ?_, ?_⟩
  · intro j U hU
    rcases getElem?_set_some hU with ⟨_, h1⟩ | ⟨_, h1⟩
    · simp at h1
    · exact hX.sessions j U h1
  · intro j j' U U' hjj hU hU'
    rcases getElem?_set_some hU with ⟨_, h1⟩ | ⟨_, h1⟩
    · simp at h1
    · rcases getElem?_set_some hU' with ⟨_, h2⟩ | ⟨_, h2⟩
      · simp at h2
      · exact hX.apart j j' U U' hjj h1 h2

theorem allOk_commit (hP : MergeClosed S P) (hX : AllOk S P X) (i : Nat) : AllOk S P (A.move S X (.commit i)) := by
  simp only [App.move]
  obtain ⟨g1, g2, _⟩ := allOk_sight hP hX i
  refine ⟨g1, g2, ?_, (allOk_close hX i).apart⟩
  intro j U hU
  rcases getElem?_set_some hU with ⟨_, h1⟩ | ⟨hij, h1⟩
  · simp at h1
  · have hs := hX.sessions j U h1
    refine ⟨hs.nbase, hs.nview, hs.pbase, hs.pview, hs.outside, ?_⟩
    intro t κ hl
    refine (hs.inside t κ hl).trans ?_
    rcases sight_cases X S i with ⟨T, h2, h3⟩ | h3
    · rw [h3]
      have hs' := hX.sessions i T h2
      exact (merge_sameAt_cur (hs'.mergeable hX.keys t) (hs'.outside t κ fun hl' => hX.apart i j T U hij h2 h1 _ hl' hl)).symm
    · rw [h3]; exact SameAt.refl _ _ _

/-- What saving the object of a marker does: nothing, or one UPDATE that leaves keys alone and writes rows that are locked. -/
theorem saveObject_update {db db1 : Db} (hpk : ∀ om ∈ A.models, om.model.pk ∉ om.cols) (hS : ∀ om ∈ A.models, S.key om.model.table = om.model.pk)
    {m : Mark} (h : A.saveObject m db = .ok db1) :
    db1 = db ∨ ∃ om ∈ A.models, ∃ r mem, (db.rows om.model.table).find? (isRowOf om.model (r om.model.pk)) = some r ∧ r om.model.pk ≠ .null ∧
      preSaveAll A om.model db false om.saved r = .ok mem ∧ A.save om r db = .ok (db1, mem) ∧ A.exec (saveUpdate om mem) db = .ok db1 ∧
      KeepsKeys S db (saveUpdate om mem) ∧ A.flushChanges m db = A.changesOf (saveUpdate om mem) db := by
  simp only [App.saveObject] at h
  cases hc : A.contentObject db m with
  | error e => rw [hc] at h; simp at h
  | ok o =>
    rw [hc] at h
    cases o with
    | none => simp only [Except.ok.injEq] at h; exact .inl h.symm
    | some p =>
      obtain ⟨om', r⟩ := p
      simp only at h
      cases hs : A.save om' r db with
      | error e => rw [hs] at h; simp at h
      | ok q =>
        rw [hs] at h
        simp only [Except.ok.injEq] at h
        subst h
        have hcc := hc
        simp only [App.contentObject] at hcc
        cases hfind : A.models.find? (fun om => om.model.ct == m.ct) with
        | none => rw [hfind] at hcc; simp at hcc
        | some om2 =>
          rw [hfind] at hcc
          simp only at hcc
          cases hrow : (db.rows om2.model.table).find? (isRowOf om2.model m.oid) with
          | none => rw [hrow] at hcc; simp at hcc
          | some r2 =>
            rw [hrow] at hcc
            simp only [Except.ok.injEq, Option.some.injEq, Prod.mk.injEq] at hcc
            obtain ⟨rfl, rfl⟩ := hcc
            have hom' : om2 ∈ A.models := List.mem_of_find?_eq_some hfind
            obtain ⟨hr2, hk⟩ := find_again hrow
            have hmem : r2 ∈ db.rows om2.model.table := List.mem_of_find?_eq_some hrow
            have hnn : r2 om2.model.pk ≠ .null := (Val.sqlEq_iff.1 (List.find?_some (p := isRowOf om2.model m.oid) hrow)).2
            have hs0 := hs
            simp only [App.save] at hs
            cases hp : preSaveAll A om2.model db false om2.saved r2 with
            | error e => rw [hp] at hs; simp at hs
            | ok mem =>
              rw [hp] at hs
              have hany : (db.rows om2.model.table).any (isRowOf om2.model (r2 om2.model.pk)) = true :=
                List.any_eq_true.2 ⟨r2, hmem, List.find?_some (p := isRowOf om2.model (r2 om2.model.pk)) hr2⟩
              simp only [hany, if_true] at hs
              cases he : A.exec (saveUpdate om2 mem) db with
              | error e => rw [he] at hs; simp at hs
              | ok db1 =>
                rw [he] at hs
                simp only [Except.ok.injEq] at hs
                subst hs
                refine .inr ⟨om2, hom', r2, mem, hr2, hnn, hp, hs0, he, ?_, ?_⟩
                · intro x r
                  rw [hS om2 hom']
                  exact if_neg (hpk om2 hom')
                · simp only [App.flushChanges, hc, hp]

theorem allOk_flushOne (hX : AllOk S P X) (hN : NoReentry A.engine) (hm : ∀ t, ¬ Managed A.engine t (S.key t))
    (hpk : ∀ om ∈ A.models, om.model.pk ∉ om.cols) (hS : ∀ om ∈ A.models, S.key om.model.table = om.model.pk) {m : Mark}
    (hstep : ∀ db', A.flushOne m X.db = .ok db' → P X.db → P db') : AllOk S P (A.move S X (.flushOne m)) := by
  simp only [App.move]
  split
  · exact hX
  · rename_i hw
    have hw' := Bool.eq_false_iff.2 hw
    cases hf : A.flushOne m X.db with
    | error e => exact hX
    | ok db' =>
      have hp := hstep db' hf hX.now
      simp only [App.flushOne] at hf
      cases h1 : A.saveObject m X.db with
      | error e => rw [h1] at hf; simp at hf
      | ok db1 =>
        rw [h1] at hf
        simp only [Except.ok.injEq] at hf
        subst hf
        have hd : KeysDistinct S db1 := by
          rcases saveObject_update (S := S) hpk hS h1 with rfl | ⟨_, _, _, _, _, _, _, _, he, hK, _⟩
          · exact hX.keys
          · exact keysDistinct_exec hN (engine_of_exec he) hK hm hX.keys
        refine ⟨hd, hp, fun j T hj => ?_, hX.apart⟩
        have hs := hX.sessions j T hj
        refine ⟨hs.nbase, hs.nview, hs.pbase, hs.pview, hs.outside, fun t κ hl => (hs.inside t κ hl).trans ?_⟩
        show SameAt _ _ _ (db1.rows t)
        rcases saveObject_update (S := S) hpk hS h1 with rfl | ⟨_, _, _, _, _, _, _, _, he, _, hch⟩
        · exact SameAt.refl _ _ _
        · refine exec_sameAt he ?_
          rw [← hch]
          intro hl'
          have := free_of_waits hw' (by simp) hj
          exact apart_of_free this (t, κ) (by simp only [Locks.append, List.mem_append]; exact .inl hl') hl

theorem allOk_start {db : Db} {n : Nat} (hU : KeysDistinct S db) (h : P db) : AllOk S P ⟨db, List.replicate n none⟩ := by
  refine ⟨hU, h, ?_, ?_⟩
  · intro i T hi
    exact absurd (List.eq_of_mem_replicate (List.mem_of_getElem? hi)) (by simp)
  · intro i j T U _ hi
    exact absurd (List.eq_of_mem_replicate (List.mem_of_getElem? hi)) (by simp)

end

/-! ## Sums over merged tables -/

/-- What the row with key `κ` contributes to a sum. -/
def at_ (kc : Col) (f : Row → Int) (rs : List Row) (κ : Val) : Int :=
  match rowOf kc κ rs with
  | some r => f r
  | none => 0

theorem sum_zero {α : Type _} : ∀ {l : List α} {f : α → Int}, (∀ x ∈ l, f x = 0) → (l.map f).sum = 0
  | [], _, _ => rfl
  | x :: l, f, h => by
    rw [List.map_cons, List.sum_cons, h x (List.mem_cons_self ..), sum_zero fun y hy => h y (List.mem_cons_of_mem _ hy)]
    rfl

theorem sum_add {α : Type _} (f g : α → Int) : ∀ l : List α, (l.map fun x => f x + g x).sum = (l.map f).sum + (l.map g).sum
  | [] => rfl
  | x :: l => by
    simp only [List.map_cons, List.sum_cons, sum_add f g l]
    omega

theorem sum_single {c : Int} {κ : Val} : ∀ {K : List Val}, K.Nodup → κ ∈ K → (K.map fun x => if x = κ then c else 0).sum = c
  | [], _, h => by simp at h
  | x :: K, hn, h => by
    rw [List.nodup_cons] at hn
    rw [List.map_cons, List.sum_cons]
    rcases List.mem_cons.1 h with rfl | h1
    · rw [if_pos rfl, sum_zero fun y hy => if_neg fun (e : y = κ) => hn.1 (e ▸ hy)]
      omega
    · rw [if_neg fun (e : x = κ) => hn.1 (e ▸ h1), sum_single hn.2 h1]
      omega

theorem sum_by_key {kc : Col} {f : Row → Int} {K : List Val} (hK : K.Nodup) : ∀ {rs : List Row}, (rs.map fun r => r kc).Nodup → (∀ r ∈ rs, r kc ∈ K) →
    (rs.map f).sum = (K.map (at_ kc f rs)).sum
  | [], _, _ => by
    rw [sum_zero (f := at_ kc f []) fun κ _ => by simp [at_, rowOf]]
    rfl
  | r :: rs, hn, hs => by
    rw [List.map_cons, List.nodup_cons] at hn
    have ih := sum_by_key (f := f) hK hn.2 fun x hx => hs x (List.mem_cons_of_mem _ hx)
    have : ∀ κ ∈ K, at_ kc f (r :: rs) κ = (if κ = r kc then f r else 0) + at_ kc f rs κ := by
      intro κ _
      by_cases e : κ = r kc
      · have h0 : rowOf kc κ rs = none := rowOf_none.2 fun x hx hxe => hn.1 (List.mem_map.2 ⟨x, hx, hxe.trans e⟩)
        have h1 : rowOf kc κ (r :: rs) = some r := by simp [rowOf, e]
        unfold at_
        rw [h0, h1, if_pos e]
        simp
      · have h1 : rowOf kc κ (r :: rs) = rowOf kc κ rs := by
          unfold rowOf
          exact List.find?_cons_of_neg (by simpa using Ne.symm e)
        simp [at_, h1, e]
    rw [List.map_congr_left this, sum_add, sum_single hK (hs r (List.mem_cons_self ..)), List.map_cons, List.sum_cons, ih]

theorem at_sameAt {kc : Col} {f : Row → Int} {rs rs' : List Row} {κ : Val} (hn : (rs.map fun r => r kc).Nodup) (hn' : (rs'.map fun r => r kc).Nodup)
    (h : SameAt kc κ rs rs') : at_ kc f rs κ = at_ kc f rs' κ := by
  have : rowOf kc κ rs = rowOf kc κ rs' := by
    cases h1 : rowOf kc κ rs with
    | none =>
      symm
      exact rowOf_none.2 fun r hr e => rowOf_none.1 h1 r ((h r e).2 hr) e
    | some r =>
      obtain ⟨h2, h3⟩ := rowOf_some h1
      rw [← h3, rowOf_eq hn' ((h r h3).1 h2)]
  unfold at_
  rw [this]

theorem dedup_keys (l : List Val) : ∃ K : List Val, K.Nodup ∧ ∀ x ∈ l, x ∈ K := by
  induction l with
  | nil => exact ⟨[], List.nodup_nil, by simp⟩
  | cons a l ih =>
    obtain ⟨K, h1, h2⟩ := ih
    by_cases ha : a ∈ K
    · exact ⟨K, h1, by simpa [ha] using h2⟩
    · refine ⟨a :: K, List.nodup_cons.2 ⟨ha, h1⟩, ?_⟩
      simp only [List.mem_cons, forall_eq_or_imp, true_or, true_and]
      exact fun x hx => .inr (h2 x hx)

/-- The changes of the session and those of the others add up. -/
theorem sum_merge {kc : Col} {base view cur : List Row} (h : Mergeable kc base view cur) (f : Row → Int) :
    ((mergeRows kc base view cur).map f).sum + (base.map f).sum = (cur.map f).sum + (view.map f).sum := by
  obtain ⟨K, hK, hs⟩ := dedup_keys ((mergeRows kc base view cur ++ base ++ cur ++ view).map fun r => r kc)
  have hin : ∀ rs : List Row, (∀ r ∈ rs, r ∈ mergeRows kc base view cur ++ base ++ cur ++ view) → ∀ r ∈ rs, r kc ∈ K :=
    fun rs h r hr => hs _ (List.mem_map.2 ⟨r, h r hr, rfl⟩)
  rw [sum_by_key hK (nodup_merge h) (hin _ fun r hr => by simp [hr]), sum_by_key hK h.nbase (hin _ fun r hr => by simp [hr]),
    sum_by_key hK h.ncur (hin _ fun r hr => by simp [hr]), sum_by_key hK h.nview (hin _ fun r hr => by simp [hr]), ← sum_add, ← sum_add]
  congr 1
  refine List.map_congr_left fun κ _ => ?_
  rcases h.apart κ with h1 | h1
  · rw [at_sameAt (nodup_merge h) h.ncur (merge_sameAt_cur h h1), at_sameAt h.nbase h.nview h1]
  · rw [at_sameAt (nodup_merge h) h.nview (merge_sameAt_view h h1), at_sameAt h.nbase h.ncur h1]
    omega

theorem total_merge {S : Schema} {base view cur : Db} (h : MergeableDb S base view cur) (a : AggDenorm) (k : Val) :
    a.total (Db.merge S base view cur) k + a.total base k = a.total cur k + a.total view k := by
  simp only [total_eq]
  exact sum_merge (h a.related.table) (a.share k)

/-- Nothing is counted for an instance that does not exist. -/
def NoOrphans (a : AggDenorm) (db : Db) : Prop := ∀ k, (∀ r ∈ db.rows a.model.table, r a.model.pk ≠ k) → a.total db k = 0

theorem noOrphans_of {a : AggDenorm} {db : Db} (h : Refers a db) : NoOrphans a db := by
  intro k hk
  refine total_unref fun o ho hr => ?_
  obtain ⟨h1, h2⟩ := Val.sqlEq_iff.1 hr
  obtain ⟨r, hr, he⟩ := h o ho h2
  exact hk r hr (he.trans h1)

/-- The total of an instance is determined by its row, also when there is none. -/
theorem total_sameAt {S : Schema} {a : AggDenorm} (hk : S.key a.model.table = a.model.pk) {db db' : Db} (h : AggOk a db ∧ NoOrphans a db) (h' : AggOk a db' ∧ NoOrphans a db')
    {κ : Val} (hs : SameAt (S.key a.model.table) κ (db.rows a.model.table) (db'.rows a.model.table)) : a.total db κ = a.total db' κ := by
  rw [hk] at hs
  by_cases he : ∃ r ∈ db.rows a.model.table, r a.model.pk = κ
  · obtain ⟨r, hr, rfl⟩ := he
    have h1 := h.1 r hr
    have h2 := h'.1 r ((hs r rfl).1 hr)
    rw [h1] at h2
    simpa using h2
  · rw [h.2 κ fun r hr e => he ⟨r, hr, e⟩, h'.2 κ fun r hr e => he ⟨r, (hs r e).2 hr, e⟩]

/-- Right, nothing counted for what does not exist, and integers where they are summed. -/
structure AggFine (a : AggDenorm) (Z : List (TableName × Col)) (db : Db) : Prop where
  right : AggOk a db
  none : NoOrphans a db
  ints : Ints Z db

theorem aggFine_closed {S : Schema} {a : AggDenorm} {Z : List (TableName × Col)} (hk : S.key a.model.table = a.model.pk) : MergeClosed S (AggFine a Z) := by
  intro base view cur hM hb hv hc
  have hMm := hM a.model.table
  have htot : ∀ κ, (SameAt (S.key a.model.table) κ (base.rows a.model.table) (view.rows a.model.table) → a.total (Db.merge S base view cur) κ = a.total cur κ) ∧
      (SameAt (S.key a.model.table) κ (base.rows a.model.table) (cur.rows a.model.table) → a.total (Db.merge S base view cur) κ = a.total view κ) := by
    intro κ
    have h := total_merge hM a κ
    refine ⟨fun hs => ?_, fun hs => ?_⟩
    · have := total_sameAt hk ⟨hb.right, hb.none⟩ ⟨hv.right, hv.none⟩ hs
      omega
    · have := total_sameAt hk ⟨hb.right, hb.none⟩ ⟨hc.right, hc.none⟩ hs
      omega
  refine ⟨fun r hr => ?_, fun κ hκ => ?_, fun t r hr => ?_⟩
  · rcases hMm.apart (r a.model.pk) with hs | hs
    · rw [(htot _).1 hs]
      exact hc.right r ((merge_sameAt_cur hMm hs r (by rw [hk])).1 hr)
    · rw [(htot _).2 hs]
      exact hv.right r ((merge_sameAt_view hMm hs r (by rw [hk])).1 hr)
  · rcases hMm.apart κ with hs | hs
    · rw [(htot _).1 hs]
      exact hc.none κ fun r hr e => hκ r ((merge_sameAt_cur hMm hs r (by rw [hk]; exact e)).2 hr) e
    · rw [(htot _).2 hs]
      exact hv.none κ fun r hr e => hκ r ((merge_sameAt_view hMm hs r (by rw [hk]; exact e)).2 hr) e
  · rcases (hM t).apart (r (S.key t)) with hs | hs
    · exact hc.ints t r ((merge_sameAt_cur (hM t) hs r rfl).1 hr)
    · exact hv.ints t r ((merge_sameAt_view (hM t) hs r rfl).1 hr)

end Denorm
