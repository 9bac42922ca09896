import Verif.Code.Reading
import Verif.Spec.Reading
import Verif.Lemmas.Settle
import Verif.Lemmas.Returns
import Verif.Spec.Confluent
/-!
# Portions of markers
-/
namespace Denorm

theorem length_le_of_nodup {α : Type _} [DecidableEq α] : ∀ {l l' : List α}, l.Nodup → (∀ a ∈ l, a ∈ l') → l.length ≤ l'.length
  | [], _, _, _ => Nat.zero_le _
  | a :: l, l', hn, hs => by
    have ha := hs a (List.mem_cons_self ..)
    have h := length_le_of_nodup (l := l) (l' := l'.erase a) (List.nodup_cons.1 hn).2 fun b hb => by
      have hne : b ≠ a := fun e => (List.nodup_cons.1 hn).1 (e ▸ hb)
      exact (List.mem_erase_of_ne hne).2 (hs b (List.mem_cons_of_mem _ hb))
    have := List.length_erase_of_mem ha
    have := List.length_pos_of_mem ha
    simp only [List.length_cons]
    omega

/-! ## An order on counts -/

/-- Somewhere from `p` up to `L` there is one less, and before that nowhere more. -/
def LessFrom (L p : Nat) (c' c : Nat → Nat) : Prop := ∃ r, p ≤ r ∧ r ≤ L ∧ (∀ j, p ≤ j → j < r → c' j ≤ c j) ∧ c' r < c r

theorem lessFrom_acc {L : Nat} : ∀ (d p : Nat), p + d = L + 1 → ∀ c, Acc (LessFrom L p) c
  | 0, p, h, c => by
    refine Acc.intro c fun c' hc => ?_
    obtain ⟨r, h1, h2, _⟩ := hc
    omega
  | d + 1, p, h, c => by
    have key : ∀ v c, c p = v → Acc (LessFrom L p) c := by
      intro v
      induction v using Nat.strongRecOn with
      | ind v ihv =>
        intro c
        induction lessFrom_acc (L := L) d (p + 1) (by omega) c with
        | intro c _ ihc =>
          intro hc
          refine Acc.intro c fun c' ⟨r, h1, h2, h3, h4⟩ => ?_
          by_cases hlt : c' p < c p
          · exact ihv (c' p) (hc ▸ hlt) c' rfl
          · have hr : r ≠ p := fun e => hlt (e ▸ h4)
            have hle := h3 p (Nat.le_refl _) (by omega)
            exact ihc c' ⟨r, by omega, h2, fun j hj => h3 j (by omega), h4⟩ (by omega)
    exact key (c p) c rfl

section
variable {A : App} {D : List Denorm} {rank : Nat → Val → Nat} {L : Nat}

open Classical in
/-- The layer of a marker; those without an instance come last. -/
noncomputable def layerOf (A : App) (db0 : Db) (rank : Nat → Val → Nat) (L : Nat) (m : Mark) : Nat := if A.HasTarget db0 m then m.rank rank else L

/-- How many different markers there are of each layer. -/
noncomputable def layerCount (A : App) (db0 : Db) (rank : Nat → Val → Nat) (L : Nat) (db : Db) (j : Nat) : Nat :=
  ((dedup db.dirty).filter fun m => layerOf A db0 rank L m == j).length

/-- Handling a marker of layer `j` adds only markers of higher layers. -/
theorem flushOne_layers (hP : Project A D) {db0 db db' : Db} (hs : SameKeys A db0 db) (hu : KeysUnique A db) (hL : Layered A D rank L db) {m : Mark}
    (h : A.flushOne m db = .ok db') : KeysUnique A db' ∧ Layered A D rank L db' ∧ SameKeys A db0 db' ∧
      ∀ m' ∈ db'.dirty, m' ≠ m ∧ (m' ∈ db.dirty ∨ layerOf A db0 rank L m < layerOf A db0 rank L m') := by
  obtain ⟨h1, h2, h3, h4⟩ := flushOne_marks hP hu hL h
  refine ⟨h3, layered_same hP h1 hL, fun om hom => (h2 om hom).trans (hs om hom), fun m' hm' => ⟨(h4 m' hm').1, ?_⟩⟩
  rcases (h4 m' hm').2 with h5 | ⟨h5, h6⟩
  · exact .inl h5
  · refine .inr ?_
    have hb := rank_bound hL h5
    have h7 := (sameKeys_target hs m).1 h5
    simp only [layerOf, if_pos h7]
    split
    · rename_i ht
      exact h6 ((sameKeys_target hs m').2 ht)
    · exact hb

theorem flushList_layers (hP : Project A D) {db0 : Db} {p : Nat} : ∀ (ms : List Mark) {db db' : Db}, SameKeys A db0 db → KeysUnique A db →
    Layered A D rank L db → A.flushList ms db = .ok db' → (∀ m ∈ ms, p ≤ layerOf A db0 rank L m) →
    KeysUnique A db' ∧ Layered A D rank L db' ∧ SameKeys A db0 db' ∧
      ∀ m' ∈ db'.dirty, (m' ∈ db.dirty ∧ m' ∉ ms) ∨ p < layerOf A db0 rank L m'
  | [], db, db', hs, hu, hL, h, _ => by
    simp only [App.flushList, Except.ok.injEq] at h
    subst h
    exact ⟨hu, hL, hs, fun m hm => .inl ⟨hm, by simp⟩⟩
  | m :: ms, db, db', hs, hu, hL, h, hp => by
    simp only [App.flushList] at h
    cases h1 : A.flushOne m db with
    | error e => rw [h1] at h; simp at h
    | ok db1 =>
      rw [h1] at h
      obtain ⟨h2, h3, h4, h5⟩ := flushOne_layers hP hs hu hL h1
      obtain ⟨h6, h7, h8, h9⟩ := flushList_layers hP ms h4 h2 h3 h fun m' hm' => hp m' (List.mem_cons_of_mem _ hm')
      refine ⟨h6, h7, h8, fun m' hm' => ?_⟩
      rcases h9 m' hm' with ⟨h10, h11⟩ | h10
      · obtain ⟨h12, h13⟩ := h5 m' h10
        rcases h13 with h13 | h13
        · exact .inl ⟨h13, by simp [h12, h11]⟩
        · exact .inr (Nat.lt_of_le_of_lt (hp m (List.mem_cons_self ..)) h13)
      · exact .inr h10

theorem exists_lowest {α : Type _} (f : α → Nat) : ∀ (l : List α), l ≠ [] → ∃ a ∈ l, ∀ b ∈ l, f a ≤ f b
  | [], h => absurd rfl h
  | [a], _ => ⟨a, by simp, by simp⟩
  | a :: b :: l, _ => by
    obtain ⟨x, hx, h⟩ := exists_lowest f (b :: l) (by simp)
    by_cases hax : f a ≤ f x
    · refine ⟨a, List.mem_cons_self .., fun y hy => ?_⟩
      rcases List.mem_cons.1 hy with rfl | hy
      · exact Nat.le_refl _
      · exact Nat.le_trans hax (h y hy)
    · refine ⟨x, List.mem_cons_of_mem _ hx, fun y hy => ?_⟩
      rcases List.mem_cons.1 hy with rfl | hy
      · omega
      · exact h y hy

/-- Each portion makes less of some layer, and not more of the layers below. -/
theorem portion_less (hP : Project A D) {db0 db db' : Db} (hs : SameKeys A db0 db) (hu : KeysUnique A db) (hL : Layered A D rank L db)
    {ms : List Mark} (hne : ms ≠ []) (hin : ∀ m ∈ ms, m ∈ db.dirty) (h : A.flushList ms db = .ok db') :
    KeysUnique A db' ∧ Layered A D rank L db' ∧ SameKeys A db0 db' ∧
      LessFrom L 0 (layerCount A db0 rank L db') (layerCount A db0 rank L db) := by
  obtain ⟨m, hm, hlow⟩ := exists_lowest (layerOf A db0 rank L) ms hne
  obtain ⟨h1, h2, h3, h4⟩ := flushList_layers hP ms hs hu hL h hlow
  refine ⟨h1, h2, h3, layerOf A db0 rank L m, Nat.zero_le _, ?_, fun j _ hj => ?_, ?_⟩
  · simp only [layerOf]
    split
    · rename_i ht
      exact Nat.le_of_lt (rank_bound hL ((sameKeys_target hs m).2 ht))
    · exact Nat.le_refl _
  · refine length_le_of_nodup ((nodup_dedup _).filter _) fun m' hm' => ?_
    obtain ⟨h5, h6⟩ := List.mem_filter.1 hm'
    simp only [beq_iff_eq] at h6
    rcases h4 m' (mem_dedup.1 h5) with h7 | h7
    · exact List.mem_filter.2 ⟨mem_dedup.2 h7.1, by simpa using h6⟩
    · omega
  · have hlt : ((dedup db'.dirty).filter fun m' => layerOf A db0 rank L m' == layerOf A db0 rank L m).length + 1 ≤
        ((dedup db.dirty).filter fun m' => layerOf A db0 rank L m' == layerOf A db0 rank L m).length := by
      have hmm : m ∈ (dedup db.dirty).filter fun m' => layerOf A db0 rank L m' == layerOf A db0 rank L m :=
        List.mem_filter.2 ⟨mem_dedup.2 (hin m hm), by simp⟩
      have hnd : (m :: (dedup db'.dirty).filter fun m' => layerOf A db0 rank L m' == layerOf A db0 rank L m).Nodup := by
        refine List.nodup_cons.2 ⟨fun h5 => ?_, (nodup_dedup _).filter _⟩
        rcases h4 m (mem_dedup.1 (List.mem_filter.1 h5).1) with h6 | h6
        · exact h6.2 hm
        · omega
      refine length_le_of_nodup hnd fun m' hm' => ?_
      rcases List.mem_cons.1 hm' with rfl | hm'
      · exact hmm
      · obtain ⟨h5, h6⟩ := List.mem_filter.1 hm'
        simp only [beq_iff_eq] at h6
        rcases h4 m' (mem_dedup.1 h5) with h7 | h7
        · exact List.mem_filter.2 ⟨mem_dedup.2 h7.1, by simpa using h6⟩
        · omega
    exact hlt

/-- Portions come to an end. -/
theorem portion_acc (hP : Project A D) {db : Db} (hu : KeysUnique A db) (hL : Layered A D rank L db) :
    Acc (fun db' db => A.Portion db db') db := by
  have key : ∀ c, Acc (LessFrom L 0) c → ∀ x, layerCount A db rank L x = c → SameKeys A db x → KeysUnique A x → Layered A D rank L x →
      Acc (fun db' db => A.Portion db db') x := by
    intro c hc
    induction hc with
    | intro c _ ih =>
      intro x hx hs hu hL
      refine Acc.intro x fun y ⟨ms, h1, h2, h3⟩ => ?_
      obtain ⟨h4, h5, h6, h7⟩ := portion_less hP hs hu hL h1 h2 h3
      exact ih _ (hx ▸ h7) y rfl h6 h4 h5
  exact key _ (lessFrom_acc (L + 1) 0 (by omega) _) db rfl (fun _ _ => rfl) hu hL

/-! ## sqlite's cursor -/

theorem flushPiece_list : ∀ (ms : List Mark) (seen : Nat) (db : Db),
    match A.flushPiece ms seen db with
    | .ok (_, db') => A.flushList ms db = .ok db'
    | .error e => A.flushList ms db = .error e
  | [], _, _ => rfl
  | m :: ms, seen, db => by
    simp only [App.flushPiece, App.flushList]
    cases A.flushOne m db with
    | error e => rfl
    | ok db1 => exact flushPiece_list ms _ db1

theorem save_appends {om : OrmModel} {mem : Row} {db : Db} {p : Db × Row} (h : A.save om mem db = .ok p) : ∃ new, p.1.dirty = db.dirty ++ new := by
  have key : ∀ {s : Stmt} {db' : Db}, A.exec s db = .ok db' → ∃ new, db'.dirty = db.dirty ++ new := by
    intro s db' h
    simp only [App.exec] at h
    cases he : A.engine.exec A.fuel s db with
    | error e => rw [he] at h; simp at h
    | ok db1 =>
      rw [he] at h
      simp only [Except.ok.injEq] at h
      obtain ⟨new, h1, _⟩ := exec_withDirty he
      exact ⟨new, h ▸ h1⟩
  simp only [App.save] at h
  split at h
  · simp at h
  · split at h
    · split at h
      · rename_i db1 h1
        simp only [Except.ok.injEq] at h
        subst h
        exact key h1
      · simp at h
    · split at h
      · simp at h
      · split at h
        · rename_i db1 h1
          simp only [Except.ok.injEq] at h
          subst h
          exact key h1
        · simp at h

/-- The markers that a round of the loop leaves come first, in their order, and then those it has added. -/
theorem flushOne_appends {m : Mark} {db db' : Db} (h : A.flushOne m db = .ok db') : ∃ new, db'.dirty = (db.dirty.filter fun m' => m' ≠ m) ++ new := by
  simp only [App.flushOne] at h
  cases hs : A.saveObject m db with
  | error e => rw [hs] at h; simp at h
  | ok db1 =>
    rw [hs] at h
    simp only [Except.ok.injEq] at h
    subst h
    have : ∃ new, db1.dirty = db.dirty ++ new := by
      simp only [App.saveObject] at hs
      split at hs
      · simp at hs
      · simp only [Except.ok.injEq] at hs
        exact ⟨[], by simp [hs]⟩
      · split at hs
        · rename_i h1
          simp only [Except.ok.injEq] at hs
          subst hs
          exact save_appends h1
        · simp at hs
    obtain ⟨new, h1⟩ := this
    exact ⟨new.filter fun m' => m' ≠ m, by simp [Db.dropMarks, h1, List.filter_append]⟩

/-- The cursor stays where it is: before it lie the rows that lay before it, except those that were deleted. -/
theorem flushPiece_seen : ∀ (ms : List Mark) (seen : Nat) {db db' : Db} {s' : Nat}, A.flushPiece ms seen db = .ok (s', db') → seen ≤ db.dirty.length →
    db'.dirty.take s' = (db.dirty.take seen).filter fun m' => m' ∉ ms
  | [], seen, db, db', s', h, _ => by
    simp only [App.flushPiece, Except.ok.injEq, Prod.mk.injEq] at h
    obtain ⟨rfl, rfl⟩ := h
    rw [List.filter_eq_self.2 (by simp)]
  | m :: ms, seen, db, db', s', h, hle => by
    simp only [App.flushPiece] at h
    cases h1 : A.flushOne m db with
    | error e => rw [h1] at h; simp at h
    | ok db1 =>
      rw [h1] at h
      obtain ⟨new, h2⟩ := flushOne_appends h1
      have h3 : db1.dirty.take ((db.dirty.take seen).filter fun m' => m' ≠ m).length = (db.dirty.take seen).filter fun m' => m' ≠ m := by
        have : db.dirty.filter (fun m' => decide (m' ≠ m)) =
            (db.dirty.take seen).filter (fun m' => decide (m' ≠ m)) ++ (db.dirty.drop seen).filter (fun m' => decide (m' ≠ m)) := by
          rw [← List.filter_append, List.take_append_drop]
        rw [h2, this, List.append_assoc, List.take_left']
        rfl
      have h4 := flushPiece_seen ms _ h (by
        have := congrArg List.length h3
        simp only [List.length_take] at this
        omega)
      rw [h4, h3, List.filter_filter]
      congr 1
      funext m'
      by_cases e : m' = m <;> simp [e]

/-- All rows that the cursor has passed are gone when a portion is done. -/
theorem flushPiece_start {k : Nat} {db db' : Db} {s' : Nat} (h : A.flushPiece (db.dirty.take k) (db.dirty.take k).length db = .ok (s', db')) :
    db'.dirty.take s' = [] := by
  have := flushPiece_seen _ _ h (by simp only [List.length_take]; omega)
  rw [this, List.filter_eq_nil_iff]
  intro m hm
  have h1 : m ∈ db.dirty.take k := by
    rw [List.length_take] at hm
    by_cases hk : k ≤ db.dirty.length
    · rwa [Nat.min_eq_left hk] at hm
    · rw [Nat.min_eq_right (by omega), List.take_length] at hm
      rwa [List.take_of_length_le (by omega)]
  simpa using h1

theorem flushPiece_of_list {ms : List Mark} {seen : Nat} {db db' : Db} (h : A.flushList ms db = .ok db') :
    ∃ seen', A.flushPiece ms seen db = .ok (seen', db') := by
  have := flushPiece_list (A := A) ms seen db
  cases hp : A.flushPiece ms seen db with
  | error e => rw [hp] at this; simp [h] at this
  | ok x =>
    rw [hp] at this
    simp only [h, Except.ok.injEq] at this
    exact ⟨x.1, by rw [this]⟩

theorem handles_list : ∀ (ms : List Mark) {db db1 db' : Db}, A.flushList ms db = .ok db1 → A.Handles db1 db' → A.Handles db db'
  | [], db, db1, db', h, h' => by
    simp only [App.flushList, Except.ok.injEq] at h
    exact h ▸ h'
  | m :: ms, db, db1, db', h, h' => by
    simp only [App.flushList] at h
    cases h1 : A.flushOne m db with
    | error e => rw [h1] at h; simp at h
    | ok db2 =>
      rw [h1] at h
      exact .next h1 (handles_list ms h h')

theorem handles_readOn {k : Nat} : ∀ (n seen : Nat) {db db' : Db}, A.readOn k n seen db = .ok (some db') → A.Handles db db'
  | 0, _, _, _, h => by simp [App.readOn] at h
  | n + 1, seen, db, db', h => by
    simp only [App.readOn] at h
    split at h
    · split at h
      · rename_i hd
        simp only [Except.ok.injEq, Option.some.injEq] at h
        exact h ▸ .done hd
      · exact handles_readOn n 0 h
    · rename_i m ms _
      have hp := flushPiece_list (A := A) (m :: ms) (seen + (m :: ms).length) db
      split at h
      · rename_i s' db1 h1
        rw [h1] at hp
        exact handles_list _ hp (handles_readOn n s' h)
      · simp at h

theorem handles_flush : ∀ (n : Nat) {db db' : Db}, A.flush n db = .ok (some db') → A.Handles db db'
  | n, db, db', h => by
    unfold App.flush at h
    split at h
    · rename_i hd
      simp only [Except.ok.injEq, Option.some.injEq] at h
      exact h ▸ .done hd
    · cases n with
      | zero => simp at h
      | succ n =>
        simp only at h
        cases hs : A.pass db with
        | error e => rw [hs] at h; simp at h
        | ok db1 =>
          rw [hs] at h
          exact handles_list _ hs (handles_flush n h)

/-! ## What holds in the end -/

theorem handles_good {om : OrmModel} {cb : Callback} {db db' : Db} (h : A.Handles db db') (hG : Good A D om cb db) :
    Good A D om cb db' ∧ db'.dirty = [] := by
  induction h with
  | done hd => exact ⟨hG, hd⟩
  | next h _ ih => exact ih (good_flushOne hG h)

theorem handles_clean {db db' : Db} (h : A.Handles db db') : db'.dirty = [] := by
  induction h with
  | done hd => exact hd
  | next _ _ ih => exact ih

theorem meanwhile_good {om : OrmModel} {cb : Callback} {db x : Db} (h : A.Meanwhile db x) (hG : Good A D om cb db) : Good A D om cb x := by
  induction h with
  | now => exact hG
  | saved h => exact (good_saveObject hG h).1
  | next h _ ih => exact ih (good_flushOne hG h)

theorem handles_same (hS : KeysSafe A) {db db' : Db} (h : A.Handles db db') (hu : KeysUnique A db) : SameOutside (Touched A) db db' := by
  induction h with
  | done => exact SameOutside.refl _ _
  | next h _ ih => exact (flushOne_same hS hu h).trans (ih (sameKeys_flushOne hS hu h).2)

theorem handles_together {cbs : List Callback} {db e : Db} (hu : KeysUnique A db) (hc : FlushedTogether A D cbs db) (h : A.Handles db e) :
    FlushedTogether A D cbs e ∧ ∀ cb ∈ cbs, ∀ r ∈ e.rows cb.model.table, r cb.field = cb.value e r := by
  have hg : ∀ cb ∈ cbs, ∃ om, Good A D om cb e ∧ e.dirty = [] := fun cb hcb => by
    obtain ⟨om, h1, h2, h3⟩ := hc.each cb hcb
    exact ⟨om, handles_good h ⟨h1, hu, h2, h3⟩⟩
  refine ⟨⟨fun cb hcb => ?_, hc.own, hc.reads⟩, fun cb hcb r hr => ?_⟩
  · obtain ⟨om, hG, -⟩ := hg cb hcb
    exact ⟨om, hG.flushable, hG.keysOk, hG.stale⟩
  · obtain ⟨om, hG, hd⟩ := hg cb hcb
    refine Classical.byContradiction fun hne => ?_
    have := hG.stale r hr hne
    simp [Marked, hd] at this

/-! ## sqlite's cursor comes to an end -/

theorem flushPiece_finishes (hP : Project A D) (hfin : ∀ s db, A.engine.Finishes s db) : ∀ (ms : List Mark) (seen : Nat) {db : Db}, KeysUnique A db →
    MarksKnown A db → (∀ m ∈ ms, ∃ om ∈ A.models, om.model.ct = m.ct) →
    ∃ s' db' N, (∀ n, N ≤ n → (A.limit n).flushPiece ms seen db = .ok (s', db')) ∧ MarksKnown A db' ∧ KeysUnique A db'
  | [], seen, db, hu, hm, _ => ⟨seen, db, 0, fun _ _ => rfl, hm, hu⟩
  | m :: ms, seen, db, hu, hm, hms => by
    obtain ⟨db1, N, h1, h2, h3⟩ := flushOne_finishes hP hfin hu hm (hms m (List.mem_cons_self ..))
    obtain ⟨s', db', N', h4, h5, h6⟩ := flushPiece_finishes hP hfin ms ((db.dirty.take seen).filter fun m' => m' ≠ m).length h3 h2
      fun m' hm' => hms m' (List.mem_cons_of_mem _ hm')
    exact ⟨s', db', max N N', fun n hn => by simp only [App.flushPiece, h1 n (by omega)]; exact h4 n (by omega), h5, h6⟩

theorem readOn_returns (hP : Project A D) (hfin : ∀ s db, A.engine.Finishes s db) {k : Nat} (hk : 0 < k) {db : Db} (hu : KeysUnique A db)
    (hm : MarksKnown A db) (hL : Layered A D rank L db) (seen : Nat) :
    ∃ M N db', ∀ n, N ≤ n → (A.limit n).readOn k M seen db = .ok (some db') := by
  have key : ∀ c, Acc (LessFrom L 0) c → ∀ x, layerCount A db rank L x = c → SameKeys A db x → KeysUnique A x → Layered A D rank L x →
      MarksKnown A x → ∀ seen, ∃ M N db', ∀ n, N ≤ n → (A.limit n).readOn k M seen x = .ok (some db') := by
    intro c hc
    induction hc with
    | intro c _ ih =>
      intro x hx hs hu hL hm
      have piece : ∀ seen, (x.dirty.drop seen).take k ≠ [] → ∃ M N db', ∀ n, N ≤ n → (A.limit n).readOn k M seen x = .ok (some db') := by
        intro seen hne
        cases hp : (x.dirty.drop seen).take k with
        | nil => exact absurd hp hne
        | cons m ms =>
          have hin : ∀ m' ∈ m :: ms, m' ∈ x.dirty := fun m' h => List.mem_of_mem_drop (List.mem_of_mem_take (hp ▸ h))
          obtain ⟨s', y, N, hs', h2, h3⟩ := flushPiece_finishes hP hfin (m :: ms) (seen + (m :: ms).length) hu hm fun m' h => hm m' (hin m' h)
          have h1 : (A.limit N).flushList (m :: ms) x = .ok y := by
            have := flushPiece_list (A := A.limit N) (m :: ms) (seen + (m :: ms).length) x
            rwa [hs' N (Nat.le_refl _)] at this
          obtain ⟨h4, h5, h6, h7⟩ := portion_less (A := A.limit N) (project_limit hP N) (db0 := db) (hs : SameKeys (A.limit N) db x) hu
            ⟨hL.up, hL.bound⟩ (by simp) hin h1
          have h5' : Layered A D rank L y := ⟨h5.up, h5.bound⟩
          obtain ⟨M, N', db', h8⟩ := ih _ (hx ▸ h7) y rfl h6 h3 h5' h2 s'
          refine ⟨M + 1, max N N', db', fun n hn => ?_⟩
          simp only [App.readOn, hp, hs' n (by omega)]
          exact h8 n (by omega)
      intro seen
      by_cases hd : x.dirty = []
      · exact ⟨1, 0, x, fun n _ => by simp [App.readOn, hd]⟩
      · by_cases hp : (x.dirty.drop seen).take k = []
        · obtain ⟨M, N, db', h⟩ := piece 0 (by
            intro h0
            simp only [List.drop_zero, List.take_eq_nil_iff] at h0
            rcases h0 with h0 | h0
            · omega
            · exact hd h0)
          exact ⟨M + 1, N, db', fun n hn => by simp only [App.readOn, hp, if_neg hd]; exact h n hn⟩
        · exact piece seen hp
  exact key _ (lessFrom_acc (L + 1) 0 (by omega) _) db rfl (fun _ _ => rfl) hu hL hm seen

end
end Denorm
