import Verif.Spec.Waiting
import Verif.Lemmas.Finishes
/-!
# Locks taken in order

A list of locks is in order if each new row lies on a lower level than everything locked before. Sessions that take their locks in order never wait in a circle.
-/
namespace Denorm

/-- Who holds `h` needs no more for `q`. -/
def Lock.Covers (h q : Lock) : Prop := h.table = q.table ∧ h.key = q.key ∧ ∀ m : LockMode, q.mode.excludes m = true → h.mode.excludes m = true

theorem LockMode.excludes_comm (a b : LockMode) : a.excludes b = b.excludes a := by cases a <;> cases b <;> rfl

theorem Lock.conflict_comm (a b : Lock) : a.conflict b = b.conflict a := by
  simp only [Lock.conflict, LockMode.excludes_comm a.mode b.mode, eq_comm (a := a.table), eq_comm (a := a.key)]

theorem Lock.conflict_iff {a b : Lock} : a.conflict b = true ↔ a.table = b.table ∧ a.key = b.key ∧ a.mode.excludes b.mode = true := by
  simp [Lock.conflict, and_assoc]

theorem Lock.Covers.conflict {h q x : Lock} (hc : h.Covers q) (hx : q.conflict x = true) : h.conflict x = true := by
  obtain ⟨h1, h2, h3⟩ := Lock.conflict_iff.1 hx
  exact Lock.conflict_iff.2 ⟨hc.1.trans h1, hc.2.1.trans h2, hc.2.2 _ h3⟩

theorem Lock.Covers.refl (h : Lock) : h.Covers h := ⟨rfl, rfl, fun _ h => h⟩

/-- The lock `q` may be asked for after the locks `pre`. -/
def FitsAfter (ρ : TableName → Nat) (pre : List Lock) (q : Lock) : Prop :=
  (∃ h ∈ pre, h.Covers q) ∨ ((q.mode = .delete → pre = []) ∧ ∀ h ∈ pre, h.mode ≠ .key → ρ q.table < ρ h.table)

/-- The locks `qs` are taken in order, after the locks `pre`. -/
def InOrderAfter (ρ : TableName → Nat) : List Lock → List Lock → Prop
  | _, [] => True
  | pre, q :: qs => FitsAfter ρ pre q ∧ InOrderAfter ρ (pre ++ [q]) qs

theorem inOrder_append {ρ : TableName → Nat} : ∀ {l l' pre : List Lock}, InOrderAfter ρ pre l → InOrderAfter ρ (pre ++ l) l' →
    InOrderAfter ρ pre (l ++ l')
  | [], _, _, _, h => by simpa using h
  | q :: l, l', pre, h1, h2 => ⟨h1.1, inOrder_append h1.2 (by simpa using h2)⟩

/-- What holds of all sessions at any time. -/
structure Waiting (ρ : TableName → Nat) (ws : List Waiter) : Prop where
  order : ∀ w ∈ ws, InOrderAfter ρ w.held w.todo
  apart : ∀ (i j : Nat) (w v : Waiter), i ≠ j → ws[i]? = some w → ws[j]? = some v → ∀ a ∈ w.held, ∀ b ∈ v.held, a.conflict b = false

theorem waiting_run {ρ : TableName → Nat} {allowed : List Lock → Prop} (ha : ∀ p, allowed p → InOrderAfter ρ [] p) {ws : List Waiter}
    (h : LockRun allowed ws) : Waiting ρ ws := by
  induction h with
  | start => exact ⟨by simp, by simp⟩
  | @step ws ws' _ hs ih =>
    cases hs with
    | begin p hp =>
      refine ⟨fun w hw => ?_, fun i j w v hij hi hj a ha' b hb => ?_⟩
      · rcases List.mem_append.1 hw with hw | hw
        · exact ih.order w hw
        · simp only [List.mem_singleton] at hw; subst hw; exact ha p hp
      · have key : ∀ {k : Nat} {x : Waiter}, (ws ++ [⟨[], p⟩])[k]? = some x → x.held ≠ [] → ws[k]? = some x := by
          intro k x hk hx
          rw [List.getElem?_append] at hk
          split at hk
          · exact hk
          · have : x ∈ [(⟨[], p⟩ : Waiter)] := List.mem_of_getElem? hk
            simp only [List.mem_singleton] at this
            subst this; exact absurd rfl hx
        exact ih.apart i j w v hij (key hi (List.ne_nil_of_mem ha')) (key hj (List.ne_nil_of_mem hb)) a ha' b hb
    | grant k held q todo hk free =>
      have hkm : (⟨held, q :: todo⟩ : Waiter) ∈ ws := List.mem_of_getElem? hk
      have ho := ih.order _ hkm
      have hlt : k < ws.length := (List.getElem?_eq_some_iff.1 hk).1
      refine ⟨fun w hw => ?_, fun i j w v hij hi hj a ha' b hb => ?_⟩
      · rcases List.mem_or_eq_of_mem_set hw with hw | rfl
        · exact ih.order w hw
        · exact ho.2
      · have hq : ∀ {j : Nat} {v : Waiter}, k ≠ j → ws[j]? = some v → ∀ b ∈ v.held, q.conflict b = false := by
          intro j v hj hv b hb
          cases hc : q.conflict b with
          | false => rfl
          | true => exact absurd ⟨hj, v, hv, b, hb, hc⟩ (free j)
        by_cases hik : i = k
        · subst hik
          rw [List.getElem?_set_self hlt] at hi
          cases hi
          rw [List.getElem?_set_ne hij] at hj
          rcases List.mem_append.1 ha' with ha' | ha'
          · exact ih.apart i j _ v hij hk hj a ha' b hb
          · simp only [List.mem_singleton] at ha'; subst ha'; exact hq hij hj b hb
        · rw [List.getElem?_set_ne (Ne.symm hik)] at hi
          by_cases hjk : j = k
          · subst hjk
            rw [List.getElem?_set_self hlt] at hj
            cases hj
            rcases List.mem_append.1 hb with hb | hb
            · exact ih.apart i j w _ hij hi hk a ha' b hb
            · simp only [List.mem_singleton] at hb; subst hb
              rw [Lock.conflict_comm]; exact hq (Ne.symm hik) hi a ha'
          · rw [List.getElem?_set_ne (Ne.symm hjk)] at hj
            exact ih.apart i j w v hij hi hj a ha' b hb
    | finish k =>
      refine ⟨fun w hw => ?_, fun i j w v hij hi hj a ha' b hb => ?_⟩
      · rcases List.mem_or_eq_of_mem_set hw with hw | rfl
        · exact ih.order w hw
        · trivial
      · have key : ∀ {m : Nat} {x : Waiter}, (ws.set k ⟨[], []⟩)[m]? = some x → x.held ≠ [] → ws[m]? = some x := by
          intro m x hm hx
          rw [List.getElem?_set] at hm
          split at hm
          · split at hm
            · cases hm; exact absurd rfl hx
            · simp at hm
          · exact hm
        exact ih.apart i j w v hij (key hi (List.ne_nil_of_mem ha')) (key hj (List.ne_nil_of_mem hb)) a ha' b hb

/-- A session that holds something and waits, waits for a session that in turn wants something on a lower level. -/
theorem waits_lower {ρ : TableName → Nat} {ws : List Waiter} (hw : Waiting ρ ws) {i j k : Nat} {held held' todo todo' : List Lock} {q q' : Lock}
    (hi : ws[i]? = some ⟨held, q :: todo⟩) (hne : held ≠ []) (hij : waitsFor ws i q j) (hj : ws[j]? = some ⟨held', q' :: todo'⟩)
    (hjk : waitsFor ws j q' k) : held' ≠ [] ∧ ρ q'.table < ρ q.table := by
  obtain ⟨hij, w, hw1, h, hh, hc⟩ := hij
  rw [hj] at hw1; cases hw1
  obtain ⟨hjk, w, hw2, h2, hh2, hc2⟩ := hjk
  have notCov : ∀ {i k : Nat} {held todo : List Lock} {q : Lock} {w : Waiter} {h2 : Lock}, ws[i]? = some ⟨held, q :: todo⟩ → i ≠ k → ws[k]? = some w → h2 ∈ w.held →
      q.conflict h2 = true → ¬ ∃ h ∈ held, h.Covers q := by
    rintro i k held todo q w h2 hi hik hk hh2 hc ⟨h, hh, hcov⟩
    have := hw.apart i k _ _ hik hi hk h hh h2 hh2
    rw [hcov.conflict hc] at this; cases this
  refine ⟨List.ne_nil_of_mem hh, ?_⟩
  have oi := (hw.order _ (List.mem_of_getElem? hi)).1
  have oj := (hw.order _ (List.mem_of_getElem? hj)).1
  rcases oi with oi | ⟨oi, _⟩
  · exact absurd oi (notCov hi hij hj hh hc)
  rcases oj with oj | ⟨_, oj⟩
  · exact absurd oj (notCov hj hjk hw2 hh2 hc2)
  have hcm := Lock.conflict_iff.1 hc
  rw [hcm.1]
  refine oj h hh fun hm => hne (oi ?_)
  have := hcm.2.2
  rw [hm] at this
  revert this
  cases q.mode <;> simp [LockMode.excludes]

theorem noDeadlock {ρ : TableName → Nat} {ws : List Waiter} (hw : Waiting ρ ws) : ¬ Deadlock ws := by
  rintro ⟨I, hI, h⟩
  have step : ∀ n i held q todo, i ∈ I → ws[i]? = some ⟨held, q :: todo⟩ → held ≠ [] → ρ q.table < n → False := by
    intro n
    induction n with
    | zero => intro _ _ _ _ _ _ _ h; omega
    | succ n ih =>
      intro i held q todo hi hwi hne hlt
      obtain ⟨_, _, _, hwi', j, hj, hij⟩ := h i hi
      rw [hwi] at hwi'; cases hwi'
      obtain ⟨held', q', todo', hwj, k, _, hjk⟩ := h j hj
      obtain ⟨hne', hl⟩ := waits_lower hw hwi hne hij hwj hjk
      exact ih j held' q' todo' hj hwj hne' (by omega)
  obtain ⟨i, hi⟩ := List.exists_mem_of_ne_nil I hI
  obtain ⟨held, q, todo, _, j, hj, _, w, hwj', l, hl, _⟩ := h i hi
  obtain ⟨held', q', todo', hwj, _⟩ := h j hj
  rw [hwj] at hwj'; cases hwj'
  exact step (ρ q'.table + 1) j held' q' todo' hj hwj (List.ne_nil_of_mem hl) (by omega)

/-! ## Two sessions that do -/

section
variable {allowed : List Lock → Prop}

theorem grant_first : ∀ {l held todo : List Lock} {v : Waiter}, (∀ q ∈ l, ∀ h ∈ v.held, q.conflict h = false) → LockRun allowed [⟨held, l ++ todo⟩, v] →
    LockRun allowed [⟨held ++ l, todo⟩, v]
  | [], _, _, _, _, h => by simpa using h
  | q :: l, held, todo, v, hc, h => by
    have := LockRun.step h (.grant _ 0 held q (l ++ todo) rfl (by
      rintro j ⟨hj, w, hw, x, hx, hq⟩
      rcases j with _ | _ | j
      · exact hj rfl
      · simp only [List.getElem?_cons_succ, List.getElem?_cons_zero, Option.some.injEq] at hw
        subst hw
        rw [hc q (List.mem_cons_self ..) x hx] at hq; cases hq
      · simp at hw))
    simpa using grant_first (fun q' hq' => hc q' (List.mem_cons_of_mem _ hq')) this

theorem grant_second : ∀ {l held todo : List Lock} {v : Waiter}, (∀ q ∈ l, ∀ h ∈ v.held, q.conflict h = false) → LockRun allowed [v, ⟨held, l ++ todo⟩] →
    LockRun allowed [v, ⟨held ++ l, todo⟩]
  | [], _, _, _, _, h => by simpa using h
  | q :: l, held, todo, v, hc, h => by
    have := LockRun.step h (.grant _ 1 held q (l ++ todo) rfl (by
      rintro j ⟨hj, w, hw, x, hx, hq⟩
      rcases j with _ | _ | j
      · simp only [List.getElem?_cons_zero, Option.some.injEq] at hw
        subst hw
        rw [hc q (List.mem_cons_self ..) x hx] at hq; cases hq
      · exact hj rfl
      · simp at hw))
    simpa using grant_second (fun q' hq' => hc q' (List.mem_cons_of_mem _ hq')) this

/-- The first session takes the locks `a`, the second one the locks `b`; then each wants something that the other one has. -/
theorem two_deadlock {a b r r' : List Lock} {q q' : Lock} (h : allowed (a ++ q :: r)) (h' : allowed (b ++ q' :: r'))
    (hab : ∀ x ∈ b, ∀ y ∈ a, x.conflict y = false) (hq : ∃ y ∈ b, q.conflict y = true) (hq' : ∃ y ∈ a, q'.conflict y = true) :
    ∃ ws, LockRun allowed ws ∧ Deadlock ws := by
  have h1 : LockRun allowed [⟨[], a ++ q :: r⟩, ⟨[], b ++ q' :: r'⟩] :=
    .step (.step .start (.begin [] _ h)) (.begin _ _ h')
  have h2 := grant_second (by simpa using hab) (grant_first (by simp) h1)
  simp only [List.nil_append] at h2
  refine ⟨_, h2, [0, 1], by simp, fun i hi => ?_⟩
  simp only [List.mem_cons, List.not_mem_nil, or_false] at hi
  rcases hi with rfl | rfl
  · exact ⟨a, q, r, rfl, 1, by simp, by decide, _, rfl, hq⟩
  · exact ⟨b, q', r', rfl, 0, by simp, by decide, _, rfl, hq'⟩

/-- The same, for lists that can be computed. -/
theorem two_deadlock_at {p p' : List Lock} (n n' : Nat) {q q' : Lock} (h : allowed p) (h' : allowed p') (hn : p[n]? = some q) (hn' : p'[n']? = some q')
    (hc : ((p'.take n').all fun x => (p.take n).all fun y => !x.conflict y) = true) (hq : (p'.take n').any q.conflict = true)
    (hq' : (p.take n).any q'.conflict = true) : ∃ ws, LockRun allowed ws ∧ Deadlock ws := by
  have split : ∀ {l : List Lock} {k : Nat} {x : Lock}, l[k]? = some x → l.take k ++ x :: l.drop (k + 1) = l := by
    intro l k x hx
    obtain ⟨hlt, rfl⟩ := List.getElem?_eq_some_iff.1 hx
    rw [← List.drop_eq_getElem_cons hlt, List.take_append_drop]
  refine two_deadlock (a := p.take n) (b := p'.take n') (q := q) (q' := q') (r := p.drop (n + 1)) (r' := p'.drop (n' + 1)) (by rw [split hn]; exact h)
    (by rw [split hn']; exact h') (fun x hx y hy => ?_) (by simpa using hq) (by simpa using hq')
  have := List.all_eq_true.1 (List.all_eq_true.1 hc x hx) y hy
  simpa using this

end

end Denorm
