import Verif.Spec.Daemon
namespace Denorm

theorem isA_databaseError (e : Exc) : e.cls.isA .databaseError = true ↔ e.isDatabaseError := by
  unfold Exc.isDatabaseError
  cases e.cls <;> simp [ExcClass.isA, ExcClass.base]

section
variable {v : PyVersion} {file : PidRead} {kill : Kill} {o : Oracle} {opt : Options}

theorem rounds_succ (i n : Nat) : rounds i (n + 1) = [.flush, .sleep i, .commit] ++ rounds i n := by
  induction n with
  | zero => rfl
  | succ n ih =>
    have : rounds i (n + 2) = rounds i (n + 1) ++ [.flush, .sleep i, .commit] := rfl
    rw [this, ih, List.append_assoc, ← ih]
    show _ = _ ++ rounds i (n + 1)
    rw [show rounds i (n + 1) = rounds i n ++ [.flush, .sleep i, .commit] from rfl]

theorem round_ok {i : Nat} {tr : List Call} (h1 : o (tr ++ [.flush]) = none) (h2 : o (tr ++ [.flush, .sleep i]) = none)
    (h3 : o (tr ++ [.flush, .sleep i, .commit]) = none) : daemonRound o i tr = (tr ++ [.flush, .sleep i, .commit], .ok ()) := by
  simp [daemonRound, call, Ran.andThen, h1, h2, h3]

theorem loop_add (hr : opt.runOnce = false) (pre : List Call) : ∀ (k m : Nat),
    (∀ l, l <+: rounds opt.interval k → o (pre ++ l) = none) →
    daemonLoop o opt (k + m) pre = daemonLoop o opt m (pre ++ rounds opt.interval k)
  | 0, m, _ => by simp [rounds]
  | k + 1, m, h => by
    rw [rounds_succ] at h
    rw [show k + 1 + m = (k + m) + 1 by omega, daemonLoop, if_neg (by simp [hr])]
    have hp : ∀ l, l <+: [Call.flush, .sleep opt.interval, .commit] → o (pre ++ l) = none := fun l hl => h l (hl.trans (List.prefix_append ..))
    rw [round_ok (hp _ ⟨[.sleep opt.interval, .commit], rfl⟩) (hp _ ⟨[.commit], rfl⟩) (hp _ ⟨[], rfl⟩)]
    simp only
    rw [loop_add hr _ k m fun l hl => by
      rw [List.append_assoc]
      exact h _ (List.prefix_append_right_inj _ |>.2 hl)]
    rw [rounds_succ, List.append_assoc]

theorem daemon_start (hp : pidExists v file kill = .ok false) (h0 : ∀ l, l <+: startUp v opt → o l = none) (hr : opt.runOnce = false) (n : Nat) :
    daemon v file kill o opt n = daemonLoop o opt n (startUp v opt) := by
  have h1 : o [.setAutocommit false] = none := h0 _ ⟨_, rfl⟩
  have hl : ∀ (n : Nat) (tr : List Call), (daemonLoop o opt n tr).2 ≠ .returned := by
    intro n
    induction n with
    | zero => intro tr; simp [daemonLoop, hr]
    | succ n ih =>
      intro tr
      rw [daemonLoop, if_neg (by simp [hr])]
      split
      · exact ih _
      · simp
  have key : ∀ (r : List Call × Status), r.2 ≠ .returned → (match r with
      | (tr, .returned) =>
        match (call o .commit tr).andThen fun _ tr => call o (.setAutocommit true) tr with
        | (tr, .ok ()) => (tr, .returned)
        | (tr, .error e) => (tr, Status.raised e)
      | r => r) = r := by
    rintro ⟨tr, st⟩ h
    cases st <;> simp_all
  simp only [daemon, call, List.nil_append, h1, handle, hp]
  cases hf : opt.foreground with
  | true =>
    simp only [if_true, startUp, hf, Bool.not_true, Bool.false_and, Bool.false_eq_true, if_false]
    exact key _ (hl _ _)
  | false =>
    cases v with
    | py2 =>
      have h2 : o [.setAutocommit false, .writePid] = none := h0 _ ⟨[], by simp [startUp, hf]⟩
      simp only [startUp, hf, daemonize, call, List.cons_append, List.nil_append, h2]
      exact key _ (hl _ _)
    | py3 =>
      simp only [startUp, hf, daemonize]
      exact key _ (hl _ _)
    | py37 =>
      simp only [startUp, hf, daemonize]
      exact key _ (hl _ _)

end

end Denorm
