import Verif.Lemmas.Daemon
/-!
# The daemon and the middleware (C35, C36)
-/
namespace Denorm

/-! ## C36 -/

/-- C36. `process_response` calls flush() exactly once. If flush() returns, it returns the response it was given and does nothing else; if
flush() raises a database error, it logs this error, once, and returns the response; any other exception is raised to the caller and nothing is logged. (Logging
itself is taken to return.) -/
theorem C36_process_response {Response : Type} (o : Oracle) (response : Response) (tr : List Call)
    (hlog : ∀ e tr, o (tr ++ [.logError e]) = none) :
    match o (tr ++ [.flush]) with
    | none => processResponse o response tr = (tr ++ [.flush], .ok response)
    | some e =>
      (e.isDatabaseError → processResponse o response tr = (tr ++ [.flush, .logError e], .ok response)) ∧
      (¬ e.isDatabaseError → processResponse o response tr = (tr ++ [.flush], .error e)) := by
  cases h : o (tr ++ [.flush]) with
  | none => simp [processResponse, call, h]
  | some e =>
    simp only [processResponse, call, h, ← isA_databaseError]
    refine ⟨fun hd => ?_, fun hd => ?_⟩
    · rw [if_pos hd, hlog]
      simp [Ran.andThen]
    · rw [if_neg hd]

/-- The three cases occur: a deadlock is logged, a bug in a callback is not swallowed, nor is `InterfaceError`. -/
example : processResponse (fun tr => if tr = [.flush] then some ⟨.operationalError, "deadlock"⟩ else none) "page" [] =
    ([.flush, .logError ⟨.operationalError, "deadlock"⟩], .ok "page") := rfl
example : processResponse (fun tr => if tr = [.flush] then some ⟨.valueError, ""⟩ else none) "page" [] =
    ([.flush], .error ⟨.valueError, ""⟩) := rfl
example : processResponse (fun tr => if tr = [.flush] then some ⟨.interfaceError, ""⟩ else none) "page" [] =
    ([.flush], .error ⟨.interfaceError, ""⟩) := rfl
example : processResponse (fun _ => none) "page" [] = ([.flush], .ok "page") := rfl

/-! ## C35 -/

section
variable {v : PyVersion} {file : PidRead} {kill : Kill} {o : Oracle} {opt : Options}

/-- C35, rounds. Without `-o`, and when no other daemon is found, the daemon flushes, waits and commits, again and again, as long as none of
these calls raises. What is missing: any exception other than an interrupt, for example a deadlock in flush(), ends the daemon (`C35_error_ends`), and `-o`; see
`C35_violated_once`. -/
theorem C35_rounds_partial (hp : pidExists v file kill = .ok false) (hr : opt.runOnce = false) (n : Nat)
    (hok : ∀ l, l <+: startUp v opt ++ rounds opt.interval n → o l = none) :
    daemon v file kill o opt n = (startUp v opt ++ rounds opt.interval n, .running) := by
  rw [daemon_start hp (fun l hl => hok l (hl.trans (List.prefix_append ..))) hr]
  have := loop_add (o := o) hr (startUp v opt) n 0 fun l hl => hok _ ((List.prefix_append_right_inj _).2 hl)
  simp only [Nat.add_zero] at this
  rw [this, daemonLoop, if_neg (by simp [hr])]

/-- C35, interrupts. If the interrupt comes in round `n + 1`, while flush(), sleep() or commit() is being called, the daemon commits and exits. -/
theorem C35_interrupt (hp : pidExists v file kill = .ok false) (hr : opt.runOnce = false) {n : Nat} {part : List Call} {e : Exc}
    (hpart : part <+: [Call.flush, .sleep opt.interval, .commit]) (hne : part ≠ [])
    (hok : ∀ l, l <+: startUp v opt ++ rounds opt.interval n ++ part → l ≠ startUp v opt ++ rounds opt.interval n ++ part → o l = none)
    (he : o (startUp v opt ++ rounds opt.interval n ++ part) = some e) (hk : e.cls = .keyboardInterrupt)
    (hc : o (startUp v opt ++ rounds opt.interval n ++ part ++ [.commit]) = none) (m : Nat) :
    daemon v file kill o opt (n + 1 + m) = (startUp v opt ++ rounds opt.interval n ++ part ++ [.commit, .exit], .raised ⟨.systemExit, ""⟩) := by
  have hlt : ∀ l, l <+: startUp v opt ++ rounds opt.interval n → o l = none := by
    intro l hl
    refine hok l (hl.trans (List.prefix_append ..)) fun e => ?_
    have := hl.length_le
    rw [e] at this
    simp only [List.length_append] at this
    have : part.length = 0 := by omega
    exact hne (List.length_eq_zero_iff.1 this)
  rw [daemon_start hp (fun l hl => hlt l (hl.trans (List.prefix_append ..))) hr,
    show n + 1 + m = n + (m + 1) by omega, loop_add hr _ n (m + 1) fun l hl => hlt _ ((List.prefix_append_right_inj _).2 hl),
    daemonLoop, if_neg (by simp [hr])]
  generalize startUp v opt ++ rounds opt.interval n = pre at *
  have hi : e.cls.isA .keyboardInterrupt = true := by rw [hk]; rfl
  have : daemonRound o opt.interval pre = (pre ++ part ++ [.commit, .exit], .error ⟨.systemExit, ""⟩) := by
    have hpre : ∀ l r, r ≠ [] → part = l ++ r → o (pre ++ l) = none := by
      intro l r hr' hl
      refine hok _ ((List.prefix_append_right_inj _).2 ⟨r, hl.symm⟩) fun e => ?_
      have := congrArg List.length e
      rw [hl] at this
      simp only [List.length_append] at this
      exact hr' (List.length_eq_zero_iff.1 (by omega))
    rcases part with _ | ⟨c1, _ | ⟨c2, _ | ⟨c3, _ | ⟨c4, r⟩⟩⟩⟩
    · exact absurd rfl hne
    · obtain ⟨rfl, _⟩ := List.cons_prefix_cons.1 hpart
      simp at hc
      simp [daemonRound, call, Ran.andThen, he, hi, hc]
    · obtain ⟨rfl, h2⟩ := List.cons_prefix_cons.1 hpart
      obtain ⟨rfl, _⟩ := List.cons_prefix_cons.1 h2
      have e1 := hpre [.flush] [.sleep opt.interval] (by simp) rfl
      simp at hc
      simp [daemonRound, call, Ran.andThen, e1, he, hi, hc]
    · obtain ⟨rfl, h2⟩ := List.cons_prefix_cons.1 hpart
      obtain ⟨rfl, h3⟩ := List.cons_prefix_cons.1 h2
      obtain ⟨rfl, _⟩ := List.cons_prefix_cons.1 h3
      have e1 := hpre [.flush] [.sleep opt.interval, .commit] (by simp) rfl
      have e2 := hpre [.flush, .sleep opt.interval] [.commit] (by simp) rfl
      simp at hc
      simp [daemonRound, call, Ran.andThen, e1, e2, he, hi, hc]
    · have := hpart.length_le
      simp at this
  rw [this]

/-- C35: any other exception in a round ends the daemon without a commit. -/
theorem C35_error_ends {n : Nat} {e : Exc} (hp : pidExists v file kill = .ok false) (hr : opt.runOnce = false)
    (hok : ∀ l, l <+: startUp v opt ++ rounds opt.interval n → o l = none)
    (he : o (startUp v opt ++ rounds opt.interval n ++ [.flush]) = some e) (hk : e.cls.isA .keyboardInterrupt = false) (m : Nat) :
    daemon v file kill o opt (n + 1 + m) = (startUp v opt ++ rounds opt.interval n ++ [.flush], .raised e) := by
  rw [daemon_start hp (fun l hl => hok l (hl.trans (List.prefix_append ..))) hr,
    show n + 1 + m = n + (m + 1) by omega, loop_add hr _ n (m + 1) fun l hl => hok _ ((List.prefix_append_right_inj _).2 hl),
    daemonLoop, if_neg (by simp [hr])]
  have : daemonRound o opt.interval (startUp v opt ++ rounds opt.interval n) = (startUp v opt ++ rounds opt.interval n ++ [.flush], .error e) := by
    simp only [daemonRound, call, Ran.andThen, he, hk]
    simp
  rw [this]

/-- C35, one daemon: while the pid file names a process that is alive, or one that belongs to another user, a second daemon never flushes. -/
theorem C35_single {pid : Int} (hf : file = .contents (some pid)) (hk : kill pid = none ∨ kill pid = some EPERM) (n : Nat) :
    .flush ∉ (daemon v file kill o opt n).1 := by
  have hp : pidExists v file kill = .ok true ∨ ∃ e, pidExists v file kill = .error e := by
    rcases hk with hk | hk
    · exact .inl (by simp [pidExists, hf, hk])
    · cases v
      · exact .inl (by simp [pidExists, hf, hk, isEperm, EPERM])
      · exact .inl (by simp [pidExists, hf, hk, isEperm, EPERM])
      · exact .inr ⟨⟨.attributeError, "module 'os' has no attribute 'errno'"⟩, by simp [pidExists, hf, hk, isEperm]⟩
  have hc : ∀ (c : Call) (tr : List Call), (call o c tr).1 = tr ++ [c] := by
    intro c tr; unfold call; split <;> rfl
  unfold daemon
  split
  · rename_i tr e h
    have := hc (.setAutocommit false) []
    rw [h] at this
    simp only at this
    simp [this]
  · rename_i tr h
    have htr := hc (.setAutocommit false) []
    rw [h] at htr
    simp only [List.nil_append] at htr
    subst htr
    rcases hp with hp | ⟨e, hp⟩
    · have h2 : ∀ r : Ran Unit, r = ((call o .commit [Call.setAutocommit false]).andThen fun _ tr => call o (.setAutocommit true) tr) →
          .flush ∉ r.1 := by
        rintro r rfl
        unfold Ran.andThen
        split
        · rw [hc, hc]; simp
        · simp only [hc]; simp
      simp only [handle, hp]
      generalize hr : ((call o .commit [Call.setAutocommit false]).andThen fun _ tr => call o (.setAutocommit true) tr) = r
      have h3 := h2 r hr.symm
      rcases r with ⟨tr, _ | _⟩ <;> exact h3
    · simp [handle, hp]

/-- C35 is violated: with `-o` the daemon does not flush at all. -/
theorem C35_violated_once (hr : opt.runOnce = true) (n : Nat) : .flush ∉ (daemon v file kill o opt n).1 := by
  have hc : ∀ (c : Call) (tr : List Call), (call o c tr).1 = tr ++ [c] := by
    intro c tr; unfold call; split <;> rfl
  have hl : ∀ tr, daemonLoop o opt n tr = (tr, .returned) := fun tr => by unfold daemonLoop; simp [hr]
  have hd : ∀ tr, .flush ∉ tr → .flush ∉ (daemonize v o tr).1 := by
    intro tr h
    unfold daemonize
    split
    · rw [hc]; simp [h]
    · exact h
  have hh : ∀ tr, .flush ∉ tr → .flush ∉ (handle v file kill o opt n tr).1 := by
    intro tr h
    unfold handle
    split
    · exact h
    · exact h
    · split
      · rw [hl]; exact h
      · have := hd tr h
        split
        · rename_i he; rw [he] at this; rw [hl]; exact this
        · rename_i he; rw [he] at this; exact this
  unfold daemon
  split
  · rename_i h
    have := hc (.setAutocommit false) []
    rw [h] at this
    simp only at this
    simp [this]
  · rename_i tr h
    have htr := hc (.setAutocommit false) []
    rw [h] at htr
    simp only [List.nil_append] at htr
    have h1 := hh tr (by simp [htr])
    generalize handle v file kill o opt n tr = r at h1
    rcases r with ⟨tr', st⟩
    cases st with
    | running => exact h1
    | raised e => exact h1
    | returned =>
      simp only at h1 ⊢
      have h2 : ∀ r : Ran Unit, r = ((call o .commit tr').andThen fun _ tr => call o (.setAutocommit true) tr) → .flush ∉ r.1 := by
        rintro r rfl
        unfold Ran.andThen
        split
        · rw [hc, hc]; simp [h1]
        · simp only [hc]; simp [h1]
      generalize hr : ((call o .commit tr').andThen fun _ tr => call o (.setAutocommit true) tr) = r
      have h3 := h2 r hr.symm
      rcases r with ⟨tr, _ | _⟩ <;> exact h3

end

/-- C35 is violated in Python 3: a daemon in the background never writes the pid file, so it does not keep another one from starting. -/
theorem C35_violated_pidfile (n : Nat) (kill : Kill) :
    daemon .py3 (.error ENOENT) kill (fun _ => none) {} n = (startUp .py3 {} ++ rounds 1 n, .running) ∧
    .writePid ∉ (daemon .py3 (.error ENOENT) kill (fun _ => none) {} n).1 := by
  have h := C35_rounds_partial (v := .py3) (file := .error ENOENT) (kill := kill) (o := fun _ => none) (opt := {}) rfl rfl n fun _ _ => rfl
  refine ⟨h, ?_⟩
  rw [h]
  have : ∀ n, .writePid ∉ rounds 1 n := by
    intro n
    induction n with
    | zero => simp [rounds]
    | succ n ih => simp [rounds, ih]
  simp [startUp, this n]

/-- C35 is violated from Python 3.7 on: without a pid file the daemon does not start. -/
theorem C35_violated_no_errno (n : Nat) (kill : Kill) (o : Oracle) (opt : Options) (ho : o [.setAutocommit false] = none) :
    daemon .py37 (.error ENOENT) kill o opt n =
      ([.setAutocommit false], .raised ⟨.attributeError, "module 'os' has no attribute 'errno'"⟩) := by
  simp [daemon, call, ho, handle, pidExists, isEperm]

/-- The hypotheses of C35 are met: a stale pid file (process 7 is gone), and an interrupt during the second sleep. -/
example : pidExists .py2 (.contents (some 7)) (fun _ => some 3) = .ok false := rfl
example : daemon .py2 (.contents (some 7)) (fun _ => some 3)
    (fun tr => if tr = [.setAutocommit false, .writePid, .flush, .sleep 5, .commit, .flush, .sleep 5] then some ⟨.keyboardInterrupt, ""⟩ else none)
    { interval := 5 } 100 =
    ([.setAutocommit false, .writePid, .flush, .sleep 5, .commit, .flush, .sleep 5, .commit, .exit], .raised ⟨.systemExit, ""⟩) := rfl

end Denorm
