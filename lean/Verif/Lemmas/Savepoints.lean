import Verif.Spec.Savepoints
/-!
# Schedules with savepoints and schedules without

`Choice X Y`: `Y` is the state in which some of the sessions of `X` have already gone back to one of their savepoints. Each such state is the result of a schedule without savepoints: leave
out what has been rolled back, what had to wait and what sessions are about to roll back.
-/
namespace Denorm

/-- The locks of `b` are among those of `a` or `h`. -/
def Locks.Within (b a h : Locks) : Prop :=
  (∀ x ∈ b.rows, x ∈ a.rows ∨ x ∈ h.rows) ∧ (∀ x ∈ b.deleted, x ∈ a.deleted ∨ x ∈ h.deleted) ∧ ∀ x ∈ b.refs, x ∈ a.refs ∨ x ∈ h.refs

theorem conflict_within {back : Backend} {l a b h : Locks} (hw : b.Within a h) (ha : Locks.conflict back l a = false) (hh : Locks.conflict back l h = false) :
    Locks.conflict back l b = false := by
  obtain ⟨h1, h2, h3⟩ := hw
  cases back <;> simp only [Locks.conflict, Bool.or_eq_false_iff, Bool.and_eq_false_iff, List.any_eq_false, decide_eq_true_eq, Bool.or_eq_true, not_or,
    Bool.not_eq_false', List.isEmpty_iff] at ha hh ⊢
  · cases hb : b.rows with
    | nil => exact .inr rfl
    | cons x xs =>
      left
      rcases h1 x (by rw [hb]; exact List.mem_cons_self ..) with h | h
      · exact ha.resolve_right fun e => by rw [e] at h; simp at h
      · exact hh.resolve_right fun e => by rw [e] at h; simp at h
  · grind
  · grind

/-- The locks of a session that has written something. -/
def txnLocks : Option Txn → Locks
  | some T => T.locks
  | none => .free

/-- Each savepoint's locks are among those of the next one, the latest one's among those of the transaction, except for the locks of what was taken back. -/
def Stacked (h : Locks) : Option Txn → List (Option Txn) → Prop
  | _, [] => True
  | c, t :: ts => (txnLocks t).Within (txnLocks c) h ∧ Stacked h t ts

theorem Locks.Within.refl (a h : Locks) : a.Within a h := ⟨fun _ h => .inl h, fun _ h => .inl h, fun _ h => .inl h⟩

theorem Locks.Within.trans {a b c h : Locks} (h1 : c.Within b h) (h2 : b.Within a h) : c.Within a h :=
  ⟨fun x hx => (h1.1 x hx).elim (h2.1 x) .inr, fun x hx => (h1.2.1 x hx).elim (h2.2.1 x) .inr, fun x hx => (h1.2.2 x hx).elim (h2.2.2 x) .inr⟩

theorem Locks.Within.held {a b h h' : Locks} (h1 : b.Within a h) (h2 : h.Within h' h') : b.Within a h' :=
  ⟨fun x hx => (h1.1 x hx).imp id fun h => (h2.1 x h).elim id id, fun x hx => (h1.2.1 x hx).imp id fun h => (h2.2.1 x h).elim id id,
    fun x hx => (h1.2.2 x hx).imp id fun h => (h2.2.2 x h).elim id id⟩

theorem Stacked.held {h h' : Locks} (hw : h.Within h' h') : ∀ {c : Option Txn} {ts : List (Option Txn)}, Stacked h c ts → Stacked h' c ts
  | _, [], _ => trivial
  | _, _ :: _, hs => ⟨hs.1.held hw, hs.2.held hw⟩

theorem Stacked.grow {h : Locks} {c c' : Option Txn} (hw : (txnLocks c).Within (txnLocks c') h) : ∀ {ts : List (Option Txn)}, Stacked h c ts → Stacked h c' ts
  | [], _ => trivial
  | _ :: _, hs => ⟨hs.1.trans hw, hs.2⟩

theorem Stacked.mem {h : Locks} : ∀ {ts : List (Option Txn)} {c : Option Txn}, Stacked h c ts → ∀ t ∈ ts, (txnLocks t).Within (txnLocks c) h
  | _ :: _, _, hs, t, ht => by
    rcases List.mem_cons.1 ht with rfl | ht
    · exact hs.1
    · exact (hs.2.mem t ht).trans hs.1

theorem Stacked.tail {h : Locks} : ∀ {c : Option Txn} {ts : List (Option Txn)}, Stacked h c ts → Stacked h c ts.tail
  | _, [], _ => trivial
  | _, _ :: _, hs => hs.2.grow hs.1

def NestServer.Ok (X : NestServer) : Prop := ∀ (i : Nat) (T : NestSession), X.sessions[i]? = some T → Stacked T.held T.txn T.saves

/-- Some sessions have gone back to one of their savepoints. -/
structure Choice (X : NestServer) (Y : DbServer) : Prop where
  db : Y.db = X.db
  length : Y.sessions.length = X.sessions.length
  mem : ∀ (i : Nat) (T : NestSession) (t : Option Txn), X.sessions[i]? = some T → Y.sessions[i]? = some t → t = T.txn ∨ t ∈ T.saves

theorem choice_plain (X : NestServer) : Choice X X.plain := by
  refine ⟨rfl, by simp [NestServer.plain], ?_⟩
  intro i T t hT ht
  simp only [NestServer.plain, List.getElem?_map, hT, Option.map_some, Option.some.injEq] at ht
  exact .inl ht.symm

theorem choice_start {db : Db} {n : Nat} {Y : DbServer} (h : Choice (.start db n) Y) : Y = ⟨db, List.replicate n none⟩ := by
  obtain ⟨d, ss⟩ := Y
  have h1 := h.db
  have h2 := h.length
  have h3 := h.mem
  simp only [NestServer.start, List.length_replicate] at h1 h2 h3
  subst h1
  congr 1
  refine List.eq_replicate_iff.2 ⟨h2, ?_⟩
  intro t ht
  obtain ⟨i, hi⟩ := List.mem_iff_getElem?.1 ht
  have hlt : i < n := by
    have := (List.getElem?_eq_some_iff.1 hi).1
    omega
  have := h3 i ⟨none, [], .free⟩ t (by simp [hlt]) hi
  simpa using this

theorem ok_start (db : Db) (n : Nat) : (NestServer.start db n).Ok := by
  intro i T h
  have := List.eq_of_mem_replicate (List.mem_of_getElem? h)
  subst this
  trivial

theorem plain_waits {X : NestServer} {Y : DbServer} (hok : X.Ok) (h : Choice X Y) {back : Backend} {i : Option Nat} {l : Locks}
    (h1 : X.plain.waits back i l = false) (h2 : X.waits back i l = false) : Y.waits back i l = false := by
  simp only [DbServer.waits, NestServer.waits, List.any_eq_false, List.mem_range, Bool.and_eq_true, not_and, Bool.not_eq_true, decide_eq_true_eq] at h1 h2 ⊢
  intro j hj hne
  have hjX : j < X.sessions.length := h.length ▸ hj
  obtain ⟨T, hT⟩ : ∃ T, X.sessions[j]? = some T := ⟨_, List.getElem?_eq_getElem hjX⟩
  obtain ⟨t, ht⟩ : ∃ t, Y.sessions[j]? = some t := ⟨_, List.getElem?_eq_getElem hj⟩
  have a1 := h1 j (by simpa [NestServer.plain] using hjX) hne
  have a2 := h2 j hjX hne
  have hm := h.mem j _ _ hT ht
  have hs := hok j _ hT
  have hp : X.plain.sessions[j]? = some T.txn := by simp [NestServer.plain, hT]
  rw [hp] at a1
  rw [hT] at a2
  rw [ht]
  have hw : (txnLocks t).Within (txnLocks T.txn) T.held := by
    rcases hm with rfl | hm
    · exact .refl ..
    · exact hs.mem t hm
  cases t with
  | none => rfl
  | some u =>
    refine conflict_within (b := u.locks) hw ?_ a2
    cases hc : T.txn with
    | none => cases back <;> simp [txnLocks, Locks.conflict, Locks.free]
    | some c => rw [hc] at a1; exact a1

theorem plain_get {X : NestServer} {i : Nat} {T : NestSession} (h : X.sessions[i]? = some T) : X.plain.sessions[i]? = some T.txn := by
  simp [NestServer.plain, h]

theorem sight_congr {X Y : DbServer} {S : Schema} {i : Nat} (hd : X.db = Y.db) (h : X.sessions[i]? = Y.sessions[i]?) : X.sight S i = Y.sight S i := by
  unfold DbServer.sight
  rw [h, hd]

theorem lt_of_get {α : Type _} {l : List α} {i : Nat} {x : α} (h : l[i]? = some x) : i < l.length := (List.getElem?_eq_some_iff.1 h).1

/-- What a statement does to the session that executes it. -/
theorem move_stmt {A : App} {S : Schema} {Z : DbServer} {i : Nat} {s : Stmt} {t0 t : Option Txn} (h0 : Z.sessions[i]? = some t0)
    (h : (A.move S Z (.stmt i s)).sessions[i]? = some t) :
    t = t0 ∨ ∃ v, A.exec s (Z.sight S i).1 = .ok v ∧ Z.waits A.engine.backend (some i) (locksOf S (A.changesOf s (Z.sight S i).1)) = false ∧
      (locksOf S (A.changesOf s (Z.sight S i).1)).rows ≠ [] ∧
      t = some ⟨Z.db, v, (locksOf S (A.changesOf s (Z.sight S i).1)).append (Z.sight S i).2⟩ := by
  unfold App.move at h
  cases hx : A.exec s (Z.sight S i).1 with
  | error e =>
    simp only [hx] at h
    rw [h0] at h
    exact .inl (Option.some.inj h).symm
  | ok v =>
    simp only [hx] at h
    by_cases hw : Z.waits A.engine.backend (some i) (locksOf S (A.changesOf s (Z.sight S i).1)) = true
    · rw [if_pos hw, h0] at h
      exact .inl (Option.some.inj h).symm
    · rw [if_neg hw] at h
      by_cases hl : (locksOf S (A.changesOf s (Z.sight S i).1)).rows = []
      · rw [if_pos hl, h0] at h
        exact .inl (Option.some.inj h).symm
      · rw [if_neg hl] at h
        refine .inr ⟨v, rfl, by simpa using hw, hl, ?_⟩
        simp only [List.getElem?_set_self (lt_of_get h0)] at h
        exact (Option.some.inj h).symm

theorem move_stmt_of {A : App} {S : Schema} {Z : DbServer} {i : Nat} {s : Stmt} {v : Db} (hx : A.exec s (Z.sight S i).1 = .ok v)
    (hw : Z.waits A.engine.backend (some i) (locksOf S (A.changesOf s (Z.sight S i).1)) = false) (hl : (locksOf S (A.changesOf s (Z.sight S i).1)).rows ≠ []) :
    A.move S Z (.stmt i s) = ⟨Z.db, Z.sessions.set i (some ⟨Z.db, v, (locksOf S (A.changesOf s (Z.sight S i).1)).append (Z.sight S i).2⟩)⟩ := by
  unfold App.move
  simp only [hx]
  rw [if_neg (by simp [hw]), if_neg hl]

theorem sight_locks {Z : DbServer} {S : Schema} {i : Nat} {t : Option Txn} (h : Z.sessions[i]? = some t) : (Z.sight S i).2 = txnLocks t := by
  unfold DbServer.sight
  rw [h]
  cases t <;> rfl

theorem ok_set {X : NestServer} {d : Db} {i : Nat} {T' : NestSession} (hok : X.Ok) (h : Stacked T'.held T'.txn T'.saves) : (NestServer.mk d (X.sessions.set i T')).Ok := by
  intro j T hT
  by_cases hij : i = j
  · subst hij
    rw [List.getElem?_set_self'] at hT
    cases hx : X.sessions[i]? with
    | none => rw [hx] at hT; cases hT
    | some T0 =>
      rw [hx] at hT
      cases hT
      exact h
  · rw [List.getElem?_set_ne hij] at hT
    exact hok j T hT

theorem ok_nestMove {A : App} {S : Schema} {X : NestServer} (hok : X.Ok) (σ : NestMove) : (A.nestMove S X σ).Ok := by
  cases σ with
  | move μ =>
    cases μ with
    | stmt i s =>
      unfold App.nestMove
      try simp only
      by_cases hw : X.waits A.engine.backend (some i) (locksOf S (A.changesOf s (X.plain.sight S i).1)) = true
      · rw [if_pos hw]; exact hok
      · rw [if_neg hw]
        cases hT : X.sessions[i]? with
        | none => exact hok
        | some T =>
          cases ht : (A.move S X.plain (.stmt i s)).sessions[i]? with
          | none => exact hok
          | some t =>
            refine ok_set hok ?_
            rcases move_stmt (plain_get hT) ht with rfl | ⟨v, _, _, _, rfl⟩
            · exact hok i T hT
            · refine (hok i T hT).grow ?_
              rw [sight_locks (plain_get hT)]
              exact ⟨fun x hx => .inl (List.mem_append_right _ hx), fun x hx => .inl (List.mem_append_right _ hx), fun x hx => .inl (List.mem_append_right _ hx)⟩
    | commit i => exact ok_set hok trivial
    | rollback i => exact ok_set hok trivial
    | flushOne m =>
      unfold App.nestMove
      try simp only
      by_cases hw : X.waits A.engine.backend none ((locksOf S (A.flushChanges m X.db)).append (markLock m)) = true
      · rw [if_pos hw]; exact hok
      · rw [if_neg hw]; exact hok
  | enter i =>
    unfold App.nestMove
    cases hT : X.sessions[i]? with
    | none => simp only [hT]; exact hok
    | some T => simp only [hT]; exact ok_set hok (T' := { T with saves := T.txn :: T.saves }) ⟨.refl .., hok i T hT⟩
  | leave i =>
    unfold App.nestMove
    cases hT : X.sessions[i]? with
    | none => simp only [hT]; exact hok
    | some T => simp only [hT]; exact ok_set hok (T' := { T with saves := T.saves.tail }) (hok i T hT).tail
  | fail i =>
    unfold App.nestMove
    cases hT : X.sessions[i]? with
    | none => simp only [hT]; exact hok
    | some T =>
      simp only [hT]
      have hs := hok i T hT
      cases hts : T.saves with
      | nil => simp only; exact hok
      | cons t ts =>
        rw [hts] at hs
        refine ok_set hok (T' := ⟨t, ts, T.heldAfter A.engine.backend⟩) (hs.2.held ?_)
        unfold NestSession.heldAfter
        cases A.engine.backend <;> cases T.txn <;> first
          | exact .refl ..
          | exact ⟨fun x hx => .inl (List.mem_append_right _ hx), fun x hx => .inl (List.mem_append_right _ hx), fun x hx => .inl (List.mem_append_right _ hx)⟩

/-- The session that makes the move (if it is one of a session) has not gone back to a savepoint. -/
def MoverNow (X : NestServer) (Y : DbServer) : Move → Prop
  | .stmt i _ => Y.sessions[i]? = X.plain.sessions[i]?
  | _ => True

theorem set_self {α : Type _} {l : List α} {i : Nat} {x : α} (h : l[i]? = some x) : l.set i x = l := by
  apply List.ext_getElem?
  intro j
  by_cases hij : i = j
  · subst hij; rw [List.getElem?_set_self (lt_of_get h), h]
  · rw [List.getElem?_set_ne hij]

theorem set_out {α : Type _} {l : List α} {i : Nat} {x : α} (h : l[i]? = none) : l.set i x = l :=
  List.set_eq_of_length_le (List.getElem?_eq_none_iff.1 h)

/-- `Y'` with session `i` as it was before the move. -/
theorem choice_before {X : NestServer} {Y' : DbServer} {d : Db} {i : Nat} {T T' : NestSession} (hT : X.sessions[i]? = some T)
    (h : Choice ⟨d, X.sessions.set i T'⟩ Y') : Choice X ⟨X.db, Y'.sessions.set i T.txn⟩ := by
  have hl := h.length
  simp only [List.length_set] at hl
  refine ⟨rfl, by simpa using hl, ?_⟩
  intro j U u hU hu
  by_cases hij : i = j
  · subst hij
    rw [hT] at hU
    cases hU
    rw [List.getElem?_set_self (hl ▸ lt_of_get hT)] at hu
    cases hu
    exact .inl rfl
  · simp only [List.getElem?_set_ne hij] at hu
    exact h.mem j U u (by simpa only [List.getElem?_set_ne hij] using hU) hu

/-- `Y'` itself, if it is as well a choice for the old session. -/
theorem choice_same {X : NestServer} {Y' : DbServer} {i : Nat} {T T' : NestSession} (hT : X.sessions[i]? = some T)
    (h : Choice ⟨X.db, X.sessions.set i T'⟩ Y') (hi : ∀ t, Y'.sessions[i]? = some t → t = T.txn ∨ t ∈ T.saves) : Choice X Y' := by
  have hl := h.length
  simp only [List.length_set] at hl
  refine ⟨h.db, hl, ?_⟩
  intro j U u hU hu
  by_cases hij : i = j
  · subst hij
    rw [hT] at hU
    cases hU
    exact hi u hu
  · exact h.mem j U u (by simpa only [List.getElem?_set_ne hij] using hU) hu

theorem choice_at {X : NestServer} {Y' : DbServer} {d : Db} {i : Nat} {T T' : NestSession} (hT : X.sessions[i]? = some T)
    (h : Choice ⟨d, X.sessions.set i T'⟩ Y') : ∃ t, Y'.sessions[i]? = some t ∧ (t = T'.txn ∨ t ∈ T'.saves) := by
  have hl := h.length
  simp only [List.length_set] at hl
  have hlt : i < Y'.sessions.length := hl ▸ lt_of_get hT
  have hi : Y'.sessions[i]? = some Y'.sessions[i] := List.getElem?_eq_getElem hlt
  exact ⟨_, hi, h.mem i T' _ (List.getElem?_set_self (lt_of_get hT)) hi⟩

theorem dbServer_ext {Y Z : DbServer} (h1 : Y.db = Z.db) (h2 : Y.sessions = Z.sessions) : Y = Z := by
  cases Y; cases Z; cases h1; cases h2; rfl

/-- One move: what the sessions may be after it, they may have been before it, or become by the same move without savepoints. -/
theorem choice_step {A : App} {S : Schema} {X : NestServer} (hok : X.Ok) {σ : NestMove} {Y' : DbServer} (h : Choice (A.nestMove S X σ) Y') :
    ∃ Y, Choice X Y ∧ (Y' = Y ∨ ∃ μ, σ = .move μ ∧ MoverNow X Y μ ∧ Y' = A.move S Y μ) := by
  cases σ with
  | move μ =>
    cases μ with
    | stmt i s =>
      unfold App.nestMove at h
      simp only at h
      by_cases hw : X.waits A.engine.backend (some i) (locksOf S (A.changesOf s (X.plain.sight S i).1)) = true
      · rw [if_pos hw] at h; exact ⟨Y', h, .inl rfl⟩
      · rw [if_neg hw] at h
        cases hT : X.sessions[i]? with
        | none => rw [hT] at h; exact ⟨Y', h, .inl rfl⟩
        | some T =>
          cases ht : (A.move S X.plain (.stmt i s)).sessions[i]? with
          | none => rw [hT, ht] at h; exact ⟨Y', h, .inl rfl⟩
          | some t =>
            rw [hT, ht] at h
            simp only at h
            rcases move_stmt (plain_get hT) ht with rfl | ⟨v, hx, hw', hl, rfl⟩
            · rw [show X.sessions.set i { T with txn := T.txn } = X.sessions from set_self hT] at h
              exact ⟨Y', h, .inl rfl⟩
            · obtain ⟨u, hu, hc | hc⟩ := choice_at hT h
              · have hY := choice_before hT h
                have hlt : i < Y'.sessions.length := lt_of_get hu
                have hcur : (DbServer.mk X.db (Y'.sessions.set i T.txn)).sessions[i]? = X.plain.sessions[i]? := by
                  rw [plain_get hT]
                  exact List.getElem?_set_self hlt
                have hsi : (DbServer.mk X.db (Y'.sessions.set i T.txn)).sight S i = X.plain.sight S i := sight_congr rfl hcur
                refine ⟨_, hY, .inr ⟨_, rfl, hcur, ?_⟩⟩
                rw [move_stmt_of (by rw [hsi]; exact hx) (by rw [hsi]; exact plain_waits hok hY hw' (by simpa using hw)) (by rw [hsi]; exact hl), hsi]
                refine dbServer_ext h.db ?_
                simp only [List.set_set]
                refine (set_self ?_).symm
                rw [hu, hc]
                rfl
              · exact ⟨Y', choice_same hT h fun t ht' => by rw [hu] at ht'; cases ht'; exact .inr hc, .inl rfl⟩
    | commit i =>
      have h' : Choice ⟨(X.plain.sight S i).1, X.sessions.set i ⟨none, [], .free⟩⟩ Y' := h
      cases hT : X.sessions[i]? with
      | none =>
        rw [set_out hT, show (X.plain.sight S i).1 = X.db by simp [DbServer.sight, NestServer.plain, hT]] at h'
        exact ⟨Y', h', .inl rfl⟩
      | some T =>
        obtain ⟨u, hu, hc⟩ := choice_at hT h'
        have hu0 : u = none := by simpa using hc
        subst hu0
        have hcur : (DbServer.mk X.db (Y'.sessions.set i T.txn)).sessions[i]? = X.plain.sessions[i]? := by
          rw [plain_get hT]
          exact List.getElem?_set_self (lt_of_get hu)
        refine ⟨_, choice_before hT h', .inr ⟨_, rfl, trivial, ?_⟩⟩
        unfold App.move
        simp only
        rw [sight_congr (X := ⟨X.db, Y'.sessions.set i T.txn⟩) (Y := X.plain) rfl hcur]
        refine dbServer_ext h'.db ?_
        simp only [List.set_set]
        exact (set_self hu).symm
    | rollback i =>
      have h' : Choice ⟨X.db, X.sessions.set i ⟨none, [], .free⟩⟩ Y' := h
      cases hT : X.sessions[i]? with
      | none =>
        rw [set_out hT] at h'
        exact ⟨Y', h', .inl rfl⟩
      | some T =>
        obtain ⟨u, hu, hc⟩ := choice_at hT h'
        have hu0 : u = none := by simpa using hc
        subst hu0
        refine ⟨_, choice_before hT h', .inr ⟨_, rfl, trivial, ?_⟩⟩
        unfold App.move
        refine dbServer_ext h'.db ?_
        simp only [List.set_set]
        exact (set_self hu).symm
    | flushOne m =>
      unfold App.nestMove at h
      simp only at h
      by_cases hw : X.waits A.engine.backend none ((locksOf S (A.flushChanges m X.db)).append (markLock m)) = true
      · rw [if_pos hw] at h; exact ⟨Y', h, .inl rfl⟩
      · rw [if_neg hw] at h
        unfold App.move at h
        simp only at h
        by_cases hw' : A.flushWaits S m X.plain = true
        · rw [if_pos hw'] at h; exact ⟨Y', ⟨h.db, h.length, h.mem⟩, .inl rfl⟩
        · rw [if_neg hw'] at h
          cases hx : A.flushOne m X.db with
          | error e =>
            have hx' : A.flushOne m X.plain.db = .error e := hx
            simp only [hx'] at h
            exact ⟨Y', ⟨h.db, h.length, h.mem⟩, .inl rfl⟩
          | ok d =>
            have hx' : A.flushOne m X.plain.db = .ok d := hx
            simp only [hx'] at h
            have hY : Choice X ⟨X.db, Y'.sessions⟩ := ⟨rfl, h.length, h.mem⟩
            refine ⟨_, hY, .inr ⟨_, rfl, trivial, ?_⟩⟩
            have hwY : A.flushWaits S m ⟨X.db, Y'.sessions⟩ = false := plain_waits hok hY (by have := hw'; simp only [Bool.not_eq_true] at this; exact this) (by simpa using hw)
            unfold App.move
            simp only
            rw [if_neg (by simp [hwY]), hx]
            exact dbServer_ext h.db rfl
  | enter i =>
    refine ⟨Y', ?_, .inl rfl⟩
    unfold App.nestMove at h
    simp only at h
    cases hT : X.sessions[i]? with
    | none => rw [hT] at h; exact h
    | some T =>
      rw [hT] at h
      obtain ⟨u, hu, hc⟩ := choice_at hT h
      refine choice_same hT h fun t ht => ?_
      rw [hu] at ht
      cases ht
      simpa using hc
  | leave i =>
    refine ⟨Y', ?_, .inl rfl⟩
    unfold App.nestMove at h
    simp only at h
    cases hT : X.sessions[i]? with
    | none => rw [hT] at h; exact h
    | some T =>
      rw [hT] at h
      obtain ⟨u, hu, hc⟩ := choice_at hT h
      refine choice_same hT h fun t ht => ?_
      rw [hu] at ht
      cases ht
      exact hc.imp id List.mem_of_mem_tail
  | fail i =>
    refine ⟨Y', ?_, .inl rfl⟩
    unfold App.nestMove at h
    simp only at h
    cases hT : X.sessions[i]? with
    | none => rw [hT] at h; exact h
    | some T =>
      rw [hT] at h
      simp only at h
      cases hts : T.saves with
      | nil => rw [hts] at h; exact h
      | cons t ts =>
        rw [hts] at h
        obtain ⟨u, hu, hc⟩ := choice_at hT h
        refine choice_same hT h fun t' ht => ?_
        rw [hu] at ht
        cases ht
        rw [hts]
        rcases hc with rfl | hc
        · exact .inr (List.mem_cons_self ..)
        · exact .inr (List.mem_cons_of_mem _ hc)

/-- What is asked of the moves of a schedule, each in the state in which it is made. -/
def Along (A : App) (S : Schema) (ok : DbServer → Move → Prop) : List Move → DbServer → Prop
  | [], _ => True
  | μ :: μs, X => ok X μ ∧ Along A S ok μs (A.move S X μ)

/-- The same with savepoints, whichever sessions have gone back to one. -/
def NestAlong (A : App) (S : Schema) (ok : DbServer → Move → Prop) : List NestMove → NestServer → Prop
  | [], _ => True
  | σ :: σs, X => (∀ μ, σ = .move μ → ∀ Y, Choice X Y → MoverNow X Y μ → ok Y μ) ∧ NestAlong A S ok σs (A.nestMove S X σ)

theorem plainMoves_cons (σ : NestMove) (σs : List NestMove) :
    plainMoves (σ :: σs) = (match σ with | .move μ => [μ] | _ => []) ++ plainMoves σs := by
  cases σ <;> rfl

theorem choice_moves {A : App} {S : Schema} {ok : DbServer → Move → Prop} : ∀ (σs : List NestMove) {X : NestServer}, X.Ok → NestAlong A S ok σs X →
    ∀ {Y' : DbServer}, Choice (A.nestMoves S σs X) Y' → ∃ Y μs, Choice X Y ∧ μs.Sublist (plainMoves σs) ∧ A.moves S μs Y = Y' ∧ Along A S ok μs Y
  | [], X, _, _, Y', h => ⟨Y', [], h, .slnil, rfl, trivial⟩
  | σ :: σs, X, hX, ha, Y', h => by
    obtain ⟨Y1, μs, h1, hs, hm, hal⟩ := choice_moves σs (ok_nestMove hX σ) ha.2 (Y' := Y') h
    rw [plainMoves_cons]
    obtain ⟨Y, hY, rfl | ⟨μ, rfl, hc, rfl⟩⟩ := choice_step hX h1
    · exact ⟨_, μs, hY, hs.trans (List.sublist_append_right ..), hm, hal⟩
    · exact ⟨Y, μ :: μs, hY, hs.cons_cons μ, hm, ha.1 μ rfl Y hY hc, hal⟩

theorem along_start {A : App} {S : Schema} {ok : DbServer → Move → Prop} {σs : List NestMove} {db : Db} {n : Nat} (ha : NestAlong A S ok σs (.start db n)) :
    ∃ μs : List Move, μs.Sublist (plainMoves σs) ∧ A.moves S μs ⟨db, List.replicate n none⟩ = (A.nestMoves S σs (.start db n)).plain ∧
      Along A S ok μs ⟨db, List.replicate n none⟩ := by
  obtain ⟨Y, μs, hY, hs, hm, hal⟩ := choice_moves σs (ok_start db n) ha (choice_plain _)
  rw [choice_start hY] at hm hal
  exact ⟨μs, hs, hm, hal⟩

theorem Along.and {A : App} {S : Schema} {p q : DbServer → Move → Prop} : ∀ {μs : List Move} {X : DbServer}, Along A S (fun X μ => p X μ ∧ q X μ) μs X →
    Along A S p μs X ∧ Along A S q μs X
  | [], _, _ => ⟨trivial, trivial⟩
  | _ :: _, _, h => ⟨⟨h.1.1, h.2.and.1⟩, h.1.2, h.2.and.2⟩

theorem NestAlong.and {A : App} {S : Schema} {p q : DbServer → Move → Prop} : ∀ {σs : List NestMove} {X : NestServer}, NestAlong A S p σs X → NestAlong A S q σs X →
    NestAlong A S (fun X μ => p X μ ∧ q X μ) σs X
  | [], _, _, _ => trivial
  | _ :: _, _, h, h' => ⟨fun μ e Y hY hc => ⟨h.1 μ e Y hY hc, h'.1 μ e Y hY hc⟩, h.2.and h'.2⟩

def OrderlyMove (A : App) (S : Schema) (D : List Denorm) (om : OrmModel) (cb : Callback) (X : DbServer) : Move → Prop
  | .stmt i s => LegalStmt A.engine cb (X.sight S i).1 s ∧ KeepsKeys S (X.sight S i).1 s
  | .flushOne _ => Flushable A D om cb X.db ∧ KeysUnique A X.db
  | _ => True

theorem orderly_of_along {A : App} {S : Schema} {D : List Denorm} {om : OrmModel} {cb : Callback} : ∀ {μs : List Move} {X : DbServer},
    Along A S (OrderlyMove A S D om cb) μs X → Orderly A S D om cb μs X
  | [], _, _ => trivial
  | μ :: _, _, h => by
    refine ⟨?_, orderly_of_along h.2⟩
    have := h.1
    cases μ <;> exact this

theorem along_of_orderly {A : App} {S : Schema} {D : List Denorm} {om : OrmModel} {cb : Callback} : ∀ {σs : List NestMove} {X : NestServer},
    NestOrderly A S D om cb σs X → NestAlong A S (OrderlyMove A S D om cb) σs X
  | [], _, _ => trivial
  | σ :: _, X, h => by
    refine ⟨?_, along_of_orderly h.2⟩
    rintro μ rfl Y hY hc
    have h1 := h.1
    cases μ with
    | stmt i s =>
      have := sight_congr (S := S) (show Y.db = X.plain.db from hY.db) hc
      simp only [OrderlyMove, this]
      exact h1
    | flushOne m =>
      simp only [OrderlyMove, hY.db]
      exact h1
    | commit i => trivial
    | rollback i => trivial

def AggMove (A : App) (S : Schema) (a : AggDenorm) (legal : Db → Stmt → Prop) (X : DbServer) : Move → Prop
  | .stmt i s => legal (X.sight S i).1 s ∧ KeepsKeys S (X.sight S i).1 s ∧ ∀ v, A.exec s (X.sight S i).1 = .ok v → Refers a v
  | .flushOne m => ∀ db', A.flushOne m X.db = .ok db' → Refers a db'
  | _ => True

theorem aggOrderly_of_along {A : App} {S : Schema} {a : AggDenorm} {legal : Db → Stmt → Prop} : ∀ {μs : List Move} {X : DbServer},
    Along A S (AggMove A S a legal) μs X → AggOrderly A S a legal μs X
  | [], _, _ => trivial
  | μ :: _, _, h => by
    refine ⟨?_, aggOrderly_of_along h.2⟩
    have := h.1
    cases μ <;> exact this

theorem along_of_aggOrderly {A : App} {S : Schema} {a : AggDenorm} {legal : Db → Stmt → Prop} : ∀ {σs : List NestMove} {X : NestServer},
    NestAggOrderly A S a legal σs X → NestAlong A S (AggMove A S a legal) σs X
  | [], _, _ => trivial
  | σ :: _, X, h => by
    refine ⟨?_, along_of_aggOrderly h.2⟩
    rintro μ rfl Y hY hc
    have h1 := h.1
    cases μ with
    | stmt i s =>
      have := sight_congr (S := S) (show Y.db = X.plain.db from hY.db) hc
      simp only [AggMove, this]
      exact h1
    | flushOne m =>
      simp only [AggMove, hY.db]
      exact h1
    | commit i => trivial
    | rollback i => trivial

def AloneMove (X : DbServer) : Move → Prop
  | .flushOne _ => ∀ T ∈ X.sessions, T = none
  | _ => True

theorem flushAlone_of_along {A : App} {S : Schema} : ∀ {μs : List Move} {X : DbServer}, Along A S AloneMove μs X → FlushAlone A S μs X
  | [], _, _ => trivial
  | μ :: _, _, h => by
    refine ⟨?_, flushAlone_of_along h.2⟩
    have := h.1
    cases μ <;> exact this

theorem along_of_flushAlone {A : App} {S : Schema} : ∀ {σs : List NestMove} {X : NestServer}, NestFlushAlone A S σs X → NestAlong A S AloneMove σs X
  | [], _, _ => trivial
  | σ :: _, X, h => by
    refine ⟨?_, along_of_flushAlone h.2⟩
    rintro μ rfl Y hY _
    have h1 := h.1
    cases μ with
    | flushOne m =>
      intro t ht
      obtain ⟨i, hi⟩ := List.mem_iff_getElem?.1 ht
      have hlt : i < X.sessions.length := hY.length ▸ lt_of_get hi
      have hT : X.sessions[i]? = some X.sessions[i] := List.getElem?_eq_getElem hlt
      have hx := h1 _ (List.mem_of_getElem? hT)
      rcases hY.mem i _ t hT hi with rfl | hm
      · exact hx.1
      · exact hx.2 t hm
    | stmt i s => trivial
    | commit i => trivial
    | rollback i => trivial

/-! ## Blocks -/

theorem nestMoves_append {A : App} {S : Schema} : ∀ (σs τs : List NestMove) (X : NestServer), A.nestMoves S (σs ++ τs) X = A.nestMoves S τs (A.nestMoves S σs X)
  | [], _, _ => rfl
  | _ :: σs, τs, _ => nestMoves_append σs τs _

theorem get_set_ne {X : NestServer} {d : Db} {i j : Nat} {T U : NestSession} (hne : j ≠ i) (h : X.sessions[i]? = some T) :
    (NestServer.mk d (X.sessions.set j U)).sessions[i]? = some T := by
  rw [← h]
  exact List.getElem?_set_ne hne

theorem enter_get {A : App} {S : Schema} {X : NestServer} {i : Nat} {T : NestSession} (h : X.sessions[i]? = some T) :
    A.nestMove S X (.enter i) = ⟨X.db, X.sessions.set i { T with saves := T.txn :: T.saves }⟩ := by
  unfold App.nestMove
  simp only [h]

theorem leave_get {A : App} {S : Schema} {X : NestServer} {i : Nat} {T : NestSession} (h : X.sessions[i]? = some T) :
    A.nestMove S X (.leave i) = ⟨X.db, X.sessions.set i { T with saves := T.saves.tail }⟩ := by
  unfold App.nestMove
  simp only [h]

theorem fail_get {A : App} {S : Schema} {X : NestServer} {i : Nat} {T : NestSession} {t : Option Txn} {ts : List (Option Txn)} (h : X.sessions[i]? = some T)
    (hts : T.saves = t :: ts) : A.nestMove S X (.fail i) = ⟨X.db, X.sessions.set i ⟨t, ts, T.heldAfter A.engine.backend⟩⟩ := by
  unfold App.nestMove
  simp only [h, hts]

theorem other_get {A : App} {S : Schema} {X : NestServer} {i j : Nat} {T : NestSession} (hne : j ≠ i) (h : X.sessions[i]? = some T) {σ : NestMove}
    (hσ : σ = .enter j ∨ σ = .leave j ∨ σ = .fail j) : (A.nestMove S X σ).sessions[i]? = some T := by
  unfold App.nestMove
  rcases hσ with rfl | rfl | rfl
  · cases hU : X.sessions[j]? with
    | none => simp only [hU]; exact h
    | some U => simp only [hU]; exact get_set_ne (d := X.db) hne h
  · cases hU : X.sessions[j]? with
    | none => simp only [hU]; exact h
    | some U => simp only [hU]; exact get_set_ne (d := X.db) hne h
  · cases hU : X.sessions[j]? with
    | none => simp only [hU]; exact h
    | some U =>
      simp only [hU]
      cases hts : U.saves with
      | nil => exact h
      | cons t ts => exact get_set_ne (d := X.db) hne h

/-- A statement changes nothing but what its own session has written. -/
theorem stmt_shape {A : App} {S : Schema} {X : NestServer} {j : Nat} {s : Stmt} :
    A.nestMove S X (.move (.stmt j s)) = X ∨ ∃ T t, X.sessions[j]? = some T ∧ A.nestMove S X (.move (.stmt j s)) = ⟨X.db, X.sessions.set j { T with txn := t }⟩ := by
  unfold App.nestMove
  simp only
  by_cases hw : X.waits A.engine.backend (some j) (locksOf S (A.changesOf s (X.plain.sight S j).1)) = true
  · rw [if_pos hw]; exact .inl rfl
  · rw [if_neg hw]
    cases hT : X.sessions[j]? with
    | none => exact .inl rfl
    | some T =>
      cases ht : (A.move S X.plain (.stmt j s)).sessions[j]? with
      | none => exact .inl rfl
      | some t => exact .inr ⟨T, t, rfl, rfl⟩

/-- A session comes out of complete blocks with the savepoints it had before. -/
theorem inBlock_saves {A : App} {S : Schema} {i : Nat} {τ : List NestMove} (hτ : InBlock i τ) : ∀ {X : NestServer} {T : NestSession}, X.sessions[i]? = some T →
    ∃ T', (A.nestMoves S τ X).sessions[i]? = some T' ∧ T'.saves = T.saves := by
  induction hτ with
  | nil => exact fun h => ⟨_, h, rfl⟩
  | @stmt j s τ _ ih =>
    intro X T h
    rcases stmt_shape (A := A) (S := S) (X := X) (j := j) (s := s) with e | ⟨U, u, hU, e⟩
    · rw [App.nestMoves, e]; exact ih h
    · rw [App.nestMoves, e]
      by_cases hij : j = i
      · subst hij
        rw [h] at hU
        cases hU
        exact ih (T := { T with txn := u }) (List.getElem?_set_self (lt_of_get h))
      · exact ih (get_set_ne hij h)
  | @flush m τ _ ih =>
    intro X T h
    refine ih (T := T) ?_
    unfold App.nestMove
    simp only
    by_cases hw : X.waits A.engine.backend none ((locksOf S (A.flushChanges m X.db)).append (markLock m)) = true
    · rw [if_pos hw]; exact h
    · rw [if_neg hw]; exact h
  | commit hne _ ih => exact fun h => ih (get_set_ne hne h)
  | rollback hne _ ih => exact fun h => ih (get_set_ne hne h)
  | enter hne _ ih => exact fun h => ih (other_get hne h (.inl rfl))
  | leave hne _ ih => exact fun h => ih (other_get hne h (.inr (.inl rfl)))
  | fail hne _ ih => exact fun h => ih (other_get hne h (.inr (.inr rfl)))
  | @block σ τ τ' _ hσ _ ih ih' =>
    intro X T h
    rw [App.nestMoves, nestMoves_append, App.nestMoves, enter_get h]
    obtain ⟨T1, h1, e1⟩ := ih (X := ⟨X.db, X.sessions.set i { T with saves := T.txn :: T.saves }⟩) (List.getElem?_set_self (lt_of_get h))
    simp only at e1
    rcases hσ with rfl | rfl
    · rw [leave_get h1]
      obtain ⟨T2, h2, e2⟩ := ih' (X := ⟨_, _⟩) (List.getElem?_set_self (lt_of_get h1))
      exact ⟨T2, h2, by rw [e2]; simp [e1]⟩
    · rw [fail_get h1 e1]
      obtain ⟨T2, h2, e2⟩ := ih' (X := ⟨_, _⟩) (List.getElem?_set_self (lt_of_get h1))
      exact ⟨T2, h2, by rw [e2]⟩

/-- Only session `i` changes, and the committed state does not. -/
theorem onlySession_frame {A : App} {S : Schema} {i : Nat} : ∀ {τ : List NestMove}, OnlySession i τ → ∀ (X : NestServer),
    (A.nestMoves S τ X).db = X.db ∧ (A.nestMoves S τ X).sessions.length = X.sessions.length ∧ ∀ j, j ≠ i → (A.nestMoves S τ X).sessions[j]? = X.sessions[j]?
  | [], _, _ => ⟨rfl, rfl, fun _ _ => rfl⟩
  | σ :: τ, h, X => by
    have key : (A.nestMove S X σ).db = X.db ∧ (A.nestMove S X σ).sessions.length = X.sessions.length ∧
        ∀ j, j ≠ i → (A.nestMove S X σ).sessions[j]? = X.sessions[j]? := by
      have hs := h σ (List.mem_cons_self ..)
      have hset : ∀ U : NestSession, (NestServer.mk X.db (X.sessions.set i U)).db = X.db ∧ (NestServer.mk X.db (X.sessions.set i U)).sessions.length = X.sessions.length ∧
          ∀ j, j ≠ i → (NestServer.mk X.db (X.sessions.set i U)).sessions[j]? = X.sessions[j]? :=
        fun U => ⟨rfl, List.length_set .., fun j hj => List.getElem?_set_ne (Ne.symm hj)⟩
      cases σ with
      | move μ =>
        cases μ with
        | stmt j s =>
          have hs : j = i := hs
          subst hs
          rcases stmt_shape (A := A) (S := S) (X := X) (j := j) (s := s) with e | ⟨U, u, _, e⟩
          · rw [e]; exact ⟨rfl, rfl, fun _ _ => rfl⟩
          · rw [e]; exact hset _
        | commit j => exact absurd hs id
        | rollback j => exact absurd hs id
        | flushOne m => exact absurd hs id
      | enter j =>
        have hs : j = i := hs
        subst hs
        cases hT : X.sessions[j]? with
        | none => unfold App.nestMove; simp only [hT]; simp
        | some T => rw [enter_get hT]; exact hset _
      | leave j =>
        have hs : j = i := hs
        subst hs
        cases hT : X.sessions[j]? with
        | none => unfold App.nestMove; simp only [hT]; simp
        | some T => rw [leave_get hT]; exact hset _
      | fail j =>
        have hs : j = i := hs
        subst hs
        cases hT : X.sessions[j]? with
        | none => unfold App.nestMove; simp only [hT]; simp
        | some T =>
          cases hts : T.saves with
          | nil => unfold App.nestMove; simp only [hT, hts]; simp
          | cons t ts => rw [fail_get hT hts]; exact hset _
    obtain ⟨a1, a2, a3⟩ := onlySession_frame (A := A) (S := S) (τ := τ) (fun σ' hσ' => h σ' (List.mem_cons_of_mem _ hσ')) (A.nestMove S X σ)
    exact ⟨a1.trans key.1, a2.trans key.2.1, fun j hj => (a3 j hj).trans (key.2.2 j hj)⟩

end Denorm
