import Verif.Spec.Classes
/-!
# Importing model classes
-/
namespace Denorm
variable {w w' : World} {a b : Nat} {m : Model} {s : DepSpec} {S T : Nat → Prop}

theorem filter_const_true {α : Type _} (l : List α) : l.filter (fun _ => true) = l := by simp

theorem setDep_get {f : DepObj → DepObj} {o : DepObj} (h : w.deps[a]? = some o) : (w.setDep a f).deps[a]? = some (f o) := by
  simp only [World.setDep, List.getElem?_modify, if_true, h]; rfl

/-- Resolving a second time, now with the type that was found, finds the same relation. -/
theorem resolvedModel_again {this other : Model} {fk : Option String} {ty : Option RelType} {r : Rel}
    (h : resolvedModel this other fk ty = .ok r) : resolvedModel this other fk (some r.type) = .ok r := by
  have h1 : candidates this other fk ty = [r] := by
    simp only [resolvedModel] at h
    split at h
    · simp at h
    · rename_i c hc; simp at h; rw [hc, h]
    · simp at h
  have h2 : candidates this other fk (some r.type) = [r] := by
    cases ty with
    | some t =>
      have : t = r.type := by
        have : r ∈ candidates this other fk (some t) := by rw [h1]; simp
        simp only [candidates, List.mem_filter, decide_eq_true_eq] at this
        exact this.2
      rw [← this, h1]
    | none =>
      simp only [candidates, Option.isSome_none, Bool.or_false, Option.isSome_some, Bool.or_true, if_true, List.filter_append,
        filter_const_true] at h1 ⊢
      by_cases hne : other = this
      · subst hne
        simp only [ne_eq, not_true_eq_false, decide_false, Bool.false_eq_true, if_false, List.append_nil, List.filter_nil] at h1
        have key : ∀ (A B C D : List Rel), A ++ C = [r] → (∀ x ∈ A, x.type = .forward) → (∀ x ∈ B, x.type = .backward) →
            (∀ x ∈ C, x.type = .forwardM2M) → (∀ x ∈ D, x.type = .backwardM2M) →
            A.filter (fun x => decide (r.type = x.type)) ++ B.filter (fun x => decide (r.type = x.type)) ++
              C.filter (fun x => decide (r.type = x.type)) ++ D.filter (fun x => decide (r.type = x.type)) = [r] := by
          intro A B C D h hA hB hC hD
          have hr : r.type = .forward ∨ r.type = .forwardM2M := by
            have : r ∈ A ++ C := by rw [h]; simp
            rcases List.mem_append.1 this with h | h
            · exact .inl (hA r h)
            · exact .inr (hC r h)
          have e1 : B.filter (fun x => decide (r.type = x.type)) = [] := by
            rw [List.filter_eq_nil_iff]
            intro x hx
            rw [hB x hx]
            rcases hr with h | h <;> simp [h]
          have e2 : D.filter (fun x => decide (r.type = x.type)) = [] := by
            rw [List.filter_eq_nil_iff]
            intro x hx
            rw [hD x hx]
            rcases hr with h | h <;> simp [h]
          rw [e1, e2, List.append_nil, List.append_nil, ← List.filter_append, h]
          simp
        refine key _ _ _ _ h1 ?_ ?_ ?_ ?_ <;> (intro x hx; obtain ⟨y, _, rfl⟩ := List.mem_map.1 hx; rfl)
      · simp only [ne_eq, hne, not_false_eq_true, decide_true, if_true] at h1
        rw [← List.filter_append, ← List.filter_append, ← List.filter_append]
        rw [show (List.map Rel.forward (findFks this other fk) ++ List.map Rel.backward (findFks other this fk) ++
          List.map Rel.forwardM2M (findM2Ms this other fk)) ++ List.map Rel.backwardM2M (findM2Ms other this fk) = [r] from h1]
        simp
  simp [resolvedModel, h2]

/-- `w'` differs from `w` at most in the dependency objects `S` and in operations pending for them. -/
structure WFrame (S : Nat → Prop) (w w' : World) : Prop where
  denorms : w'.denorms = w.denorms
  keys : w'.keys = w.keys
  receivers : w'.receivers = w.receivers
  registered : w'.registered = w.registered
  classes : w'.classes = w.classes
  length : w'.deps.length = w.deps.length
  deps : ∀ b, ¬ S b → w'.deps[b]? = w.deps[b]?
  pending : ∀ p : Nat × Model × String, ¬ S p.1 → (p ∈ w'.pending ↔ p ∈ w.pending)

theorem WFrame.refl (S : Nat → Prop) (w : World) : WFrame S w w := ⟨rfl, rfl, rfl, rfl, rfl, rfl, fun _ _ => rfl, fun _ _ => Iff.rfl⟩

theorem WFrame.trans {w'' : World} (h : WFrame S w w') (h' : WFrame T w' w'') : WFrame (fun b => S b ∨ T b) w w'' where
  denorms := h'.denorms.trans h.denorms
  keys := h'.keys.trans h.keys
  receivers := h'.receivers.trans h.receivers
  registered := h'.registered.trans h.registered
  classes := h'.classes.trans h.classes
  length := h'.length.trans h.length
  deps := fun b hb => (h'.deps b fun h => hb (.inr h)).trans (h.deps b fun h => hb (.inl h))
  pending := fun p hp => (h'.pending p fun h => hp (.inr h)).trans (h.pending p fun h => hp (.inl h))

theorem WFrame.mono (h : WFrame S w w') (hST : ∀ b, S b → T b) : WFrame T w w' :=
  { h with deps := fun b hb => h.deps b fun hs => hb (hST b hs), pending := fun p hp => h.pending p fun hs => hp (hST _ hs) }

theorem frame_setDep (w : World) (a : Nat) (f : DepObj → DepObj) : WFrame (· = a) w (w.setDep a f) :=
  ⟨rfl, rfl, rfl, rfl, rfl, by simp [World.setDep], fun b hb => by
    simp only [World.setDep, List.getElem?_modify]
    have : ¬ a = b := fun e => hb e.symm
    simp [this], fun _ _ => Iff.rfl⟩

theorem frame_resolve {other : Model} (h : w.resolve a other = .ok w') : WFrame (· = a) w w' ∧ w'.pending = w.pending := by
  simp only [World.resolve] at h
  split at h
  · cases h; exact ⟨.refl _ _, rfl⟩
  · split at h
    · cases h; exact ⟨.refl _ _, rfl⟩
    · split at h
      · simp at h
      · cases h; exact ⟨frame_setDep _ _ _, rfl⟩

theorem frame_setupDep (h : w.setupDep a m = .ok w') : WFrame (· = a) w w' := by
  simp only [World.setupDep] at h
  have h1 := frame_setDep w a fun o => { o with this := some m, other := if o.other = .self then .cls m else o.other }
  split at h
  · cases h; exact h1
  · split at h
    · split at h
      · exact (h1.trans (frame_resolve h).1).mono (by simp)
      · cases h
        exact { h1 with
          deps := h1.deps, denorms := h1.denorms, keys := h1.keys, receivers := h1.receivers, registered := h1.registered
          classes := h1.classes, length := h1.length
          pending := fun p hp => by
            simp only [List.mem_append, List.mem_singleton, World.setDep]
            refine ⟨fun h => h.resolve_right fun e => hp (by rw [e]), .inl⟩ }
    · exact (h1.trans (frame_resolve h).1).mono (by simp)
    · cases h; exact h1

theorem frame_setupDeps : ∀ {l : List Nat} {w : World}, w.setupDeps m l = .ok w' → WFrame (· ∈ l) w w'
  | [], w, h => by
    simp only [World.setupDeps, Except.ok.injEq] at h
    subst h; exact .refl _ _
  | a :: l, w, h => by
    simp only [World.setupDeps] at h
    cases h1 : w.setupDep a m with
    | error e => rw [h1] at h; simp at h
    | ok w1 =>
      rw [h1] at h
      exact ((frame_setupDep h1).trans (frame_setupDeps h)).mono (by
        rintro b (h | h)
        · exact List.mem_cons.2 (.inl h)
        · exact List.mem_cons_of_mem _ h)

/-! ## Names of models -/

theorem lower_iff {s t : String} : lower s = lower t ↔ s.toList.map Char.toLower = t.toList.map Char.toLower := by
  unfold lower
  exact ⟨fun h => by simpa using congrArg String.toList h, fun h => by rw [h]⟩

theorem takeWhile_dot {a n : List Char} (h : '.' ∉ a) : (a ++ '.' :: n).takeWhile (· != '.') = a ∧ (a ++ '.' :: n).dropWhile (· != '.') = '.' :: n := by
  have h' : ∀ c ∈ a, (c != '.') = true := fun c hc => by
    have : c ≠ '.' := fun e => h (e ▸ hc)
    simpa using this
  constructor
  · rw [List.takeWhile_append_of_pos h']; simp
  · rw [List.dropWhile_append_of_pos h']; simp

theorem split_dot {l : List Char} (h : '.' ∈ l) :
    l = l.takeWhile (· != '.') ++ '.' :: (l.dropWhile (· != '.')).drop 1 ∧ '.' ∉ l.takeWhile (· != '.') := by
  induction l with
  | nil => simp at h
  | cons c l ih =>
    by_cases hc : c = '.'
    · subst hc
      simp
    · have h' : '.' ∈ l := by
        rcases List.mem_cons.1 h with e | e
        · exact absurd e.symm hc
        · exact e
      obtain ⟨e1, e2⟩ := ih h'
      have hb : (c != '.') = true := by simpa using hc
      rw [List.takeWhile_cons, if_pos hb, List.dropWhile_cons, if_pos hb]
      refine ⟨by rw [List.cons_append, ← e1], ?_⟩
      simp only [List.mem_cons, not_or]
      exact ⟨fun e => hc e.symm, e2⟩

theorem calls_iff {this m : Model} {s : String} : this.calls s m = true ↔ NameMeans this s m := by
  simp only [Model.calls, Model.keyOf, beq_iff_eq, NameMeans, lower_iff]
  split
  · next hd =>
    rw [Prod.mk.injEq]
    constructor
    · rintro ⟨h1, h2⟩
      obtain ⟨e1, e2⟩ := split_dot hd
      rw [h1] at e1 e2
      refine .inr ⟨e2, String.ofList ((s.toList.dropWhile (· != '.')).drop 1), ?_, by rw [String.toList_ofList]; exact h2⟩
      apply String.toList_inj.1
      rw [String.toList_append, String.toList_append, String.toList_ofList]
      simpa using e1
    · rintro (⟨h, _⟩ | ⟨h1, n, h2, h3⟩)
      · exact absurd hd h
      · have : s.toList = m.appLabel.toList ++ '.' :: n.toList := by rw [h2, String.toList_append, String.toList_append]; simp
        obtain ⟨e1, e2⟩ := takeWhile_dot (n := n.toList) h1
        rw [this, e1, e2]
        exact ⟨rfl, h3⟩
  · next hd =>
    rw [Prod.mk.injEq]
    constructor
    · rintro ⟨h1, h2⟩
      exact .inl ⟨hd, (String.toList_inj.1 h1).symm, h2⟩
    · rintro (⟨_, h1, h2⟩ | ⟨_, n, h2, _⟩)
      · exact ⟨by rw [h1], h2⟩
      · exact absurd (by rw [h2, String.toList_append, String.toList_append]; simp) hd

/-- A name means one entry of the registry. -/
theorem calls_unique {this m m' : Model} {s : String} (h : this.calls s m = true) (h' : this.calls s m' = true) : m.sameLabel m' = true := by
  simp only [Model.calls, beq_iff_eq] at h h'
  rw [h, Prod.mk.injEq] at h'
  simp only [Model.sameLabel, Bool.and_eq_true, beq_iff_eq, lower_iff]
  exact ⟨String.toList_inj.1 h'.1, h'.2⟩

/-- What the registry is searched for. -/
def Finds (registered : List Model) (this : Model) : OtherRef → Model → Prop
  | .cls m, o => o = m
  | .self, o => o = this
  | .name s, o => registered.find? (this.calls s) = some o

/-! ## One dependency object -/

/-- Not set up yet. -/
def DepFresh (w : World) (s : DepSpec) (a : Nat) : Prop :=
  ∃ o, w.deps[a]? = some o ∧ o.other = s.other ∧ o.fkName = s.fkName ∧ o.type = s.type ∧ o.skip = s.skip ∧ o.rel = none ∧
    ∀ p ∈ w.pending, p.1 ≠ a

/-- Set up: resolved, or waiting, `l` being operations that are still to be tried. -/
def DepOk (l : List (Nat × Model × String)) (w : World) (m : Model) (s : DepSpec) (a : Nat) : Prop :=
  ∃ o, w.deps[a]? = some o ∧ o.this = some m ∧ o.fkName = s.fkName ∧ o.skip = s.skip ∧
    (∀ p, p ∈ w.pending ∨ p ∈ l → p.1 = a → p.2.1 = m ∧ s.other = .name p.2.2) ∧
    ((∃ other r, Finds w.registered m s.other other ∧ resolvedModel m other s.fkName s.type = .ok r ∧ o.other = .cls other ∧
        o.type = some r.type ∧ o.rel = some r) ∨
      ∃ str, s.other = .name str ∧ o.other = .name str ∧ o.type = s.type ∧ o.rel = none ∧
        ((a, m, str) ∈ l ∨ (a, m, str) ∈ w.pending ∧ w.ready m str = none))

theorem DepFresh.frame (h : WFrame S w w') (ha : ¬ S a) (hf : DepFresh w s a) : DepFresh w' s a := by
  obtain ⟨o, h1, h2, h3, h4, h5, h6, h7⟩ := hf
  refine ⟨o, by rw [h.deps a ha, h1], h2, h3, h4, h5, h6, fun p hp e => ?_⟩
  exact h7 p ((h.pending p (by rw [e]; exact ha)).1 hp) e

theorem World.ready_congr (h : w'.registered = w.registered) (m : Model) (str : String) : w'.ready m str = w.ready m str := by
  simp only [World.ready, h]

theorem DepOk.frame {l : List (Nat × Model × String)} (h : WFrame S w w') (ha : ¬ S a) (hf : DepOk l w m s a) : DepOk l w' m s a := by
  obtain ⟨o, h1, h2, h3, h4, h5, h6⟩ := hf
  refine ⟨o, by rw [h.deps a ha, h1], h2, h3, h4, fun p hp e => h5 p (hp.imp_left (h.pending p (by rw [e]; exact ha)).1) e, ?_⟩
  rw [h.registered]
  refine h6.imp id ?_
  rintro ⟨str, e1, e2, e3, e4, e5⟩
  refine ⟨str, e1, e2, e3, e4, e5.imp id fun ⟨e5, e6⟩ => ⟨(h.pending _ ha).2 e5, ?_⟩⟩
  rw [World.ready_congr h.registered]
  exact e6

theorem ready_find {str : String} {other : Model} (h : w.ready m str = some other) : w.registered.find? (m.calls str) = some other := by
  simp only [World.ready] at h
  split at h
  · exact h
  · simp at h

/-- setup() of a dependency object that no other denorm has set up. -/
theorem setupDep_ok (h0 : DepFresh w s a ∨ DepOk [] w m s a) (h : w.setupDep a m = .ok w') : DepOk [] w' m s a := by
  -- the state after `self.this_model = this_model`
  have hF := frame_setDep w a fun o => { o with this := some m, other := if o.other = .self then .cls m else o.other }
  have hget : ∀ o, w.deps[a]? = some o → (w.setDep a fun o => { o with this := some m, other := if o.other = .self then .cls m else o.other }).deps[a]? =
      some { o with this := some m, other := if o.other = .self then .cls m else o.other } := by
    intro o ho
    simp only [World.setDep, List.getElem?_modify, if_true, ho]; rfl
  simp only [World.setupDep] at h
  generalize hw1 : (w.setDep a fun o => { o with this := some m, other := if o.other = .self then .cls m else o.other }) = w1 at h hF hget
  have hp1 : w1.pending = w.pending := by rw [← hw1]; rfl
  have hres : ∀ (o : DepObj) (other : Model) (ty : Option RelType), w1.deps[a]? = some o → o.this = some m → o.fkName = s.fkName → o.skip = s.skip →
      o.type = ty → (∀ r, resolvedModel m other s.fkName ty = .ok r → resolvedModel m other s.fkName s.type = .ok r) →
      Finds w1.registered m s.other other → (∀ p ∈ w1.pending, p.1 = a → p.2.1 = m ∧ s.other = .name p.2.2) →
      w1.resolve a other = .ok w' → DepOk [] w' m s a := by
    intro o other ty e1 e2 e3 e4 e5 e6 e7 e8 h
    have hfr := frame_resolve h
    simp only [World.resolve, e1, e2, e3, e5] at h
    cases hr : resolvedModel m other s.fkName ty with
    | error e => rw [hr] at h; simp at h
    | ok r =>
      rw [hr] at h
      simp only [Except.ok.injEq] at h
      subst h
      refine ⟨_, setDep_get e1, e2, e3, e4, ?_, .inl ⟨other, r, e7, e6 r hr, rfl, rfl, rfl⟩⟩
      intro p hp
      exact e8 p (hp.resolve_right (by simp))
  rcases h0 with ⟨o, h1, h2, h3, h4, h5, h6, h7⟩ | ⟨o, h1, h2, h3, h4, h5, h6⟩
  · have hg := hget o h1
    rw [hg] at h
    simp only at h
    have hnp : ∀ p ∈ w1.pending, p.1 = a → p.2.1 = m ∧ s.other = .name p.2.2 := by
      intro p hp e; rw [hp1] at hp; exact absurd e (h7 p hp)
    cases hs : s.other with
    | cls x =>
      rw [h2, hs] at h
      simp only [reduceCtorEq, if_false] at h
      exact hres _ x _ hg rfl h3 h5 h4 (fun r h => h) (by rw [hs]; rfl) hnp h
    | self =>
      rw [h2, hs] at h
      simp only [if_true] at h
      exact hres _ m _ hg rfl h3 h5 h4 (fun r h => h) (by rw [hs]; rfl) hnp h
    | name str =>
      rw [h2, hs] at h
      simp only [reduceCtorEq, if_false] at h
      cases hrd : w1.ready m str with
      | some x =>
        rw [hrd] at h
        exact hres _ x _ hg rfl h3 h5 h4 (fun r h => h) (by rw [hs]; exact ready_find hrd) hnp h
      | none =>
        rw [hrd] at h
        simp only [Except.ok.injEq] at h
        subst h
        refine ⟨_, hg, rfl, h3, h5, ?_, .inr ⟨str, hs, by simp [h2, hs], h4, h6, .inr ⟨by simp, ?_⟩⟩⟩
        · rintro p hp e
          simp only [List.mem_append, List.mem_singleton, List.not_mem_nil, or_false] at hp
          rcases hp with hp | rfl
          · exact hnp p hp e
          · exact ⟨rfl, hs⟩
        · exact hrd
  · have hg := hget o h1
    rw [hg] at h
    simp only at h
    have hnp : ∀ p ∈ w1.pending, p.1 = a → p.2.1 = m ∧ s.other = .name p.2.2 := by
      intro p hp e; rw [hp1] at hp; exact h5 p (.inl hp) e
    rcases h6 with ⟨other, r, e1, e2, e3, e4, e5⟩ | ⟨str, e1, e2, e3, e4, e5⟩
    · rw [e3] at h
      simp only [reduceCtorEq, if_false] at h
      refine hres _ other _ hg rfl h3 h4 e4 ?_ (by rw [hF.registered]; exact e1) hnp h
      intro r' hr'
      rw [resolvedModel_again e2] at hr'
      cases hr'
      exact e2
    · rw [e2] at h
      simp only [reduceCtorEq, if_false] at h
      cases hrd : w1.ready m str with
      | some x =>
        rw [hrd] at h
        exact hres _ x _ hg rfl h3 h4 e3 (fun r h => h) (by rw [e1]; exact ready_find hrd) hnp h
      | none =>
        rw [hrd] at h
        simp only [Except.ok.injEq] at h
        subst h
        refine ⟨_, hg, rfl, h3, h4, ?_, .inr ⟨str, e1, by simp [e2], e3, e4, .inr ⟨by simp, ?_⟩⟩⟩
        · rintro p hp e
          simp only [List.mem_append, List.mem_singleton, List.not_mem_nil, or_false] at hp
          rcases hp with hp | rfl
          · exact hnp p hp e
          · exact ⟨rfl, e1⟩
        · exact hrd

/-! ## One denorm object -/

def DenormObj.Each (d : DenormObj) (P : DepSpec → Nat → Prop) : Prop :=
  ∀ (j : Nat) (s : DepSpec) (a : Nat), d.specs[j]? = some s → d.depend[j]? = some a → P s a

def DenormObj.AllOk (w : World) (d : DenormObj) : Prop := d.Each (DepOk [] w d.cls.model)
def DenormObj.AllFresh (w : World) (d : DenormObj) : Prop := d.Each (DepFresh w)

theorem mem_of_getElem? {α : Type _} {l : List α} {j : Nat} {x : α} (h : l[j]? = some x) : x ∈ l := List.mem_of_getElem? h

theorem setupDeps_ok : ∀ {l : List Nat} {ss : List DepSpec} {w : World}, l.Nodup →
    (∀ (j : Nat) (s : DepSpec) (a : Nat), ss[j]? = some s → l[j]? = some a → DepFresh w s a ∨ DepOk [] w m s a) →
    w.setupDeps m l = .ok w' → ∀ (j : Nat) (s : DepSpec) (a : Nat), ss[j]? = some s → l[j]? = some a → DepOk [] w' m s a
  | [], _, _, _, _, _ => by simp
  | _ :: _, [], _, _, _, _ => by simp
  | a :: l, s :: ss, w, hn, h0, h => by
    simp only [World.setupDeps] at h
    rw [List.nodup_cons] at hn
    cases h1 : w.setupDep a m with
    | error e => rw [h1] at h; simp at h
    | ok w1 =>
      rw [h1] at h
      have ok1 := setupDep_ok (h0 0 s a rfl rfl) h1
      have hfr := frame_setupDep h1
      intro j s' a' hs ha
      cases j with
      | zero =>
        simp only [List.getElem?_cons_zero, Option.some.injEq] at hs ha
        subst hs ha
        exact ok1.frame (frame_setupDeps h) hn.1
      | succ j =>
        refine setupDeps_ok hn.2 (ss := ss) (w := w1) ?_ h j s' a' (by simpa using hs) (by simpa using ha)
        intro j s2 a2 hs2 ha2
        have hne : a2 ≠ a := fun e => hn.1 (e ▸ List.mem_of_getElem? ha2)
        exact (h0 (j + 1) s2 a2 (by simpa using hs2) (by simpa using ha2)).imp (·.frame hfr hne) (·.frame hfr hne)

/-- Everything set up in the course of a signal belongs to some denorm. -/
theorem frame_send {c : Nat} : ∀ {l : List (Nat × Option Nat)} {w : World}, w.send c l = .ok w' →
    WFrame (fun a => ∃ d ∈ w.denorms, a ∈ d.depend) w w'
  | [], w, h => by
    simp only [World.send, Except.ok.injEq] at h
    subst h; exact .refl _ _
  | (i, sender) :: l, w, h => by
    simp only [World.send] at h
    split at h
    · cases hd : w.denorms[i]? with
      | none => rw [hd] at h; exact frame_send h
      | some d =>
        rw [hd] at h
        simp only at h
        cases h1 : w.setupDeps d.cls.model d.depend with
        | error e => rw [h1] at h; simp at h
        | ok w1 =>
          rw [h1] at h
          have f1 := frame_setupDeps h1
          refine (f1.trans (frame_send h)).mono ?_
          rintro b (hb | ⟨d', hd', hb⟩)
          · exact ⟨d, List.mem_of_getElem? hd, hb⟩
          · exact ⟨d', f1.denorms ▸ hd', hb⟩
    · exact frame_send h

/-- class_prepared sets up the denorms that listen to it, and leaves denorms that are set up as they are, if they share no
dependency object with another denorm. -/
theorem send_ok {c i : Nat} {d : DenormObj} (hn : d.depend.Nodup) : ∀ {l : List (Nat × Option Nat)} {w : World},
    w.denorms[i]? = some d → w.Private i →
    d.AllOk w ∨ d.AllFresh w ∧ (∃ sender, (i, sender) ∈ l ∧ (sender = none ∨ sender = some c)) → w.send c l = .ok w' → d.AllOk w'
  | [], w, _, _, h0, h => by
    simp only [World.send, Except.ok.injEq] at h
    subst h
    rcases h0 with h | ⟨_, _, h, _⟩
    · exact h
    · simp at h
  | (i', sender) :: l, w, hd, hp, h0, h => by
    simp only [World.send] at h
    split at h
    · rename_i hs
      cases hd' : w.denorms[i']? with
      | none =>
        rw [hd'] at h
        refine send_ok hn hd hp (h0.imp id ?_) h
        rintro ⟨h1, s2, h2, h3⟩
        refine ⟨h1, s2, ?_, h3⟩
        rcases List.mem_cons.1 h2 with h2 | h2
        · simp only [Prod.mk.injEq] at h2
          rw [h2.1, hd'] at hd
          simp at hd
        · exact h2
      | some d' =>
        rw [hd'] at h
        simp only at h
        cases h1 : w.setupDeps d'.cls.model d'.depend with
        | error e => rw [h1] at h; simp at h
        | ok w1 =>
          rw [h1] at h
          have f1 := frame_setupDeps h1
          have hd1 : w1.denorms[i]? = some d := by rw [f1.denorms]; exact hd
          have hp1 : w1.Private i := by unfold World.Private; rw [f1.denorms]; exact hp
          by_cases hi : i' = i
          · subst hi
            rw [hd] at hd'
            cases hd'
            refine send_ok hn hd1 hp1 (.inl ?_) h
            refine setupDeps_ok hn ?_ h1
            intro j s a hs ha
            rcases h0 with h0 | ⟨h0, _⟩
            · exact .inr (h0 j s a hs ha)
            · exact .inl (h0 j s a hs ha)
          · have hdis : ∀ (j : Nat) (a : Nat), d.depend[j]? = some a → ¬ a ∈ d'.depend := fun j a ha =>
              hp d hd i' d' hd' hi a (List.mem_of_getElem? ha)
            refine send_ok hn hd1 hp1 ?_ h
            rcases h0 with h0 | ⟨h0, s2, h2, h3⟩
            · exact .inl fun j s a hs ha => (h0 j s a hs ha).frame f1 (hdis j a ha)
            · refine .inr ⟨fun j s a hs ha => (h0 j s a hs ha).frame f1 (hdis j a ha), s2, ?_, h3⟩
              rcases List.mem_cons.1 h2 with h2 | h2
              · simp only [Prod.mk.injEq] at h2
                exact absurd h2.1.symm hi
              · exact h2
    · rename_i hs
      refine send_ok hn hd hp (h0.imp id ?_) h
      rintro ⟨h1, s2, h2, h3⟩
      refine ⟨h1, s2, ?_, h3⟩
      rcases List.mem_cons.1 h2 with h2 | h2
      · simp only [Prod.mk.injEq] at h2
        rw [← h2.2] at hs
        exact absurd h3 hs
      · exact h2

/-! ## Registration -/

theorem frame_runPending : ∀ {l : List (Nat × Model × String)} {w : World}, w.runPending l = .ok w' →
    w'.denorms = w.denorms ∧ w'.keys = w.keys ∧ w'.receivers = w.receivers ∧ w'.registered = w.registered ∧ w'.classes = w.classes ∧
    w'.deps.length = w.deps.length ∧ (∀ b, (∀ p ∈ l, p.1 ≠ b) → w'.deps[b]? = w.deps[b]?) ∧
    ∀ p ∈ w'.pending, p ∈ w.pending ∨ p ∈ l
  | [], w, h => by
    simp only [World.runPending, Except.ok.injEq] at h
    subst h
    exact ⟨rfl, rfl, rfl, rfl, rfl, rfl, fun _ _ => rfl, fun _ h => .inl h⟩
  | (a, this, str) :: l, w, h => by
    simp only [World.runPending] at h
    cases hr : w.ready this str with
    | some x =>
      rw [hr] at h
      simp only at h
      cases h1 : w.resolve a x with
      | error e => rw [h1] at h; simp at h
      | ok w1 =>
        rw [h1] at h
        obtain ⟨f1, f2⟩ := frame_resolve h1
        obtain ⟨g1, g2, g3, g4, g5, g6, g7, g8⟩ := frame_runPending h
        refine ⟨g1.trans f1.denorms, g2.trans f1.keys, g3.trans f1.receivers, g4.trans f1.registered, g5.trans f1.classes,
          g6.trans f1.length, fun b hb => ?_, fun p hp => ?_⟩
        · rw [g7 b fun p hp => hb p (List.mem_cons_of_mem _ hp), f1.deps b fun e => hb _ (List.mem_cons_self ..) e.symm]
        · exact (g8 p hp).imp (by rw [f2]; exact id) (List.mem_cons_of_mem _)
    | none =>
      rw [hr] at h
      obtain ⟨g1, g2, g3, g4, g5, g6, g7, g8⟩ := frame_runPending h
      refine ⟨g1, g2, g3, g4, g5, g6, fun b hb => g7 b fun p hp => hb p (List.mem_cons_of_mem _ hp), fun p hp => ?_⟩
      rcases g8 p hp with h | h
      · rcases List.mem_append.1 h with h | h
        · exact .inl h
        · exact .inr (List.mem_cons.2 (.inl (List.mem_singleton.1 h)))
      · exact .inr (List.mem_cons_of_mem _ h)

theorem runPending_ok : ∀ {l : List (Nat × Model × String)} {w : World}, DepOk l w m s a → w.runPending l = .ok w' → DepOk [] w' m s a
  | [], w, h0, h => by
    simp only [World.runPending, Except.ok.injEq] at h
    subst h; exact h0
  | (a', this, str) :: l, w, h0, h => by
    simp only [World.runPending] at h
    obtain ⟨o, h1, h2, h3, h4, h5, h6⟩ := h0
    have h5' : ∀ p, p ∈ w.pending ∨ p ∈ l → p.1 = a → p.2.1 = m ∧ s.other = .name p.2.2 := fun p hp e =>
      h5 p (hp.imp id (List.mem_cons_of_mem _)) e
    cases hr : w.ready this str with
    | some x =>
      rw [hr] at h
      simp only at h
      cases hres : w.resolve a' x with
      | error e => rw [hres] at h; simp at h
      | ok w1 =>
        rw [hres] at h
        obtain ⟨f1, f2⟩ := frame_resolve hres
        refine runPending_ok ?_ h
        by_cases ha : a' = a
        · subst ha
          obtain ⟨e1, e2⟩ := h5 _ (.inr (List.mem_cons_self ..)) rfl
          simp only at e1 e2
          subst e1
          have hfind := ready_find hr
          simp only [World.resolve, h1, h2] at hres
          cases hrm : resolvedModel this x o.fkName o.type with
          | error e => rw [hrm] at hres; simp at hres
          | ok r =>
            rw [hrm] at hres
            simp only [Except.ok.injEq] at hres
            subst hres
            refine ⟨_, setDep_get h1, h2, h3, h4, h5', .inl ⟨x, r, ?_, ?_, rfl, rfl, rfl⟩⟩
            · rw [e2]; exact hfind
            · rcases h6 with ⟨other, r0, g1, g2, g3, g4, g5⟩ | ⟨str', g1, g2, g3, g4, g5⟩
              · rw [e2] at g1
                simp only [Finds, hfind, Option.some.injEq] at g1
                subst g1
                rw [h3, g4, resolvedModel_again g2] at hrm
                cases hrm
                exact g2
              · rw [← h3, ← g3]; exact hrm
        · have hne : ¬ a = a' := fun e => ha e.symm
          refine ⟨o, by rw [f1.deps a hne, h1], h2, h3, h4, by rw [f2]; exact h5', ?_⟩
          rw [f1.registered, f2]
          refine h6.imp id ?_
          rintro ⟨str', g1, g2, g3, g4, g5⟩
          refine ⟨str', g1, g2, g3, g4, ?_⟩
          rcases g5 with g5 | ⟨g5, g6⟩
          · rcases List.mem_cons.1 g5 with g5 | g5
            · simp only [Prod.mk.injEq] at g5
              exact absurd g5.1 hne
            · exact .inl g5
          · exact .inr ⟨g5, by rw [World.ready_congr f1.registered]; exact g6⟩
    | none =>
      rw [hr] at h
      simp only at h
      refine runPending_ok ?_ h
      refine ⟨o, h1, h2, h3, h4, ?_, h6.imp id ?_⟩
      · intro p hp e
        simp only [List.mem_append, List.mem_singleton] at hp
        refine h5 p ?_ e
        rcases hp with (hp | rfl) | hp
        · exact .inl hp
        · exact .inr (List.mem_cons_self ..)
        · exact .inr (List.mem_cons_of_mem _ hp)
      · rintro ⟨str', g1, g2, g3, g4, g5⟩
        refine ⟨str', g1, g2, g3, g4, ?_⟩
        rcases g5 with g5 | ⟨g5, g6⟩
        · rcases List.mem_cons.1 g5 with g5 | g5
          · simp only [Prod.mk.injEq] at g5
            obtain ⟨rfl, rfl, rfl⟩ := g5
            exact .inr ⟨by simp, hr⟩
          · exact .inl g5
        · exact .inr ⟨List.mem_append_left _ g5, g6⟩

theorem register_ok (h0 : DepOk [] w m s a) {x : Model} (h : w.register x = .ok w') : DepOk [] w' m s a := by
  simp only [World.register] at h
  split at h
  · simp at h
  · refine runPending_ok ?_ h
    obtain ⟨o, h1, h2, h3, h4, h5, h6⟩ := h0
    refine ⟨o, h1, h2, h3, h4, fun p hp => h5 p (by simpa using hp), h6.imp ?_ ?_⟩
    · rintro ⟨other, r, e1, e2, e3⟩
      refine ⟨other, r, ?_, e2, e3⟩
      cases hs : s.other with
      | cls y => rw [hs] at e1; exact e1
      | self => rw [hs] at e1; exact e1
      | name str =>
        rw [hs] at e1
        simp only [Finds] at e1 ⊢
        rw [List.find?_append, e1]; rfl
    · rintro ⟨str, e1, e2, e3, e4, e5⟩
      exact ⟨str, e1, e2, e3, e4, .inl (by simpa using e5.resolve_left (by simp) |>.1)⟩

theorem register_frame {x : Model} (h : w.register x = .ok w') :
    w'.denorms = w.denorms ∧ w'.keys = w.keys ∧ w'.registered = w.registered ++ [x] ∧ w'.deps.length = w.deps.length ∧
    (∀ b, (∀ p ∈ w.pending, p.1 ≠ b) → w'.deps[b]? = w.deps[b]?) ∧ ∀ p ∈ w'.pending, p ∈ w.pending := by
  simp only [World.register] at h
  split at h
  · simp at h
  · obtain ⟨g1, g2, g3, g4, g5, g6, g7, g8⟩ := frame_runPending h
    exact ⟨g1, g2, g4, g6, g7, fun p hp => by simpa using g8 p hp⟩

/-! ## The invariant -/

/-- What holds of the world besides the state of the denorms. -/
structure WInv (w : World) : Prop where
  denormBound : ∀ d ∈ w.denorms, ∀ a ∈ d.depend, a < w.deps.length
  keyBound : ∀ k ∈ w.keys, ∀ a ∈ k.dependencies, a < w.deps.length
  pendingBound : ∀ p ∈ w.pending, p.1 < w.deps.length
  denormNodup : ∀ d ∈ w.denorms, d.depend.Nodup ∧ d.depend.length = d.specs.length
  keyNodup : ∀ k ∈ w.keys, k.dependencies.Nodup ∧ k.dependencies.length = k.specs.length
  keyFresh : ∀ k ∈ w.keys, ∀ (j : Nat) (s : DepSpec) (a : Nat), k.specs[j]? = some s → k.dependencies[j]? = some a →
    (∀ d ∈ w.denorms, a ∉ d.depend) → DepFresh w s a
  callback : ∀ (i : Nat) (d : DenormObj), w.denorms[i]? = some d → d.kind = .callback →
    w.Private i ∧ ∀ k ∈ w.keys, ∀ a ∈ d.depend, a ∉ k.dependencies

/-- In the course of the class statement `c`: the denorms of earlier classes are set up, its own are set up or about to be. -/
def DenormsOk (c : Option Cls) (w : World) : Prop :=
  ∀ (i : Nat) (d : DenormObj), w.denorms[i]? = some d → w.Private i → d.cls.abstract = false →
    d.AllOk w ∨ c = some d.cls ∧ d.AllFresh w ∧ ∃ sender, (i, sender) ∈ w.receivers ∧ (sender = none ∨ sender = some d.cls.id)

theorem DepFresh.of_deps (hd : ∀ o, w.deps[a]? = some o → ∃ o', w'.deps[a]? = some o' ∧ o'.other = o.other ∧ o'.fkName = o.fkName ∧
      o'.type = o.type ∧ o'.skip = o.skip ∧ o'.rel = o.rel) (hp : w'.pending = w.pending) (h : DepFresh w s a) : DepFresh w' s a := by
  obtain ⟨o, h1, h2, h3, h4, h5, h6, h7⟩ := h
  obtain ⟨o', e1, e2, e3, e4, e5, e6⟩ := hd o h1
  exact ⟨o', e1, e2.trans h2, e3.trans h3, e4.trans h4, e5.trans h5, e6.trans h6, by rw [hp]; exact h7⟩

theorem DepOk.of_deps (hd : ∀ o, w.deps[a]? = some o → ∃ o', w'.deps[a]? = some o' ∧ o'.other = o.other ∧ o'.fkName = o.fkName ∧
      o'.type = o.type ∧ o'.skip = o.skip ∧ o'.rel = o.rel ∧ o'.this = o.this) (hp : w'.pending = w.pending)
    (hr : w'.registered = w.registered) (h : DepOk [] w m s a) : DepOk [] w' m s a := by
  obtain ⟨o, h1, h2, h3, h4, h5, h6⟩ := h
  obtain ⟨o', e1, e2, e3, e4, e5, e6, e7⟩ := hd o h1
  refine ⟨o', e1, e7.trans h2, e3.trans h3, e5.trans h4, by rw [hp]; exact h5, ?_⟩
  rw [e2, e4, e6, hr, hp]
  simpa only [World.ready_congr hr] using h6

/-- Appending dependency objects. -/
theorem deps_append {l : List DepObj} {o : DepObj} (h : w.deps[a]? = some o) : (w.deps ++ l)[a]? = some o := by
  rw [List.getElem?_append_left (List.getElem?_eq_some_iff.1 h).1, h]

/-- Setting field names. -/
theorem named_deps {name : Col} : ∀ {l : List Nat} {w : World} {o : DepObj}, w.deps[a]? = some o →
    ∃ o', (l.foldl (fun w a => w.setDep a fun o => { o with fieldname := some name }) w).deps[a]? = some o' ∧ o'.other = o.other ∧
      o'.fkName = o.fkName ∧ o'.type = o.type ∧ o'.skip = o.skip ∧ o'.rel = o.rel ∧ o'.this = o.this
  | [], w, o, h => ⟨o, h, rfl, rfl, rfl, rfl, rfl, rfl⟩
  | b :: l, w, o, h => by
    rw [List.foldl_cons]
    by_cases hb : b = a
    · rw [hb]
      obtain ⟨o', h1, h2⟩ := named_deps (l := l) (name := name) (setDep_get (f := fun o => { o with fieldname := some name }) h)
      exact ⟨o', h1, h2⟩
    · exact named_deps (by rw [(frame_setDep w b _).deps a fun e => hb e.symm]; exact h)

theorem named_rest {name : Col} : ∀ {l : List Nat} {w : World},
    (l.foldl (fun w a => w.setDep a fun o => { o with fieldname := some name }) w).pending = w.pending ∧
    (l.foldl (fun w a => w.setDep a fun o => { o with fieldname := some name }) w).registered = w.registered ∧
    (l.foldl (fun w a => w.setDep a fun o => { o with fieldname := some name }) w).keys = w.keys ∧
    (l.foldl (fun w a => w.setDep a fun o => { o with fieldname := some name }) w).classes = w.classes ∧
    (l.foldl (fun w a => w.setDep a fun o => { o with fieldname := some name }) w).deps.length = w.deps.length
  | [], _ => ⟨rfl, rfl, rfl, rfl, rfl⟩
  | b :: l, w => by
    rw [List.foldl_cons]
    obtain ⟨h1, h2, h3, h4, h5⟩ := named_rest (l := l) (w := w.setDep b fun o => { o with fieldname := some name })
    exact ⟨h1, h2, h3, h4, h5.trans (frame_setDep w b _).length⟩

theorem private_of_append {ds : List DenormObj} {i : Nat} {d : DenormObj} (he : w'.denorms = w.denorms ++ ds) (hi : w.denorms[i]? = some d)
    (h : w'.Private i) : w.Private i := by
  have lift : ∀ {i : Nat} {d : DenormObj}, w.denorms[i]? = some d → w'.denorms[i]? = some d := by
    intro i d h
    rw [he, List.getElem?_append_left (List.getElem?_eq_some_iff.1 h).1, h]
  intro d0 h0 i' d' h' hne
  exact h d0 (lift h0) i' d' (lift h') hne

theorem getElem?_snoc {α : Type _} {l : List α} {x y : α} {i : Nat} (h : (l ++ [x])[i]? = some y) : l[i]? = some y ∨ i = l.length ∧ y = x := by
  by_cases hi : i < l.length
  · rw [List.getElem?_append_left hi] at h; exact .inl h
  · rw [List.getElem?_append_right (by omega)] at h
    obtain ⟨h1, h2⟩ := List.getElem?_eq_some_iff.1 h
    simp only [List.length_singleton] at h1
    refine .inr ⟨by omega, ?_⟩
    simp only [List.getElem_singleton] at h2
    exact h2.symm

/-- contribute_to_class() keeps the invariants. -/
theorem contribute_inv {c : Cls} {name : Col} {f : FieldRef} (hI : WInv w) (hD : DenormsOk (some c) w) :
    WInv (w.contribute c name f) ∧ DenormsOk (some c) (w.contribute c name f) := by
  cases f with
  | callback f =>
    have hmem : ∀ a, a ∈ List.range' w.deps.length f.depends.length → w.deps.length ≤ a ∧ a < w.deps.length + f.depends.length := by
      intro a ha
      obtain ⟨i, hi, rfl⟩ := List.mem_range'.1 ha
      omega
    have hlen : (w.contribute c name (.callback f)).deps.length = w.deps.length + f.depends.length := by simp [World.contribute]
    have hold : ∀ d ∈ w.denorms, ∀ a ∈ d.depend, a ∉ List.range' w.deps.length f.depends.length := by
      intro d hd a ha h
      have := hI.denormBound d hd a ha
      have := (hmem a h).1
      omega
    have hnew : ∀ (j : Nat) (s : DepSpec) (a : Nat), f.depends[j]? = some s → (List.range' w.deps.length f.depends.length)[j]? = some a →
        DepFresh (w.contribute c name (.callback f)) s a := by
      intro j s a hs ha
      have hj : j < f.depends.length := (List.getElem?_eq_some_iff.1 hs).1
      have : a = w.deps.length + j := by
        rw [List.getElem?_range' hj] at ha
        simpa using ha.symm
      subst this
      refine ⟨s.new, ?_, rfl, rfl, rfl, rfl, rfl, ?_⟩
      · simp only [World.contribute]
        rw [List.getElem?_append_right (by omega)]
        simp [hs]
      · intro p hp e
        have := hI.pendingBound p hp
        omega
    refine ⟨?_, ?_⟩
    · refine ⟨?_, ?_, ?_, ?_, hI.keyNodup, ?_, ?_⟩
      · intro d hd a ha
        rw [hlen]
        rcases List.mem_append.1 hd with hd | hd
        · have := hI.denormBound d hd a ha; omega
        · rw [List.mem_singleton.1 hd] at ha
          have := hmem a ha; omega
      · intro k hk a ha
        rw [hlen]
        have := hI.keyBound k hk a ha; omega
      · intro p hp
        rw [hlen]
        have := hI.pendingBound p hp; omega
      · intro d hd
        rcases List.mem_append.1 hd with hd | hd
        · exact hI.denormNodup d hd
        · rw [List.mem_singleton.1 hd]
          exact ⟨List.nodup_range', by simp⟩
      · intro k hk j s a hs ha hfree
        have := hI.keyFresh k hk j s a hs ha fun d hd => hfree d (List.mem_append_left _ hd)
        exact this.of_deps (fun o ho => ⟨o, deps_append ho, rfl, rfl, rfl, rfl, rfl⟩) rfl
      · intro i d hd hk
        rcases getElem?_snoc hd with hd | ⟨rfl, rfl⟩
        · obtain ⟨h1, h2⟩ := hI.callback i d hd hk
          refine ⟨?_, h2⟩
          intro d0 h0 i' d' h' hne a ha
          rcases getElem?_snoc h0 with h0 | ⟨rfl, rfl⟩
          · rcases getElem?_snoc h' with h' | ⟨rfl, rfl⟩
            · exact h1 d0 h0 i' d' h' hne a ha
            · exact hold d0 (List.mem_of_getElem? h0) a ha
          · have := (List.getElem?_eq_some_iff.1 hd).1; omega
        · refine ⟨?_, ?_⟩
          · intro d0 h0 i' d' h' hne a ha
            rcases getElem?_snoc h' with h' | ⟨rfl, rfl⟩
            · rcases getElem?_snoc h0 with h0 | ⟨_, rfl⟩
              · have := (List.getElem?_eq_some_iff.1 h0).1; omega
              · exact fun h => hold d' (List.mem_of_getElem? h') a h ha
            · exact absurd rfl hne
          · intro k hk a ha h
            have h1 := hI.keyBound k hk a h
            have h2 := (hmem a ha).1
            omega
    · intro i d hd hp ha
      rcases getElem?_snoc hd with hd | ⟨rfl, rfl⟩
      · rcases hD i d hd (private_of_append rfl hd hp) ha with h | ⟨h1, h2, s, h3, h4⟩
        · exact .inl fun j s a hs ha => (h j s a hs ha).of_deps (fun o ho => ⟨o, deps_append ho, rfl, rfl, rfl, rfl, rfl, rfl⟩) rfl rfl
        · refine .inr ⟨h1, fun j s a hs ha => (h2 j s a hs ha).of_deps (fun o ho => ⟨o, deps_append ho, rfl, rfl, rfl, rfl, rfl⟩) rfl, s, ?_, h4⟩
          exact List.mem_append_left _ h3
      · exact .inr ⟨rfl, hnew, some c.id, List.mem_append_right _ (List.mem_singleton.2 rfl), .inr rfl⟩
  | key i0 =>
    generalize hk0 : w.keys[i0]?.getD ⟨[], []⟩ = k
    have hkm : k ∈ w.keys ∨ k.dependencies = [] ∧ k.specs = [] := by
      cases h : w.keys[i0]? with
      | none => rw [h] at hk0; simp at hk0; rw [← hk0]; exact .inr ⟨rfl, rfl⟩
      | some k' => rw [h] at hk0; simp at hk0; rw [← hk0]; exact .inl (List.mem_of_getElem? h)
    obtain ⟨n1, n2, n3, n4, n5⟩ := named_rest (name := name) (l := k.dependencies) (w := w)
    have hdef : w.contribute c name (.key i0) = { k.dependencies.foldl (fun w a => w.setDep a fun o => { o with fieldname := some name }) w with
      denorms := w.denorms ++ [⟨.cacheKey, c, name, k.dependencies, k.specs⟩]
      receivers := w.receivers ++ [(w.denorms.length, none)] } := by simp only [World.contribute, hk0]
    have hdeps : ∀ {a : Nat} {o : DepObj}, w.deps[a]? = some o → ∃ o', (w.contribute c name (.key i0)).deps[a]? = some o' ∧ o'.other = o.other ∧
      o'.fkName = o.fkName ∧ o'.type = o.type ∧ o'.skip = o.skip ∧ o'.rel = o.rel ∧ o'.this = o.this := by
      intro a o h
      rw [hdef]
      exact named_deps h
    have hlen : (w.contribute c name (.key i0)).deps.length = w.deps.length := by rw [hdef]; exact n5
    have hpend : (w.contribute c name (.key i0)).pending = w.pending := by rw [hdef]; exact n1
    have hreg : (w.contribute c name (.key i0)).registered = w.registered := by rw [hdef]; exact n2
    have hkeys : (w.contribute c name (.key i0)).keys = w.keys := by rw [hdef]; exact n3
    have hden : (w.contribute c name (.key i0)).denorms = w.denorms ++ [⟨.cacheKey, c, name, k.dependencies, k.specs⟩] := by rw [hdef]
    have hrec : (w.contribute c name (.key i0)).receivers = w.receivers ++ [(w.denorms.length, none)] := by rw [hdef]
    have hfr : ∀ {s : DepSpec} {a : Nat}, DepFresh w s a → DepFresh (w.contribute c name (.key i0)) s a := fun h =>
      h.of_deps (fun o ho => by
        obtain ⟨o', e1, e2, e3, e4, e5, e6, _⟩ := hdeps ho
        exact ⟨o', e1, e2, e3, e4, e5, e6⟩) hpend
    clear hdef
    generalize w.contribute c name (.key i0) = w1 at *
    refine ⟨⟨?_, ?_, ?_, ?_, by rw [hkeys]; exact hI.keyNodup, ?_, ?_⟩, ?_⟩
    · intro d hd a ha
      rw [hlen]
      rw [hden] at hd
      rcases List.mem_append.1 hd with hd | hd
      · exact hI.denormBound d hd a ha
      · rw [List.mem_singleton.1 hd] at ha
        rcases hkm with hkm | ⟨hkm, _⟩
        · exact hI.keyBound k hkm a ha
        · simp [hkm] at ha
    · rw [hkeys, hlen]; exact hI.keyBound
    · rw [hpend, hlen]; exact hI.pendingBound
    · intro d hd
      rw [hden] at hd
      rcases List.mem_append.1 hd with hd | hd
      · exact hI.denormNodup d hd
      · rw [List.mem_singleton.1 hd]
        rcases hkm with hkm | ⟨hkm, hks⟩
        · exact hI.keyNodup k hkm
        · simp [hkm, hks]
    · rw [hkeys]
      intro k' hk' j s a hs ha hfree
      exact hfr (hI.keyFresh k' hk' j s a hs ha fun d hd => hfree d (by rw [hden]; exact List.mem_append_left _ hd))
    · intro i d hd hk
      rw [hkeys]
      rw [hden] at hd
      rcases getElem?_snoc hd with hd | ⟨rfl, rfl⟩
      · obtain ⟨h1, h2⟩ := hI.callback i d hd hk
        refine ⟨?_, h2⟩
        intro d0 h0 i' d' h' hne a ha
        rw [hden] at h0 h'
        rcases getElem?_snoc h0 with h0 | ⟨rfl, rfl⟩
        · rcases getElem?_snoc h' with h' | ⟨rfl, rfl⟩
          · exact h1 d0 h0 i' d' h' hne a ha
          · rw [hd] at h0
            cases h0
            rcases hkm with hkm | ⟨hkm, _⟩
            · exact h2 k hkm a ha
            · simp [hkm]
        · have := (List.getElem?_eq_some_iff.1 hd).1; omega
      · simp at hk
    · intro i d hd hp ha
      rw [hden] at hd
      rw [hrec]
      rcases getElem?_snoc hd with hd | ⟨rfl, rfl⟩
      · rcases hD i d hd (private_of_append hden hd hp) ha with h | ⟨h1, h2, s, h3, h4⟩
        · exact .inl fun j s a hs ha => (h j s a hs ha).of_deps (fun o ho => hdeps ho) hpend hreg
        · exact .inr ⟨h1, fun j s a hs ha => hfr (h2 j s a hs ha), s, List.mem_append_left _ h3, h4⟩
      · refine .inr ⟨rfl, ?_, none, List.mem_append_right _ (List.mem_singleton.2 rfl), .inl rfl⟩
        intro j s a hs ha
        rcases hkm with hkm | ⟨hkm, _⟩
        · refine hfr (hI.keyFresh k hkm j s a hs ha fun d hd h => ?_)
          obtain ⟨i', hi', hd'⟩ := List.mem_iff_getElem.1 hd
          have h1 : w1.denorms[w.denorms.length]? = some ⟨.cacheKey, c, name, k.dependencies, k.specs⟩ := by rw [hden]; simp
          have h2 : w1.denorms[i']? = some d := by
            rw [hden, List.getElem?_append_left hi', List.getElem?_eq_getElem hi', hd']
          exact hp _ h1 i' d h2 (by omega) a (List.mem_of_getElem? ha) h
        · rw [hkm] at ha; simp at ha

theorem contributeAll_inv {c : Cls} : ∀ {l : List (Col × FieldRef)} {w : World}, WInv w → DenormsOk (some c) w →
    WInv (w.contributeAll c l) ∧ DenormsOk (some c) (w.contributeAll c l)
  | [], _, h1, h2 => ⟨h1, h2⟩
  | (_, _) :: _, _, h1, h2 => contributeAll_inv (w := World.contribute ..) (contribute_inv h1 h2).1 (contribute_inv h1 h2).2

theorem private_congr {i : Nat} (h : w'.denorms = w.denorms) : w'.Private i ↔ w.Private i := by
  unfold World.Private; rw [h]

/-- A statement keeps the invariants. -/
theorem exec_inv {st : PyStmt} (hI : WInv w) (hD : DenormsOk none w) (h : w.exec st = .ok w') : WInv w' ∧ DenormsOk none w' := by
  cases st with
  | keyField specs =>
    simp only [World.exec, Except.ok.injEq] at h
    have hmem : ∀ a, a ∈ List.range' w.deps.length specs.length → w.deps.length ≤ a ∧ a < w.deps.length + specs.length := by
      intro a ha
      obtain ⟨i, hi, rfl⟩ := List.mem_range'.1 ha
      omega
    subst h
    refine ⟨⟨?_, ?_, ?_, hI.denormNodup, ?_, ?_, ?_⟩, ?_⟩
    · intro d hd a ha
      have := hI.denormBound d hd a ha
      simp only [List.length_append, List.length_map]; omega
    · intro k hk a ha
      simp only [List.length_append, List.length_map]
      rcases List.mem_append.1 hk with hk | hk
      · have := hI.keyBound k hk a ha; omega
      · rw [List.mem_singleton.1 hk] at ha
        have := hmem a ha; omega
    · intro p hp
      have := hI.pendingBound p hp
      simp only [List.length_append, List.length_map]; omega
    · intro k hk
      rcases List.mem_append.1 hk with hk | hk
      · exact hI.keyNodup k hk
      · rw [List.mem_singleton.1 hk]
        exact ⟨List.nodup_range', by simp⟩
    · intro k hk j s a hs ha hfree
      rcases List.mem_append.1 hk with hk | hk
      · exact (hI.keyFresh k hk j s a hs ha hfree).of_deps (fun o ho => ⟨o, deps_append ho, rfl, rfl, rfl, rfl, rfl⟩) rfl
      · rw [List.mem_singleton.1 hk] at hs ha
        have hj : j < specs.length := (List.getElem?_eq_some_iff.1 hs).1
        have : a = w.deps.length + j := by
          rw [List.getElem?_range' hj] at ha
          simpa using ha.symm
        subst this
        refine ⟨s.new, ?_, rfl, rfl, rfl, rfl, rfl, ?_⟩
        · rw [List.getElem?_append_right (by omega)]
          have : specs[j]? = some s := hs
          simp [this]
        · intro p hp e
          have := hI.pendingBound p hp
          omega
    · intro i d hd hk
      obtain ⟨h1, h2⟩ := hI.callback i d hd hk
      refine ⟨h1, fun k hk a ha => ?_⟩
      rcases List.mem_append.1 hk with hk | hk
      · exact h2 k hk a ha
      · rw [List.mem_singleton.1 hk]
        intro h
        have := (hmem a h).1
        have := hI.denormBound d (List.mem_of_getElem? hd) a ha
        omega
    · intro i d hd hp ha
      rcases hD i d hd hp ha with h | ⟨h, _⟩
      · exact .inl fun j s a hs ha => (h j s a hs ha).of_deps (fun o ho => ⟨o, deps_append ho, rfl, rfl, rfl, rfl, rfl, rfl⟩) rfl rfl
      · simp at h
  | cls m abstract fields =>
    have hI0 : WInv { w with classes := w.classes + 1 } := ⟨hI.1, hI.2, hI.3, hI.4, hI.5, hI.6, hI.7⟩
    have hD0 : DenormsOk (some ⟨w.classes, m, abstract⟩) { w with classes := w.classes + 1 } := by
      intro i d hd hp ha
      rcases hD i d hd hp ha with h | ⟨h, _⟩
      · exact .inl h
      · simp at h
    obtain ⟨hI1, hD1⟩ := contributeAll_inv (l := fields) hI0 hD0
    simp only [World.exec] at h
    generalize hw1 : { w with classes := w.classes + 1 }.contributeAll ⟨w.classes, m, abstract⟩ fields = w1 at h hI1 hD1
    split at h
    · rename_i hab
      cases h
      refine ⟨hI1, fun i d hd hp ha => ?_⟩
      rcases hD1 i d hd hp ha with h | ⟨h, _⟩
      · exact .inl h
      · simp only [Option.some.injEq] at h
        rw [← h] at ha
        simp [hab] at ha
    · cases h2 : w1.send w.classes w1.receivers with
      | error e => rw [h2] at h; simp at h
      | ok w2 =>
        rw [h2] at h
        simp only at h
        have f2 := frame_send h2
        obtain ⟨g1, g2, g3, g4, g5, g6⟩ := register_frame h
        have hden : w'.denorms = w1.denorms := g1.trans f2.denorms
        have hpend2 : ∀ p ∈ w2.pending, p.1 < w2.deps.length := by
          intro p hp
          rw [f2.length]
          by_cases hs : ∃ d ∈ w1.denorms, p.1 ∈ d.depend
          · obtain ⟨d, hd, ha⟩ := hs
            exact hI1.denormBound d hd _ ha
          · exact hI1.pendingBound p ((f2.pending p hs).1 hp)
        refine ⟨⟨?_, ?_, ?_, ?_, ?_, ?_, ?_⟩, ?_⟩
        · rw [hden, g4, f2.length]; exact hI1.denormBound
        · rw [g2, f2.keys, g4, f2.length]; exact hI1.keyBound
        · intro p hp
          rw [g4]
          exact hpend2 p (g6 p hp)
        · rw [hden]; exact hI1.denormNodup
        · rw [g2, f2.keys]; exact hI1.keyNodup
        · rw [g2, f2.keys, hden]
          intro k hk j s a hs ha hfree
          have hns : ¬ ∃ d ∈ w1.denorms, a ∈ d.depend := fun ⟨d, hd, h⟩ => hfree d hd h
          have := (hI1.keyFresh k hk j s a hs ha hfree).frame f2 hns
          obtain ⟨o, h1, h2, h3, h4, h5, h6, h7⟩ := this
          exact ⟨o, by rw [g5 a h7, h1], h2, h3, h4, h5, h6, fun p hp => h7 p (g6 p hp)⟩
        · intro i d hd hk
          rw [hden] at hd
          rw [private_congr hden, g2, f2.keys]
          exact hI1.callback i d hd hk
        · intro i d hd hp ha
          rw [hden] at hd
          rw [private_congr hden] at hp
          have hok : d.AllOk w2 := by
            refine send_ok (hI1.denormNodup d (List.mem_of_getElem? hd)).1 hd hp ?_ h2
            rcases hD1 i d hd hp ha with h | ⟨h, h3, s, h4, h5⟩
            · exact .inl h
            · simp only [Option.some.injEq] at h
              rw [← h] at h5
              exact .inr ⟨h3, s, h4, h5⟩
          exact .inl fun j s a hs ha => register_ok (hok j s a hs ha) h

theorem run_inv : ∀ {ss : List PyStmt} {w : World}, WInv w → DenormsOk none w → World.run ss w = .ok w' → WInv w' ∧ DenormsOk none w'
  | [], w, h1, h2, h => by
    simp only [World.run, Except.ok.injEq] at h
    subst h; exact ⟨h1, h2⟩
  | s :: ss, w, h1, h2, h => by
    simp only [World.run] at h
    cases he : w.exec s with
    | error e => rw [he] at h; simp at h
    | ok w1 =>
      rw [he] at h
      exact run_inv (exec_inv h1 h2 he).1 (exec_inv h1 h2 he).2 h

theorem empty_inv : WInv {} ∧ DenormsOk none {} := by
  refine ⟨⟨?_, ?_, ?_, ?_, ?_, ?_, ?_⟩, ?_⟩ <;> simp [DenormsOk]

/-! ## What is never lost -/

theorem send_keeps {c : Nat} {l : List (Nat × Option Nat)} (h : w.send c l = .ok w') : w'.denorms = w.denorms := (frame_send h).denorms

theorem contribute_denorms (w : World) (c : Cls) (n : Col) (f : FieldRef) : ∃ d, (w.contribute c n f).denorms = w.denorms ++ [d] ∧
    d.cls = c ∧ d.fieldname = n ∧ (∀ g, f = .callback g → d.kind = .callback ∧ d.specs = g.depends) ∧
    ∀ i, f = .key i → d.kind = .cacheKey ∧ ∀ k, w.keys[i]? = some k → d.specs = k.specs ∧ d.depend = k.dependencies := by
  cases f with
  | callback g => exact ⟨_, rfl, rfl, rfl, by rintro _ ⟨⟩; exact ⟨rfl, rfl⟩, by simp⟩
  | key i => exact ⟨_, rfl, rfl, rfl, by simp, by rintro _ ⟨⟩; exact ⟨rfl, fun k hk => by simp [hk]⟩⟩

theorem contribute_keys (w : World) (c : Cls) (n : Col) (f : FieldRef) : (w.contribute c n f).keys = w.keys := by
  cases f with
  | callback g => rfl
  | key i => simp only [World.contribute]; exact (named_rest).2.2.1

theorem contribute_classes (w : World) (c : Cls) (n : Col) (f : FieldRef) : (w.contribute c n f).classes = w.classes := by
  cases f with
  | callback g => rfl
  | key i => simp only [World.contribute]; exact (named_rest).2.2.2.1

theorem contribute_registered (w : World) (c : Cls) (n : Col) (f : FieldRef) : (w.contribute c n f).registered = w.registered := by
  cases f with
  | callback g => rfl
  | key i => simp only [World.contribute]; exact (named_rest).2.1

theorem contributeAll_keeps {c : Cls} : ∀ {l : List (Col × FieldRef)} {w : World}, (∃ ds, (w.contributeAll c l).denorms = w.denorms ++ ds) ∧
    (w.contributeAll c l).keys = w.keys ∧ (w.contributeAll c l).registered = w.registered ∧ (w.contributeAll c l).classes = w.classes
  | [], w => ⟨⟨[], by simp [World.contributeAll]⟩, rfl, rfl, rfl⟩
  | (n, f) :: l, w => by
    obtain ⟨⟨ds, h1⟩, h2, h3, h4⟩ := contributeAll_keeps (c := c) (l := l) (w := w.contribute c n f)
    obtain ⟨d, e1, _⟩ := contribute_denorms w c n f
    exact ⟨⟨d :: ds, by rw [World.contributeAll, h1, e1]; simp⟩, h2.trans (contribute_keys ..), h3.trans (contribute_registered ..),
      h4.trans (contribute_classes ..)⟩

theorem exec_keeps {st : PyStmt} (h : w.exec st = .ok w') : (∃ ds, w'.denorms = w.denorms ++ ds) ∧ (∃ ks, w'.keys = w.keys ++ ks) ∧
    ∃ rs, w'.registered = w.registered ++ rs := by
  cases st with
  | keyField specs =>
    simp only [World.exec, Except.ok.injEq] at h
    subst h
    exact ⟨⟨[], by simp⟩, ⟨_, rfl⟩, ⟨[], by simp⟩⟩
  | cls m abstract fields =>
    simp only [World.exec] at h
    obtain ⟨⟨ds, h1⟩, h2, h3, _⟩ := contributeAll_keeps (c := ⟨w.classes, m, abstract⟩) (l := fields) (w := { w with classes := w.classes + 1 })
    split at h
    · cases h
      exact ⟨⟨ds, h1⟩, ⟨[], by simpa using h2⟩, ⟨[], by simpa using h3⟩⟩
    · split at h
      · simp at h
      · rename_i w2 hs
        have f2 := frame_send hs
        obtain ⟨g1, g2, g3, _⟩ := register_frame h
        exact ⟨⟨ds, by rw [g1, f2.denorms, h1]⟩, ⟨[], by rw [g2, f2.keys, h2]; simp⟩, ⟨[m], by rw [g3, f2.registered, h3]⟩⟩

theorem run_keeps : ∀ {ss : List PyStmt} {w : World}, World.run ss w = .ok w' → (∃ ds, w'.denorms = w.denorms ++ ds) ∧
    (∃ ks, w'.keys = w.keys ++ ks) ∧ ∃ rs, w'.registered = w.registered ++ rs
  | [], w, h => by
    simp only [World.run, Except.ok.injEq] at h
    subst h
    exact ⟨⟨[], by simp⟩, ⟨[], by simp⟩, ⟨[], by simp⟩⟩
  | s :: ss, w, h => by
    simp only [World.run] at h
    cases he : w.exec s with
    | error e => rw [he] at h; simp at h
    | ok w1 =>
      rw [he] at h
      obtain ⟨⟨d1, a1⟩, ⟨k1, b1⟩, ⟨r1, c1⟩⟩ := exec_keeps he
      obtain ⟨⟨d2, a2⟩, ⟨k2, b2⟩, ⟨r2, c2⟩⟩ := run_keeps h
      exact ⟨⟨d1 ++ d2, by rw [a2, a1]; simp⟩, ⟨k1 ++ k2, by rw [b2, b1]; simp⟩, ⟨r1 ++ r2, by rw [c2, c1]; simp⟩⟩

theorem contributeAll_mem {c : Cls} {n : Col} {f : FieldRef} : ∀ {l : List (Col × FieldRef)} {w : World}, (n, f) ∈ l →
    ∃ (i : Nat) (d : DenormObj), (w.contributeAll c l).denorms[i]? = some d ∧ d.cls = c ∧ d.fieldname = n ∧
      (∀ g, f = .callback g → d.kind = .callback ∧ d.specs = g.depends) ∧
      ∀ i, f = .key i → d.kind = .cacheKey ∧ ∀ k, w.keys[i]? = some k → d.specs = k.specs ∧ d.depend = k.dependencies
  | [], _, h => by simp at h
  | (n', f') :: l, w, h => by
    rcases List.mem_cons.1 h with h | h
    · cases h
      obtain ⟨d, e1, e2⟩ := contribute_denorms w c n f
      obtain ⟨⟨ds, h1⟩, _⟩ := contributeAll_keeps (c := c) (l := l) (w := w.contribute c n f)
      refine ⟨w.denorms.length, d, ?_, e2⟩
      rw [World.contributeAll, h1, e1]; simp
    · obtain ⟨i, d, h1, h2, h3, h4, h5⟩ := contributeAll_mem (w := w.contribute c n' f') h
      exact ⟨i, d, h1, h2, h3, h4, fun i hi => ⟨(h5 i hi).1, fun k hk => (h5 i hi).2 k (by rw [contribute_keys]; exact hk)⟩⟩

/-- Every field of a class statement has its denorm object. -/
theorem run_denorm {m : Model} {abstract : Bool} {fields : List (Col × FieldRef)} {n : Col} {f : FieldRef} : ∀ {ss : List PyStmt} {w : World},
    World.run ss w = .ok w' → PyStmt.cls m abstract fields ∈ ss → (n, f) ∈ fields →
    ∃ (i : Nat) (d : DenormObj), w'.denorms[i]? = some d ∧ d.cls.model = m ∧ d.cls.abstract = abstract ∧ d.fieldname = n ∧
      (∀ g, f = .callback g → d.kind = .callback ∧ d.specs = g.depends) ∧ (∀ i, f = .key i → d.kind = .cacheKey) ∧
      (abstract = false → m ∈ w'.registered)
  | [], _, _, h, _ => by simp at h
  | s :: ss, w, h, hm, hf => by
    simp only [World.run] at h
    cases he : w.exec s with
    | error e => rw [he] at h; simp at h
    | ok w1 =>
      rw [he] at h
      rcases List.mem_cons.1 hm with hm | hm
      · subst hm
        obtain ⟨i, d, e1, e2, e3, e4, e5⟩ := contributeAll_mem (c := ⟨w.classes, m, abstract⟩) (w := { w with classes := w.classes + 1 }) hf
        have hk : w1.denorms[i]? = some d ∧ (abstract = false → m ∈ w1.registered) := by
          simp only [World.exec] at he
          split at he
          · rename_i hab
            cases he
            exact ⟨e1, fun h => by simp [hab] at h⟩
          · split at he
            · simp at he
            · rename_i w2 hs
              obtain ⟨g1, g2, g3, _⟩ := register_frame he
              exact ⟨by rw [g1, (frame_send hs).denorms]; exact e1, fun _ => by rw [g3]; simp⟩
        obtain ⟨⟨ds, a1⟩, _, ⟨rs, a2⟩⟩ := run_keeps h
        refine ⟨i, d, ?_, by rw [e2], by rw [e2], e3, e4, fun i hi => (e5 i hi).1, fun hab => by rw [a2]; exact List.mem_append_left _ (hk.2 hab)⟩
        rw [a1, List.getElem?_append_left (List.getElem?_eq_some_iff.1 hk.1).1]
        exact hk.1
      · exact run_denorm h hm hf

theorem sameLabel_self (m : Model) : m.sameLabel m = true := by simp [Model.sameLabel]

/-- No two models have the same key in the registry. -/
def World.Distinct (w : World) : Prop := ∀ m ∈ w.registered, ∀ m' ∈ w.registered, m.sameLabel m' = true → m' = m

theorem exec_distinct {st : PyStmt} (hd : w.Distinct) (h : w.exec st = .ok w') : w'.Distinct := by
  cases st with
  | keyField specs =>
    simp only [World.exec, Except.ok.injEq] at h
    subst h
    exact hd
  | cls m abstract fields =>
    simp only [World.exec] at h
    have h1 := (contributeAll_keeps (c := ⟨w.classes, m, abstract⟩) (l := fields) (w := { w with classes := w.classes + 1 })).2.2.1
    split at h
    · simp only [Except.ok.injEq] at h
      subst h
      intro x hx y hy
      rw [h1] at hx hy
      exact hd x hx y hy
    · split at h
      · simp at h
      · rename_i w2 hs
        have h2 : w2.registered = w.registered := (frame_send hs).registered.trans h1
        obtain ⟨_, _, g3, _⟩ := register_frame h
        have hn : w2.registered.any m.sameLabel = false := by
          simp only [World.register] at h
          split at h
          · simp at h
          · next hn => simpa using hn
        rw [h2] at hn g3
        simp only [List.any_eq_false] at hn
        intro x hx y hy hxy
        rw [g3, List.mem_append, List.mem_singleton] at hx hy
        rcases hx with hx | rfl <;> rcases hy with hy | rfl
        · exact hd x hx y hy hxy
        · refine absurd ?_ (hn x hx)
          simp only [Model.sameLabel, Bool.and_eq_true, beq_iff_eq] at hxy ⊢
          exact ⟨hxy.1.symm, hxy.2.symm⟩
        · exact absurd hxy (hn y hy)
        · rfl

theorem run_distinct {ss : List PyStmt} (hd : w.Distinct) (h : World.run ss w = .ok w') : w'.Distinct := by
  induction ss generalizing w with
  | nil =>
    simp only [World.run, Except.ok.injEq] at h
    exact h ▸ hd
  | cons st ss ih =>
    simp only [World.run] at h
    split at h
    · next he => exact ih (exec_distinct hd he) h
    · simp at h

theorem empty_distinct : ({} : World).Distinct := by intro m hm; simp at hm

theorem means_of {ref : OtherRef} {other : Model} (hd : w.Distinct) (h : Finds w.registered m ref other) : Means w.registered m ref other := by
  cases ref with
  | cls _ => exact h
  | self => exact h
  | name str =>
    have h1 := List.find?_some h
    have h2 := List.mem_of_find?_eq_some h
    exact ⟨h2, calls_iff.1 h1, fun o' ho' hn => hd other h2 o' ho' (calls_unique h1 (calls_iff.2 hn))⟩

/-- A dependency that is set up is right, once its model is registered. -/
theorem depRight_of (hd : w.Distinct) (h : DepOk [] w m s a) (hm : m ∈ w.registered) : DepRight w.registered m s (w.deps[a]?.bind DepObj.dep) := by
  obtain ⟨o, h1, h2, h3, h4, h5, h6⟩ := h
  rw [h1]
  rcases h6 with ⟨other, r, e1, e2, e3, e4, e5⟩ | ⟨str, e1, e2, e3, e4, e5⟩
  · exact .inl ⟨other, r, means_of hd e1, e2, by simp [DepObj.dep, h2, e3, e5, h4]⟩
  · refine .inr ⟨str, e1, ?_, by simp [DepObj.dep, h2, e2]⟩
    have := (e5.resolve_left (by simp)).2
    simp only [World.ready] at this
    rw [if_pos (List.any_eq_true.2 ⟨m, hm, sameLabel_self m⟩)] at this
    exact fun m' hm' hn => List.find?_eq_none.1 this m' hm' (calls_iff.2 hn)

theorem eachRight_of {d : DenormObj} (hd : w.Distinct) (hl : d.depend.length = d.specs.length) (h : d.AllOk w) (hm : d.cls.model ∈ w.registered) :
    EachRight w.registered d.cls.model d.specs (w.depsOf d) := by
  refine ⟨by simp [World.depsOf, hl], fun j s dep hs hd' => ?_⟩
  simp only [World.depsOf, List.getElem?_map, Option.map_eq_some_iff] at hd'
  obtain ⟨a, ha, rfl⟩ := hd'
  exact depRight_of hd (h j s a hs ha) hm

/-! ## How often a CacheKeyField is used -/

/-- The dependencies of a CacheKeyField are in at most as many denorms as the field was contributed. -/
structure UseInv (l : List Nat) (w : World) : Prop where
  denormBound : ∀ d ∈ w.denorms, ∀ a ∈ d.depend, a < w.deps.length
  keyBound : ∀ k ∈ w.keys, ∀ a ∈ k.dependencies, a < w.deps.length
  disjoint : ∀ (i j : Nat) (k k' : KeyFieldObj) (a : Nat), w.keys[i]? = some k → w.keys[j]? = some k' → a ∈ k.dependencies →
    a ∈ k'.dependencies → i = j
  uses : ∀ (i : Nat) (k : KeyFieldObj) (a : Nat), w.keys[i]? = some k → a ∈ k.dependencies →
    w.denorms.countP (fun d => d.depend.contains a) ≤ l.count i

theorem mem_range'_bounds {a m n : Nat} (h : a ∈ List.range' m n) : m ≤ a ∧ a < m + n := by
  obtain ⟨i, hi, rfl⟩ := List.mem_range'.1 h
  omega

def keyUse : Col × FieldRef → Option Nat
  | (_, .key i) => some i
  | (_, .callback _) => none

theorem contribute_use {l : List Nat} {c : Cls} {n : Col} {f : FieldRef} (h : UseInv l w) :
    UseInv (l ++ (keyUse (n, f)).toList) (w.contribute c n f) := by
  cases f with
  | callback f =>
    refine ⟨?_, ?_, h.disjoint, ?_⟩
    · intro d hd a ha
      simp only [World.contribute, List.length_append, List.length_map]
      rcases List.mem_append.1 hd with hd | hd
      · have := h.denormBound d hd a ha; omega
      · rw [List.mem_singleton.1 hd] at ha
        have := mem_range'_bounds ha; omega
    · intro k hk a ha
      simp only [World.contribute, List.length_append, List.length_map]
      have := h.keyBound k hk a ha; omega
    · intro i k a hk ha
      have h1 := h.uses i k a hk ha
      have h2 := h.keyBound k (List.mem_of_getElem? hk) a ha
      have h3 : ¬ a ∈ List.range' w.deps.length f.depends.length := fun h => by
        have := mem_range'_bounds h; omega
      simp only [World.contribute, List.countP_append, keyUse, Option.toList, List.append_nil]
      have h4 : List.countP (fun d : DenormObj => d.depend.contains a)
          [⟨.callback, c, n, List.range' w.deps.length f.depends.length, f.depends⟩] = 0 := by
        rw [List.countP_eq_zero]
        intro d hd
        rw [List.mem_singleton.1 hd]
        simpa using h3
      omega
  | key i0 =>
    obtain ⟨n1, n2, n3, n4, n5⟩ := named_rest (name := n) (l := (w.keys[i0]?.getD ⟨[], []⟩).dependencies) (w := w)
    have hlen : (w.contribute c n (.key i0)).deps.length = w.deps.length := by simp only [World.contribute]; exact n5
    have hkeys := contribute_keys w c n (.key i0)
    have hden : (w.contribute c n (.key i0)).denorms = w.denorms ++
      [⟨.cacheKey, c, n, (w.keys[i0]?.getD ⟨[], []⟩).dependencies, (w.keys[i0]?.getD ⟨[], []⟩).specs⟩] := rfl
    have hk0 : ∀ a ∈ (w.keys[i0]?.getD ⟨[], []⟩).dependencies, ∃ k, w.keys[i0]? = some k ∧ a ∈ k.dependencies := by
      intro a ha
      cases hk : w.keys[i0]? with
      | none => simp [hk] at ha
      | some k => exact ⟨k, rfl, by simpa [hk] using ha⟩
    generalize w.contribute c n (.key i0) = w1 at *
    refine ⟨?_, ?_, ?_, ?_⟩
    · rw [hden, hlen]
      intro d hd a ha
      rcases List.mem_append.1 hd with hd | hd
      · exact h.denormBound d hd a ha
      · rw [List.mem_singleton.1 hd] at ha
        obtain ⟨k, h1, h2⟩ := hk0 a ha
        exact h.keyBound k (List.mem_of_getElem? h1) a h2
    · rw [hkeys, hlen]; exact h.keyBound
    · rw [hkeys]; exact h.disjoint
    · rw [hkeys, hden]
      intro i k a hk ha
      have h1 := h.uses i k a hk ha
      simp only [List.countP_append, keyUse, Option.toList, List.count_append]
      by_cases hi : i = i0
      · subst hi
        have h2 := List.countP_le_length (p := fun d : DenormObj => d.depend.contains a)
          (l := [⟨.cacheKey, c, n, (w.keys[i]?.getD ⟨[], []⟩).dependencies, (w.keys[i]?.getD ⟨[], []⟩).specs⟩])
        simp only [List.length_singleton] at h2
        simp only [List.count_singleton_self]
        omega
      · have h4 : List.countP (fun d : DenormObj => d.depend.contains a)
            [⟨.cacheKey, c, n, (w.keys[i0]?.getD ⟨[], []⟩).dependencies, (w.keys[i0]?.getD ⟨[], []⟩).specs⟩] = 0 := by
          rw [List.countP_eq_zero]
          intro d hd
          rw [List.mem_singleton.1 hd]
          simp only [List.contains_iff_mem]
          intro hm
          obtain ⟨k', e1, e2⟩ := hk0 a hm
          exact hi (h.disjoint i i0 k k' a hk e1 ha e2)
        omega

theorem contributeAll_use {c : Cls} : ∀ {fs : List (Col × FieldRef)} {l : List Nat} {w : World}, UseInv l w →
    UseInv (l ++ fs.filterMap keyUse) (w.contributeAll c fs)
  | [], l, w, h => by simpa [World.contributeAll] using h
  | (n, f) :: fs, l, w, h => by
    have h1 := contributeAll_use (c := c) (fs := fs) (contribute_use (c := c) (n := n) (f := f) h)
    have : l ++ (keyUse (n, f)).toList ++ fs.filterMap keyUse = l ++ ((n, f) :: fs).filterMap keyUse := by
      rw [List.filterMap_cons]
      cases keyUse (n, f) <;> simp
    rwa [this] at h1

theorem UseInv.of_eq {l : List Nat} (h : UseInv l w) (h1 : w'.denorms = w.denorms) (h2 : w'.keys = w.keys)
    (h3 : w'.deps.length = w.deps.length) : UseInv l w' := by
  refine ⟨?_, ?_, ?_, ?_⟩
  · rw [h1, h3]; exact h.1
  · rw [h2, h3]; exact h.2
  · rw [h2]; exact h.3
  · rw [h1, h2]; exact h.4

theorem exec_use {l : List Nat} {st : PyStmt} (h : UseInv l w) (he : w.exec st = .ok w') : UseInv (l ++ st.keyUses) w' := by
  cases st with
  | keyField specs =>
    simp only [World.exec, Except.ok.injEq] at he
    subst he
    simp only [PyStmt.keyUses, List.append_nil]
    refine ⟨?_, ?_, ?_, ?_⟩
    · intro d hd a ha
      simp only [List.length_append, List.length_map]
      have := h.denormBound d hd a ha; omega
    · intro k hk a ha
      simp only [List.length_append, List.length_map]
      rcases List.mem_append.1 hk with hk | hk
      · have := h.keyBound k hk a ha; omega
      · rw [List.mem_singleton.1 hk] at ha
        have := mem_range'_bounds ha; omega
    · intro i j k k' a hi hj ha ha'
      rcases getElem?_snoc hi with hi | ⟨rfl, rfl⟩ <;> rcases getElem?_snoc hj with hj | ⟨rfl, rfl⟩
      · exact h.disjoint i j k k' a hi hj ha ha'
      · have h1 := h.keyBound k (List.mem_of_getElem? hi) a ha
        have h2 := mem_range'_bounds ha'
        omega
      · have h1 := h.keyBound k' (List.mem_of_getElem? hj) a ha'
        have h2 := mem_range'_bounds ha
        omega
      · rfl
    · intro i k a hk ha
      rcases getElem?_snoc hk with hk | ⟨rfl, rfl⟩
      · exact h.uses i k a hk ha
      · have h2 := mem_range'_bounds ha
        have : w.denorms.countP (fun d => d.depend.contains a) = 0 := by
          rw [List.countP_eq_zero]
          intro d hd
          simp only [List.contains_iff_mem]
          intro hm
          have := h.denormBound d hd a hm
          omega
        show w.denorms.countP _ ≤ _
        omega
  | cls m abstract fields =>
    have h0 : UseInv l { w with classes := w.classes + 1 } := ⟨h.1, h.2, h.3, h.4⟩
    have h1 := contributeAll_use (c := ⟨w.classes, m, abstract⟩) (fs := fields) h0
    have hu : (PyStmt.cls m abstract fields).keyUses = fields.filterMap keyUse := by
      rfl
    rw [hu]
    simp only [World.exec] at he
    split at he
    · cases he; exact h1
    · split at he
      · simp at he
      · rename_i w2 hs
        have f2 := frame_send hs
        obtain ⟨g1, g2, g3, g4, _⟩ := register_frame he
        exact h1.of_eq (g1.trans f2.denorms) (g2.trans f2.keys) (g4.trans f2.length)

theorem run_use : ∀ {ss : List PyStmt} {l : List Nat} {w : World}, UseInv l w → World.run ss w = .ok w' →
    UseInv (l ++ ss.flatMap PyStmt.keyUses) w'
  | [], l, w, h, he => by
    simp only [World.run, Except.ok.injEq] at he
    subst he; simpa using h
  | s :: ss, l, w, h, he => by
    simp only [World.run] at he
    cases h1 : w.exec s with
    | error e => rw [h1] at he; simp at he
    | ok w1 =>
      rw [h1] at he
      have := run_use (exec_use h h1) he
      simpa using this

theorem useInv_empty : UseInv [] {} := by
  refine ⟨?_, ?_, ?_, ?_⟩ <;> simp

/-- Two positions with the property: it is counted at least twice. -/
theorem countP_two {α : Type _} {p : α → Bool} : ∀ {l : List α} {i j : Nat} {x y : α}, l[i]? = some x → l[j]? = some y → i ≠ j → p x = true →
    p y = true → 2 ≤ l.countP p
  | [], i, _, _, _, h, _, _, _, _ => by simp at h
  | z :: l, 0, 0, _, _, _, _, hn, _, _ => absurd rfl hn
  | z :: l, 0, j + 1, x, y, hi, hj, _, hx, hy => by
    simp only [List.getElem?_cons_zero, Option.some.injEq] at hi
    simp only [List.getElem?_cons_succ] at hj
    have : 0 < l.countP p := List.countP_pos_iff.2 ⟨y, List.mem_of_getElem? hj, hy⟩
    rw [List.countP_cons, hi, if_pos hx]; omega
  | z :: l, i + 1, 0, x, y, hi, hj, _, hx, hy => by
    simp only [List.getElem?_cons_zero, Option.some.injEq] at hj
    simp only [List.getElem?_cons_succ] at hi
    have : 0 < l.countP p := List.countP_pos_iff.2 ⟨x, List.mem_of_getElem? hi, hx⟩
    rw [List.countP_cons, hj, if_pos hy]; omega
  | z :: l, i + 1, j + 1, x, y, hi, hj, hn, hx, hy => by
    simp only [List.getElem?_cons_succ] at hi hj
    have := countP_two hi hj (fun e => hn (by rw [e])) hx hy
    rw [List.countP_cons]; omega

/-- The dependency objects and the declarations of a CacheKeyField in a class are those of the field object. -/
theorem run_key {m : Model} {abstract : Bool} {fields : List (Col × FieldRef)} {n : Col} {i0 : Nat} {k : KeyFieldObj} :
    ∀ {pre post : List PyStmt} {w w0 : World}, World.run (pre ++ .cls m abstract fields :: post) w = .ok w' → (n, .key i0) ∈ fields →
    World.run pre w = .ok w0 → w0.keys[i0]? = some k →
    ∃ (i : Nat) (d : DenormObj), w'.denorms[i]? = some d ∧ d.cls.model = m ∧ d.cls.abstract = abstract ∧ d.fieldname = n ∧ d.kind = .cacheKey ∧
      d.specs = k.specs ∧ d.depend = k.dependencies ∧ (abstract = false → m ∈ w'.registered) ∧ w'.keys[i0]? = some k
  | s :: pre, post, w, w0, h, hf, hp, hk => by
    simp only [List.cons_append, World.run] at h hp
    cases he : w.exec s with
    | error e => rw [he] at h; simp at h
    | ok w1 =>
      rw [he] at h hp
      exact run_key h hf hp hk
  | [], post, w, w0, h, hf, hp, hk => by
    simp only [World.run, Except.ok.injEq] at hp
    subst hp
    simp only [List.nil_append, World.run] at h
    cases he : w.exec (.cls m abstract fields) with
    | error e => rw [he] at h; simp at h
    | ok w1 =>
      rw [he] at h
      obtain ⟨i, d, e1, e2, e3, e4, e5⟩ := contributeAll_mem (c := ⟨w.classes, m, abstract⟩) (w := { w with classes := w.classes + 1 }) hf
      obtain ⟨e6, e7⟩ := e5 i0 rfl
      obtain ⟨e8, e9⟩ := e7 k hk
      have hk1 : w1.denorms[i]? = some d ∧ (abstract = false → m ∈ w1.registered) := by
        simp only [World.exec] at he
        split at he
        · rename_i hab
          cases he
          exact ⟨e1, fun h => by simp [hab] at h⟩
        · split at he
          · simp at he
          · rename_i w2 hs
            obtain ⟨g1, g2, g3, _⟩ := register_frame he
            exact ⟨by rw [g1, (frame_send hs).denorms]; exact e1, fun _ => by rw [g3]; simp⟩
      obtain ⟨⟨ds, a1⟩, ⟨ks1, b1⟩, ⟨rs, a2⟩⟩ := run_keeps h
      obtain ⟨_, ⟨ks, b2⟩, _⟩ := exec_keeps he
      refine ⟨i, d, ?_, by rw [e2], by rw [e2], e3, e6, e8, e9, fun hab => by rw [a2]; exact List.mem_append_left _ (hk1.2 hab), ?_⟩
      · rw [a1, List.getElem?_append_left (List.getElem?_eq_some_iff.1 hk1.1).1]
        exact hk1.1
      · have : w1.keys[i0]? = some k := by
          rw [b2, List.getElem?_append_left (List.getElem?_eq_some_iff.1 hk).1]; exact hk
        rw [b1, List.getElem?_append_left (List.getElem?_eq_some_iff.1 this).1]; exact this

end Denorm
