import Verif.Lemmas.Concerned
import Verif.Props.CacheKey
/-!
# Random keys: drawn ones are new and different
-/
namespace Denorm

/-- The keys of the model are unique, no row holds a value that the database will draw later, and values drawn since `start` are in
at most one row. -/
structure Drawn (E : Engine) (k : KeyField) (start : Nat) (db : Db) : Prop where
  uniq : ((db.rows k.model.table).map fun r => r k.model.pk).Nodup
  old : ∀ r ∈ db.rows k.model.table, ∀ n, db.draws ≤ n → r k.field ≠ .int (E.rand n)
  inj : ∀ r ∈ db.rows k.model.table, ∀ r' ∈ db.rows k.model.table, ∀ n, start ≤ n → r k.field = .int (E.rand n) →
    r' k.field = .int (E.rand n) → r k.model.pk = r' k.model.pk

/-- The rows the statement writes keep their keys or get keys that are not drawn from `start` on. -/
def KeyStmt (E : Engine) (k : KeyField) (start : Nat) : Stmt → Prop
  | .insert t rs => t = k.model.table → ∀ r ∈ rs, ∀ n, start ≤ n → r k.field ≠ .int (E.rand n)
  | .update t _ σ => t = k.model.table → ∀ x r, σ x r k.field = r k.field ∨ ∀ n, start ≤ n → σ x r k.field ≠ .int (E.rand n)
  | .delete _ _ => True

structure DrawnInv (E : Engine) (k : KeyField) (rank : String → Nat) (s : Stmt) (start : Nat) (ops : List RowOp) (W : List Item) (db : Db) :
    Prop where
  base : KeyBase E k rank s ops W db
  le : start ≤ db.draws
  drawn : Drawn E k start db
  stmt : KeyStmt E k start s

theorem effect_nodup {rs rs' : List Row} {x : Option (Event × Row × Row)} {c : Col} (h : Effect rs rs' x)
    (hk : ∀ o n, x = some (.update, o, n) → n c = o c) (hi : ∀ o n, x = some (.insert, o, n) → ∀ r ∈ rs, r c ≠ n c)
    (hn : (rs.map fun r => r c).Nodup) : (rs'.map fun r => r c).Nodup := by
  cases h with
  | none => exact hn
  | ins r =>
    rw [List.map_append, List.nodup_append]
    refine ⟨hn, by simp, ?_⟩
    intro a ha b hb
    obtain ⟨r0, h0, rfl⟩ := List.mem_map.1 ha
    simp only [List.map_cons, List.map_nil, List.mem_singleton] at hb
    subst hb
    exact hi _ _ rfl r0 h0
  | upd l1 l2 old new he =>
    subst he
    have := hk _ _ rfl
    simp only [List.map_append, List.map_cons, this] at hn ⊢
    exact hn
  | del l1 l2 o he =>
    subst he
    refine hn.sublist (List.Sublist.map _ ?_)
    exact List.Sublist.append_left (List.sublist_cons_self ..) _

section
variable {E : Engine} {k : KeyField} {rank : String → Nat} {s : Stmt} {start : Nat}

theorem drawn_step (hrand : ∀ m n, E.rand m = E.rand n → m = n) {fr : Frame} {t : TableName} {db db' : Db}
    {x : Option (Event × Row × Row)} (hw : WriteOk E k.relations fr t db db' x) (hle : db.draws ≤ db'.draws) (hst : start ≤ db.draws)
    (hi : t = k.model.table → ∀ o n, x = some (.insert, o, n) →
      (∀ r ∈ db.rows t, r k.model.pk ≠ n k.model.pk) ∧ ∀ m, start ≤ m → n k.field ≠ .int (E.rand m))
    (hu : t = k.model.table → ∀ o n, x = some (.update, o, n) →
      n k.field = o k.field ∨ (n k.field = .int (E.rand db.draws) ∧ db.draws < db'.draws) ∨ ∀ m, start ≤ m → n k.field ≠ .int (E.rand m))
    (h : Drawn E k start db) : Drawn E k start db' := by
  by_cases ht : t = k.model.table
  · subst ht
    refine ⟨effect_nodup hw.eff (fun o n hx => hw.keep o n hx _ (List.mem_cons_self ..) rfl) (fun o n hx => (hi rfl o n hx).1) h.uniq, ?_, ?_⟩
    · intro r hr n hn
      rcases effect_mem hw.eff hr with h1 | hx | ⟨o, ho, hx⟩
      · exact h.old r h1 n (by omega)
      · exact (hi rfl _ _ hx).2 n (by omega)
      · rcases hu rfl o r hx with h1 | ⟨h1, h2⟩ | h1
        · rw [h1]; exact h.old o ho n (by omega)
        · rw [h1]
          intro e
          have := hrand _ _ (Val.int.inj e)
          omega
        · exact h1 n (by omega)
    · -- a row with a drawn key either was there with that key or has just got it
      have key : ∀ r ∈ db'.rows k.model.table, ∀ n, start ≤ n → r k.field = .int (E.rand n) →
          (∃ r0 ∈ db.rows k.model.table, r0 k.model.pk = r k.model.pk ∧ r0 k.field = .int (E.rand n)) ∨
          (n = db.draws ∧ ∃ o, x = some (.update, o, r)) := by
        intro r hr n hn hk
        rcases effect_mem hw.eff hr with h1 | hx | ⟨o, ho, hx⟩
        · exact .inl ⟨r, h1, rfl, hk⟩
        · exact absurd hk ((hi rfl _ _ hx).2 n hn)
        · rcases hu rfl o r hx with h1 | ⟨h1, _⟩ | h1
          · exact .inl ⟨o, ho, (hw.keep o r hx _ (List.mem_cons_self ..) rfl).symm, h1 ▸ hk⟩
          · rw [h1] at hk
            exact .inr ⟨(hrand _ _ (Val.int.inj hk)).symm, o, hx⟩
          · exact absurd hk (h1 n hn)
      intro r hr r' hr' n hn hk hk'
      rcases key r hr n hn hk with ⟨a, ha, ha1, ha2⟩ | ⟨e, o, hx⟩
      · rcases key r' hr' n hn hk' with ⟨b, hb, hb1, hb2⟩ | ⟨e, o, hx⟩
        · rw [← ha1, ← hb1]
          exact h.inj a ha b hb n hn ha2 hb2
        · exact absurd ha2 (h.old a ha n (by omega))
      · rcases key r' hr' n hn hk' with ⟨b, hb, hb1, hb2⟩ | ⟨_, o', hx'⟩
        · exact absurd hb2 (h.old b hb n (by omega))
        · rw [hx] at hx'
          simp only [Option.some.injEq, Prod.mk.injEq, true_and] at hx'
          rw [hx'.2]
  · have := hw.other _ (fun e => ht e.symm)
    refine ⟨this ▸ h.uniq, ?_, ?_⟩
    · rw [this]; exact fun r hr n hn => h.old r hr n (by omega)
    · rw [this]; exact h.inj

theorem Drawn.rows {db db' : Db} (h : Drawn E k start db) (hr : db'.rows = db.rows) (hd : db.draws ≤ db'.draws) : Drawn E k start db' :=
  ⟨hr ▸ h.uniq, by rw [hr]; exact fun r hr n hn => h.old r hr n (by omega), by rw [hr]; exact h.inj⟩

theorem drawnInv (hT : KeyTracks E k) (hR : Ranked E rank) (hrand : ∀ m n, E.rand m = E.rand n → m = n) :
    PhaseInvQ E (fun _ _ => True) s.table (DrawnInv E k rank s start) where
  nested := fun rest => {
    perm := fun hp h => ⟨((keyBase hT hR).nested rest).perm hp h.base, h.le, h.drawn, h.stmt⟩
    writeNil := fun h => ⟨((keyBase hT hR).nested rest).writeNil h.base, h.le, h.drawn, h.stmt⟩
    writeOp := by
      intro fr t op ops W db hQ h
      have hb := ((keyBase (s := s) hT hR).nested rest).writeOp (fun _ _ => trivial) h.base
      have hle := applyOp_draws E t op db
      have hn := h.base.items _ (List.mem_cons_self ..)
      have hit : ItemOk E rank s _ := hn.itemOk
      obtain ⟨x, hw, hch⟩ := writeOk_of hT.toGround h.base.legal h.base.keys hit
      obtain ⟨tr, htr, u, ch0, dbu, hu, hut, hops, _⟩ := hn
      obtain ⟨i, hop⟩ := hops op (List.mem_cons_self ..)
      refine ⟨hb, Nat.le_trans h.le hle, drawn_step hrand hw hle h.le ?_ ?_ h.drawn, h.stmt⟩
      · intro ht o n hx
        rw [hop, hx] at hch
        simp only [applyOp] at hch
        split at hch <;> simp [effectChange] at hch
      · intro ht o n hx
        subst hop
        rw [hx] at hch
        simp only [applyOp] at hch ⊢
        split at hch
        · simp [effectChange] at hch
        · simp only [effectChange, List.cons.injEq, Change.mk.injEq, and_true, true_and] at hch
          obtain ⟨rfl, rfl⟩ := hch
          by_cases hf : u.col = k.field
          · have := hT.random tr htr u hu (hut.trans ht) hf
            right; left
            refine ⟨?_, by simp⟩
            rw [← hf]; exact random_set this _ _ _ _
          · exact .inl (UpdAction.set_other _ _ _ _ _ _ fun e => hf e.symm)
    markValues := fun h => ⟨((keyBase hT hR).nested rest).markValues h.base, h.le, h.drawn.rows (Db.addMarks_rows ..) (Nat.le_refl _), h.stmt⟩
    markSelect := fun h => ⟨((keyBase hT hR).nested rest).markSelect h.base, h.le, h.drawn.rows (Db.addMarks_rows ..) (Nat.le_refl _), h.stmt⟩
    update := fun hmy h => ⟨((keyBase hT hR).nested rest).update hmy h.base, h.le, h.drawn, h.stmt⟩ }
  top := by
    intro op ops W db hW hQ h
    have hb := (keyBase (s := s) hT hR).top hW (fun _ _ => trivial) h.base
    have hle := applyOp_draws E s.table op db
    have hit : ItemOk E rank s (.write .top s.table (op :: ops)) := topItem h.base.tops
    obtain ⟨x, hw, hch⟩ := writeOk_of hT.toGround h.base.legal h.base.keys hit
    obtain ⟨y, hy1, hy2, hyu, hyi, _⟩ := applyOp_effect E s.table op db
    have hxy : x = y := by
      rw [hch] at hy2
      rcases x with _ | ⟨e, a, b⟩ <;> rcases y with _ | ⟨e', a', b'⟩
      · rfl
      · simp [effectChange] at hy2
      · simp [effectChange] at hy2
      · simp only [effectChange, List.cons.injEq, Change.mk.injEq, and_true, true_and] at hy2
        obtain ⟨rfl, rfl, rfl⟩ := hy2
        rfl
    subst hxy
    have htop := h.base.tops op (List.mem_cons_self ..)
    refine ⟨hb, Nat.le_trans h.le hle, drawn_step hrand hw hle h.le ?_ ?_ h.drawn, h.stmt⟩
    · intro ht o n hx
      have hop := hyi _ _ hx
      subst hop
      refine ⟨fun r hr => h.base.fresh ht n (List.mem_cons_self ..) r (ht ▸ hr), ?_⟩
      have hs := h.stmt
      cases s with
      | insert t rs =>
        obtain ⟨r, hr, e⟩ := htop
        simp only [RowOp.ins.injEq] at e
        subst e
        exact hs ht n hr
      | update t w σ => obtain ⟨i, e⟩ := htop; simp at e
      | delete t w => simp [TopOp] at htop
    · intro ht o n hx
      obtain ⟨i, σ, hop, hn⟩ := hyu _ _ hx
      subst hop
      have hs := h.stmt
      cases s with
      | insert t rs => obtain ⟨r, hr, e⟩ := htop; simp at e
      | delete t w => simp [TopOp] at htop
      | update t w σ' =>
        obtain ⟨i', e⟩ := htop
        simp only [RowOp.upd.injEq] at e
        obtain ⟨_, rfl⟩ := e
        rcases hs ht (E.rand db.draws) o with h1 | h1
        · left; rw [hn, h1]
        · right; right; rw [hn]; exact h1

/-- A statement keeps what is known of drawn keys, also at every change in between. -/
theorem drawn_exec {D : List Denorm} {fuel : Nat} {db db' : Db} (hE : Installed E D) (hD : KeyDeclared E.backend D k) (hN : NoReentry E)
    (hrand : ∀ m n, E.rand m = E.rand n → m = n) (hL : LegalStmt E k.relations db s) (hK : KeysOk k.relations db) (hS : KeyLegal k db s)
    (hs : KeyStmt E k start s) (hle : start ≤ db.draws) (hd : Drawn E k start db) (he : E.exec fuel s db = .ok db') :
    (Drawn E k start db' ∧ start ≤ db'.draws ∧ KeysOk k.relations db') ∧
      ∀ p ∈ E.changesOf fuel s db, Drawn E k start p.2 ∧ start ≤ p.2.draws := by
  obtain ⟨rank, hR⟩ := hN.ranked
  have hT := keyTracks_of_installed hE hD
  have h0 : DrawnInv E k rank s start (s.ops db) [] db := ⟨keyBase_begin hL hK hS, hle, hd, hs⟩
  have hI := drawnInv (s := s) (start := start) hT hR hrand
  refine ⟨?_, fun p hp => ?_⟩
  · have := hI.exec h0 he (fun _ _ => trivial)
    exact ⟨this.drawn, this.le, this.base.keys⟩
  · have hB : Begins E (fun c d => c = p.1 ∧ d = p.2) s.table (DrawnInv E k rank s start)
        (fun _ _ _ => Drawn E k start p.2 ∧ start ≤ p.2.draws) := by
      constructor
      · intro rest fr t' op ops W db ch h hch hR
        have := (hI.nested rest).writeOp (fun _ _ => trivial) h
        rw [← hR.2]
        exact ⟨this.drawn, this.le⟩
      · intro op ops W db ch hW h hch hR
        have := hI.top hW (fun _ _ => trivial) h
        rw [← hR.2]
        exact ⟨this.drawn, this.le⟩
    have hC : PhaseInvQ E (fun _ _ => True) s.table (fun _ _ _ => Drawn E k start p.2 ∧ start ≤ p.2.draws) := by
      refine ⟨fun _ => ⟨?_, ?_, ?_, ?_, ?_, ?_⟩, ?_⟩ <;> intros <;> assumption
    exact hB.exec hI hC h0 he hp ⟨rfl, rfl⟩

theorem mem_of_pk {c : Col} {l : List Row} (hu : (l.map fun r => r c).Nodup) {r r' : Row} (hr : r ∈ l) (hr' : r' ∈ l) (h : r c = r' c) :
    r = r' := by
  induction l with
  | nil => simp at hr
  | cons a l ih =>
    simp only [List.map_cons, List.nodup_cons, List.mem_map, not_exists, not_and] at hu
    rcases List.mem_cons.1 hr with rfl | h1 <;> rcases List.mem_cons.1 hr' with rfl | h2
    · rfl
    · exact absurd h.symm (hu.1 r' h2)
    · exact absurd h (hu.1 r h1)
    · exact ih hu.2 h1 h2

/-- After a statement: the instance has a newly drawn key, or its key is one of the wanted ones and `G` holds of it. -/
theorem holds_or_drawn {D : List Denorm} {fuel : Nat} {db db' : Db} {own : List Col} {v : Val} {G : Db → Row → Prop} {K : Val → Prop}
    (hE : Installed E D) (hD : KeyDeclared E.backend D k) (hN : NoReentry E)
    (hrand : ∀ m n, E.rand m = E.rand n → m = n) (hG : SeenProp k own G)
    (hg : ∀ d ∈ k.deps, ∀ g, d.dep.rel ≠ .backwardM2M (.generic g)) (hown : ∀ c ∈ own, ¬ Managed E k.model.table c)
    (hL : LegalStmt E k.relations db s) (hK : KeysOk k.relations db) (hS : KeyLegal k db s)
    (hs : KeyStmt E k db.draws s) (hd : Drawn E k db.draws db) (he : E.exec fuel s db = .ok db')
    (h0 : (CalmStmt k own v G K s ∧ ∀ r ∈ db.rows k.model.table, r k.model.pk = v → G db r ∧ K (r k.field)) ∨
      ∃ op, s.ops db = [op] ∧ ∀ r' ∈ (applyOp E s.table op db).1.rows k.model.table, r' k.model.pk = v → G db r' ∧ K (r' k.field))
    {r' : Row} (hr' : r' ∈ db'.rows k.model.table) (hv : r' k.model.pk = v) :
    (G db' r' ∧ K (r' k.field)) ∨ ∃ n, db.draws ≤ n ∧ n < db'.draws ∧ r' k.field = .int (E.rand n) := by
  obtain ⟨rank, hR⟩ := hN.ranked
  have hT := keyTracks_of_installed hE hD
  obtain ⟨_, hmid⟩ := drawn_exec hE hD hN hrand hL hK hS hs (Nat.le_refl _) hd he
  by_cases hQ : ∀ p ∈ E.changesOf fuel s db, Unconcerned k v p.1 p.2
  · have hb : PreInv E k rank s v G K db.draws (s.ops db) [] db ∨ HoldInv E k own rank s v G K db.draws (s.ops db) [] db := by
      rcases h0 with ⟨h1, h2⟩ | ⟨op, h1, h2⟩
      · exact .inr ⟨keyBase_begin hL hK hS, Nat.le_refl _, fun r hr hv => ⟨(h2 r hr hv).1, .inl (h2 r hr hv).2⟩, .inl h1⟩
      · exact .inl ⟨keyBase_begin hL hK hS, Nat.le_refl _, rfl, op, h1, h2⟩
    rcases (preInv hT hR hG hg hown).exec hb he hQ with h | h
    · obtain ⟨op, e, _⟩ := h.one
      simp at e
    · obtain ⟨h1, h2⟩ := h.holds r' hr' hv
      rcases h2 with h2 | h2
      · exact .inl ⟨h1, h2⟩
      · exact .inr h2
  · right
    simp only [Classical.not_forall, Unconcerned] at hQ
    obtain ⟨p, hp, r, hr, hrv, d, hd', hc⟩ := hQ
    have hc := Classical.not_not.1 hc
    obtain ⟨hu, hle⟩ := hmid p hp
    have hC : k.Concerned p.1 p.2 v := by
      refine ⟨⟨r, hr, hrv⟩, fun r1 h1 h1v => ⟨d, hd', ?_⟩⟩
      rw [mem_of_pk hu.uniq h1 hr (h1v.trans hrv.symm)]
      exact hc
    obtain ⟨draw, h1, _⟩ := C15_renewed hE hD hN hL hK hS he hp
    obtain ⟨i, hi, hi'⟩ := List.mem_iff_getElem.1 hr'
    obtain ⟨h2, h3, h4⟩ := h1 i r' (by rw [List.getElem?_eq_getElem hi, hi']) (hv ▸ hC)
    exact ⟨draw i, Nat.le_trans hle h3, h4, h2⟩

end

end Denorm
