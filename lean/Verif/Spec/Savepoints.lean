import Verif.Code.Savepoints
import Verif.Spec.TxnAgg
/-!
# What is asked of sessions with nested `atomic()` blocks

The same as without: `NestOrderly` is `Orderly`, `NestAggOrderly` is `AggOrderly`, for schedules that also enter and leave nested blocks.
-/
namespace Denorm

/-- The statements, commits, rollbacks and steps of flush() of a schedule. -/
def plainMoves (σs : List NestMove) : List Move :=
  σs.filterMap fun σ => match σ with
    | .move μ => some μ
    | _ => none

/-- Statements respect primary keys and many-to-many constraints, as far as the session itself can see. When flush() comes to an instance, the field is one it handles well. -/
def NestOrderly (A : App) (S : Schema) (D : List Denorm) (om : OrmModel) (cb : Callback) : List NestMove → NestServer → Prop
  | [], _ => True
  | σ :: σs, X =>
    (match σ with
      | .move (.stmt i s) => LegalStmt A.engine cb (X.plain.sight S i).1 s ∧ KeepsKeys S (X.plain.sight S i).1 s
      | .move (.flushOne _) => Flushable A D om cb X.db ∧ KeysUnique A X.db
      | _ => True) ∧
    NestOrderly A S D om cb σs (A.nestMove S X σ)

/-- Statements are `legal`, respect primary keys and leave the foreign key constraint intact, as far as the session itself can see. The constraint holds after each save() of
flush(), too. -/
def NestAggOrderly (A : App) (S : Schema) (a : AggDenorm) (legal : Db → Stmt → Prop) : List NestMove → NestServer → Prop
  | [], _ => True
  | σ :: σs, X =>
    (match σ with
      | .move (.stmt i s) =>
        legal (X.plain.sight S i).1 s ∧ KeepsKeys S (X.plain.sight S i).1 s ∧ ∀ v, A.exec s (X.plain.sight S i).1 = .ok v → Refers a v
      | .move (.flushOne m) => ∀ db', A.flushOne m X.db = .ok db' → Refers a db'
      | _ => True) ∧
    NestAggOrderly A S a legal σs (A.nestMove S X σ)

/-- flush() is at work only while no session has uncommitted changes, or a savepoint with some. -/
def NestFlushAlone (A : App) (S : Schema) : List NestMove → NestServer → Prop
  | [], _ => True
  | σ :: σs, X =>
    (match σ with
      | .move (.flushOne _) => ∀ T ∈ X.sessions, T.txn = none ∧ ∀ t ∈ T.saves, t = none
      | _ => True) ∧
    NestFlushAlone A S σs (A.nestMove S X σ)

/-- What happens between entering and leaving a block of session `i`: statements of all sessions, commits, rollbacks and blocks of other sessions, steps of flush(), and complete
blocks of session `i`, which may be left by an exception. -/
inductive InBlock (i : Nat) : List NestMove → Prop
  | nil : InBlock i []
  | stmt {j s τ} : InBlock i τ → InBlock i (.move (.stmt j s) :: τ)
  | flush {m τ} : InBlock i τ → InBlock i (.move (.flushOne m) :: τ)
  | commit {j τ} : j ≠ i → InBlock i τ → InBlock i (.move (.commit j) :: τ)
  | rollback {j τ} : j ≠ i → InBlock i τ → InBlock i (.move (.rollback j) :: τ)
  | enter {j τ} : j ≠ i → InBlock i τ → InBlock i (.enter j :: τ)
  | leave {j τ} : j ≠ i → InBlock i τ → InBlock i (.leave j :: τ)
  | fail {j τ} : j ≠ i → InBlock i τ → InBlock i (.fail j :: τ)
  | block {σ τ τ'} : InBlock i τ → σ = .leave i ∨ σ = .fail i → InBlock i τ' → InBlock i (.enter i :: (τ ++ σ :: τ'))

/-- Only session `i` is at work. -/
def OnlySession (i : Nat) (τ : List NestMove) : Prop :=
  ∀ σ ∈ τ, match σ with
    | .move (.stmt j _) => j = i
    | .enter j => j = i
    | .leave j => j = i
    | .fail j => j = i
    | _ => False

end Denorm
