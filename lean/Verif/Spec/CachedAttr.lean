import Verif.Code.CachedAttr
import Verif.Spec.Cached
/-!
# Histories in which instances are refreshed, too
-/
namespace Denorm

/-- A text that no number is written as. -/
def NoNumber (s : String) : Prop := ∀ i : Int, s ≠ toString i

/-- The function returns texts that are not numbers. -/
def Callback.Texts (cb : Callback) : Prop := ∀ db r, ∃ s, cb.value db r = .text s ∧ NoNumber s

/-- The model's columns in their order: what the function reads of the instance itself comes before the `@cached` field. -/
def CachedLast (cb : Callback) (cols : List Col) : Prop :=
  ∃ pre post, cols = pre ++ cb.field :: post ∧ cb.field ∉ pre ∧ cb.field ∉ post ∧ ∀ c, c ∈ cb.own ∨ c ∈ cb.key.fks → c ∈ pre ∨ c = cb.model.pk

/-- What can happen, refresh_from_db() of any instance included. -/
inductive RefreshStep (A : App) (cb : Callback) (om : OrmModel) (cols : List Col) : CacheState → CacheState → Prop where
  | other {st st'} : CacheStep A cb om st st' → RefreshStep A cb om cols st st'
  | refresh {st mem attr mem' attr' cache'} : refreshCached cb cols st.db mem attr st.cache = some (mem', attr', cache') → RefreshStep A cb om cols st { st with cache := cache' }

/-- Any number of steps. -/
inductive RefreshRun (A : App) (cb : Callback) (om : OrmModel) (cols : List Col) : CacheState → CacheState → Prop where
  | refl {st} : RefreshRun A cb om cols st st
  | step {st st1 st2} : RefreshRun A cb om cols st st1 → RefreshStep A cb om cols st1 st2 → RefreshRun A cb om cols st st2

end Denorm
