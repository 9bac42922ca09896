import Verif.Code.Daemon
/-!
# What is expected of the daemon and the middleware
-/
namespace Denorm

/-- An exception of one of the classes that Django documents as database errors. -/
def Exc.isDatabaseError (e : Exc) : Prop :=
  e.cls ∈ [ExcClass.databaseError, .dataError, .operationalError, .integrityError, .internalError, .programmingError, .notSupportedError]

/-- The calls of `n` undisturbed rounds. -/
def rounds (interval : Nat) : Nat → List Call
  | 0 => []
  | n + 1 => rounds interval n ++ [.flush, .sleep interval, .commit]

/-- The calls before the first round. -/
def startUp (v : PyVersion) (opt : Options) : List Call :=
  .setAutocommit false :: if !opt.foreground && v == .py2 then [.writePid] else []

end Denorm
