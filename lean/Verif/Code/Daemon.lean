/-!
# denorm_daemon (management/commands/denorm_daemon.py, daemon.py) and DenormMiddleware (middleware.py)

Python code that only calls other code is modelled as a function from an oracle, which says how each call ends, to the list of calls it makes.

Simplifications: the process that is followed is the one that goes on as the daemon (the second child of `daemonize`); `fork`, `setsid` and
`chdir` succeed; what a process killed by a signal other than SIGINT leaves behind is not modelled.
-/
namespace Denorm

/-- The exception classes that matter, with `django.db.Error` and its subclasses. -/
inductive ExcClass where
  | exception | keyboardInterrupt | systemExit | attributeError | valueError | nameError | osError
  | dbError | interfaceError | databaseError | dataError | operationalError | integrityError | internalError | programmingError
  | notSupportedError
  /-- any other class, by name -/
  | named (s : String)
deriving DecidableEq, Repr

/-- The direct base class (django/db/utils.py; the others derive from Exception or BaseException). -/
def ExcClass.base : ExcClass → Option ExcClass
  | .interfaceError => some .dbError
  | .databaseError => some .dbError
  | .dataError => some .databaseError
  | .operationalError => some .databaseError
  | .integrityError => some .databaseError
  | .internalError => some .databaseError
  | .programmingError => some .databaseError
  | .notSupportedError => some .databaseError
  | .dbError => some .exception
  | .attributeError => some .exception
  | .valueError => some .exception
  | .nameError => some .exception
  | .osError => some .exception
  | .named _ => some .exception
  | .exception => none
  | .keyboardInterrupt => none
  | .systemExit => none

/-- `issubclass(c, d)`; the chain of base classes is at most four long. -/
def ExcClass.isA (c d : ExcClass) : Bool :=
  c == d || match c.base with
    | none => false
    | some c1 => c1 == d || match c1.base with
      | none => false
      | some c2 => c2 == d || match c2.base with
        | none => false
        | some c3 => c3 == d

/-- An exception: its class and a message. -/
structure Exc where
  cls : ExcClass
  msg : String := ""
deriving DecidableEq, Repr

/-- The calls. -/
inductive Call where
  | setAutocommit (on : Bool)
  | flush
  | sleep (seconds : Nat)
  | commit
  /-- writing the pid file -/
  | writePid
  /-- `logger.error(e)` -/
  | logError (e : Exc)
  /-- `sys.exit()` -/
  | exit
deriving DecidableEq, Repr

/-- How each call ends: `none` when it returns. It may depend on everything that happened before. -/
abbrev Oracle := List Call → Option Exc

/-- What a piece of code has done, and how it ended. -/
abbrev Ran (α : Type) := List Call × Except Exc α

/-- One call. -/
def call (o : Oracle) (c : Call) (tr : List Call) : Ran Unit :=
  match o (tr ++ [c]) with
  | none => (tr ++ [c], .ok ())
  | some e => (tr ++ [c], .error e)

/-- One after the other. -/
def Ran.andThen {α β : Type} (r : Ran α) (f : α → List Call → Ran β) : Ran β :=
  match r.2 with
  | .ok a => f a r.1
  | .error e => (r.1, .error e)

/-! ## The daemon -/

inductive PyVersion where
  | py2
  /-- 3.0 to 3.6 -/
  | py3
  /-- from 3.7 on there is no `os.errno` -/
  | py37
deriving DecidableEq, Repr

/-- `open(pidfile, 'r').read()`: the number in the file, `none` if it is not a number; or the error of `open`. -/
inductive PidRead where
  | contents (pid : Option Int)
  | error (errno : Nat)
deriving DecidableEq, Repr

/-- `os.kill(pid, 0)`: `none` when it succeeds, or the error number. -/
abbrev Kill := Int → Option Nat

def EPERM : Nat := 1
def ENOENT : Nat := 2

/-- `return err.errno == os.errno.EPERM` (denorm_daemon.py:63-64). -/
def isEperm (v : PyVersion) (errno : Nat) : Except Exc Bool :=
  match v with
  | .py37 => .error ⟨.attributeError, "module 'os' has no attribute 'errno'"⟩
  | _ => .ok (errno == EPERM)

/-- `pid_exists` (denorm_daemon.py:57-69). In Python 3 IOError is OSError, so the second handler is never reached. -/
def pidExists (v : PyVersion) (file : PidRead) (kill : Kill) : Except Exc Bool :=
  match file with
  | .error errno =>
    match v with
    | .py2 => if errno = ENOENT then .ok false else .error ⟨.named "IOError", ""⟩
    | _ => isEperm v errno
  | .contents none => .error ⟨.valueError, ""⟩
  | .contents (some pid) =>
    match kill pid with
    | none => .ok true
    | some errno => isEperm v errno

/-- The options of the command. -/
structure Options where
  foreground : Bool := false
  interval : Nat := 1
  runOnce : Bool := false

/-- How far the command has come. -/
inductive Status where
  | running
  | returned
  | raised (e : Exc)
deriving DecidableEq, Repr

/-- `try: flush(); sleep(interval); commit()  except KeyboardInterrupt: commit(); sys.exit()` (denorm_daemon.py:86-92). -/
def daemonRound (o : Oracle) (interval : Nat) (tr : List Call) : Ran Unit :=
  let r := (call o .flush tr).andThen fun _ tr => (call o (.sleep interval) tr).andThen fun _ tr => call o .commit tr
  match r.2 with
  | .ok () => r
  | .error e =>
    if e.cls.isA .keyboardInterrupt then
      (call o .commit r.1).andThen fun _ tr => (tr ++ [.exit], .error ⟨.systemExit, ""⟩)
    else r

/-- `while not run_once:` (denorm_daemon.py:85-94), at most `n` rounds of it. -/
def daemonLoop (o : Oracle) (opt : Options) : Nat → List Call → List Call × Status
  | n, tr =>
    if opt.runOnce then (tr, .returned)
    else
      match n with
      | 0 => (tr, .running)
      | n + 1 =>
        match daemonRound o opt.interval tr with
        | (tr', .ok ()) => daemonLoop o opt n tr'
        | (tr', .error e) => (tr', .raised e)

/-- `daemonize(noClose=True, pidfile=pidfile)` (daemon.py:108-174), as far as the pid file goes: it is written by the parent of the
daemon with `file(pidfile, "w")`, a NameError in Python 3. -/
def daemonize (v : PyVersion) (o : Oracle) (tr : List Call) : Ran Unit :=
  match v with
  | .py2 => call o .writePid tr
  | _ => (tr, .ok ())

/-- `handle` (denorm_daemon.py:71-94), the loop run for at most `n` rounds. -/
def handle (v : PyVersion) (file : PidRead) (kill : Kill) (o : Oracle) (opt : Options) (n : Nat) (tr : List Call) : List Call × Status :=
  match pidExists v file kill with
  | .error e => (tr, .raised e)
  | .ok true => (tr, .returned)
  | .ok false =>
    if opt.foreground then daemonLoop o opt n tr
    else
      match daemonize v o tr with
      | (tr', .ok ()) => daemonLoop o opt n tr'
      | (tr', .error e) => (tr', .raised e)

/-- `commit_manually(handle)` (denorm_daemon.py:14-21). -/
def daemon (v : PyVersion) (file : PidRead) (kill : Kill) (o : Oracle) (opt : Options) (n : Nat) : List Call × Status :=
  match call o (.setAutocommit false) [] with
  | (tr, .error e) => (tr, .raised e)
  | (tr, .ok ()) =>
    match handle v file kill o opt n tr with
    | (tr, .returned) =>
      match (call o .commit tr).andThen fun _ tr => call o (.setAutocommit true) tr with
      | (tr, .ok ()) => (tr, .returned)
      | (tr, .error e) => (tr, .raised e)
    | r => r

/-! ## The middleware -/

/-- `DenormMiddleware.process_response` (middleware.py:21-26). -/
def processResponse {Response : Type} (o : Oracle) (response : Response) (tr : List Call) : Ran Response :=
  let r := call o .flush tr
  match r.2 with
  | .ok () => (r.1, .ok response)
  | .error e =>
    if e.cls.isA .databaseError then (call o (.logError e) r.1).andThen fun _ tr => (tr, .ok response)
    else (r.1, .error e)

end Denorm
