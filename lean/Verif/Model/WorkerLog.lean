import Verif.Py.Basic

/-!
# Logging on distributed workers

Models `leap_ec/distrib/logger.py`: the module's logger with its one handler and filter, and the plugin that attaches the logger to
workers. One process that has imported the module is modelled, with any number of workers in it. The time stamp and the
handlers of the root logger are left out.
-/

namespace Leap

/-- The levels of the `logging` module used here, as numbers: `DEBUG` 10, `INFO` 20, `WARNING` 30.
For leap_ec/distrib/logger.py:81-89. -/
def logDebug : Nat := 10
/-- `logging.INFO` (leap_ec/distrib/logger.py:89). -/
def logInfo : Nat := 20
/-- `logging.WARNING`, also the level of the root logger, which decides while the logger has no level of its own.
For leap_ec/distrib/logger.py:30-34. -/
def logWarning : Nat := 30

/-- What is logged: the plugin's three messages (leap_ec/distrib/logger.py:96, 102, 105), or a user's message. -/
inductive LogText where
  | alreadyHasLogger
  | workerSetup (w : Nat)
  | tearingDown (w : Nat)
  | user (n : Nat)
  deriving DecidableEq

/-- A line of output (leap_ec/distrib/logger.py:30-34, 45-47). -/
structure LogLine where
  hostname : Nat
  processId : Nat
  level : Nat
  text : LogText
  deriving DecidableEq

/-- A worker's attribute `logger`: absent, the module's logger, or some logger the worker had before.
For leap_ec/distrib/logger.py:24-28. -/
inductive WorkerLogger where
  | absent
  | shared
  | foreign
  deriving DecidableEq

/-- A process with the module imported. `filterHost` and `filterPid` are what the filter stored on import
(leap_ec/distrib/logger.py:24-28); `pid` is the number of the process itself. `level` is the level of the logger, if one was
set; `out` what its handler wrote; `foreignOut` what went to other loggers. -/
structure LogProc where
  filterHost : Nat
  filterPid : Nat
  pid : Nat
  level : Option Nat
  workers : Nat → WorkerLogger
  out : List LogLine
  foreignOut : List (Nat × LogText)

/-- The import of the module (leap_ec/distrib/logger.py:24-28, 39-53). -/
def importLogger (host pid : Nat) (workers : Nat → WorkerLogger) : LogProc :=
  { filterHost := host, filterPid := pid, pid := pid, level := none, workers := workers, out := [], foreignOut := [] }

/-- A process started by `fork`: a copy with a number of its own. For leap_ec/distrib/logger.py:24-34, 56-105. -/
def LogProc.fork (p : LogProc) (pid : Nat) : LogProc := { p with pid := pid }

/-- `logger.log(level, text)` on the module's logger: a line is written when the level reaches the logger's, or the root's while it has
none; the filter adds its host and process numbers and never refuses (leap_ec/distrib/logger.py:30-34). -/
def LogProc.emit (p : LogProc) (level : Nat) (text : LogText) : LogProc :=
  if p.level.getD logWarning ≤ level then
    { p with out := p.out ++ [⟨p.filterHost, p.filterPid, level, text⟩] }
  else p

/-- `worker.logger.log(level, text)`. A worker without logger raises `AttributeError`. For leap_ec/distrib/logger.py:91-102. -/
def LogProc.workerLog (p : LogProc) (w level : Nat) (text : LogText) : PyM Unit × LogProc :=
  match p.workers w with
  | .absent => (.error .attributeError, p)
  | .shared => (.ok (), p.emit level text)
  | .foreign => (.ok (), { p with foreignOut := p.foreignOut ++ [(level, text)] })

/-- `setup_logger` (leap_ec/distrib/logger.py:81-89). -/
def LogProc.setupLogger (p : LogProc) (verbose : Bool) (w : Nat) : LogProc :=
  { p with
    workers := fun v => if v = w then .shared else p.workers v
    level := some (if verbose then logDebug else logInfo) }

/-- `WorkerLoggerPlugin(verbose).setup(worker)` (leap_ec/distrib/logger.py:91-102). -/
def LogProc.setup (p : LogProc) (verbose : Bool) (w : Nat) : PyM Unit × LogProc :=
  match p.workers w with
  | .absent => (p.setupLogger verbose w).workerLog w logInfo (.workerSetup w)
  | _ => p.workerLog w logWarning .alreadyHasLogger

/-- `teardown(worker)` (leap_ec/distrib/logger.py:104-105). -/
def LogProc.teardown (p : LogProc) (w : Nat) : PyM Unit × LogProc := p.workerLog w logInfo (.tearingDown w)

/-- What can happen in a process: a plugin is set up or torn down on a worker, or code on a worker logs.
For leap_ec/distrib/logger.py:81-105. -/
inductive LogEvent where
  | setup (verbose : Bool) (w : Nat)
  | teardown (w : Nat)
  | log (w level n : Nat)
  deriving DecidableEq

/-- One event; an exception it raises does not end the process. For leap_ec/distrib/logger.py:81-105. -/
def LogProc.step (p : LogProc) : LogEvent → LogProc
  | .setup v w => (p.setup v w).2
  | .teardown w => (p.teardown w).2
  | .log w l n => (p.workerLog w l (.user n)).2

/-- A history of events. For leap_ec/distrib/logger.py:81-105. -/
def LogProc.run (p : LogProc) (evs : List LogEvent) : LogProc := evs.foldl LogProc.step p

end Leap
