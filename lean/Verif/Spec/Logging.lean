import Verif.Model.Logging

/-!
# What the documentation of the log levels says

`DEBUG` prints everything, `INFO` everything but debug information, `WARNING` only warnings and errors, `ERROR` only
errors and `SILENT` nothing.
-/
namespace Traceon.Spec

/-- The severities of messages. -/
inductive Severity
  | debug | info | warning | error
  deriving DecidableEq

/-- The table in the documentation of `LogLevel`. -/
def shows : LogLevel → List Severity
  | .debug => [.debug, .info, .warning, .error]
  | .info => [.info, .warning, .error]
  | .warning => [.warning, .error]
  | .error => [.error]
  | .silent => []

/-- The line for a message. -/
def line : Severity → String → String
  | .debug, m => "DEBUG:  " ++ m
  | .info, m => m
  | .warning, m => "WARNING:  " ++ m
  | .error, m => "ERROR:  " ++ m

/-- The message (if any) in a call. -/
def message : LogCall → Option (Severity × String)
  | .setLogLevel _ => none
  | .logDebug m => some (.debug, m)
  | .logInfo m => some (.info, m)
  | .logWarning m => some (.warning, m)
  | .logError m => some (.error, m)

/-- The level in force after a history of calls: the last one set with a proper `LogLevel`, else the initial one. -/
def levelAfter (initial : LogLevel) (history : List LogCall) : LogLevel :=
  ((history.filterMap (fun c => match c with | .setLogLevel l => l | _ => none)).getLast?).getD initial

/-- The name of a level in the environment variable. -/
def nameOf : LogLevel → String
  | .debug => "DEBUG"
  | .info => "INFO"
  | .warning => "WARNING"
  | .error => "ERROR"
  | .silent => "SILENT"

end Traceon.Spec
