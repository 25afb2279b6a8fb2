import Verif.Model.Basic

/-!
# Model of `traceon/logging.py`
-/
namespace Traceon

/-- `LogLevel` (logging.py:12-28). -/
inductive LogLevel
  | debug | info | warning | error | silent
  deriving DecidableEq, Repr

namespace LogLevel

/-- The integer value of a member of the `IntEnum` (logging.py:15-27). -/
def value : LogLevel → Int
  | debug => 0
  | info => 1
  | warning => 2
  | error => 3
  | silent => 4

/-- `LogLevel[name]`, raises `KeyError` (here `none`) when there is no member of that name. [logging.py:37] -/
def byName (name : String) : Option LogLevel :=
  if name = "DEBUG" then some debug
  else if name = "INFO" then some info
  else if name = "WARNING" then some warning
  else if name = "ERROR" then some error
  else if name = "SILENT" then some silent
  else none

/-- The names of the members. [logging.py:34] -/
def names : List String := ["DEBUG", "INFO", "WARNING", "ERROR", "SILENT"]

end LogLevel

/-- The log level when the module is imported (logging.py:31-36). `upper` is Python's `str.upper`; `dirOther` are
the names besides those of the members in `dir(LogLevel)` (they depend on the version of Python). `none`: `KeyError`,
the module cannot be imported. -/
def initialLogLevel (upper : String → String) (dirOther : List String) (env : Option String) : Option LogLevel :=
  match env with
  | none => some .info
  | some s =>
    if upper s ∈ LogLevel.names ++ dirOther then LogLevel.byName (upper s) else some .info

/-- A call of one of the functions of the module. The argument of `set_log_level` is `none` if it is not a `LogLevel`. [logging.py:39-60] -/
inductive LogCall
  | setLogLevel (level : Option LogLevel)
  | logDebug (msg : String)
  | logInfo (msg : String)
  | logWarning (msg : String)
  | logError (msg : String)

/-- The effect of one call: the new level and the lines printed (logging.py:38-60). `set_log_level` raises
`AssertionError` for something else than a `LogLevel`, and then leaves the level as it is. `print(a, b)` puts a
space between its arguments. -/
def LogCall.step (level : LogLevel) : LogCall → LogLevel × List String
  | .setLogLevel none => (level, [])
  | .setLogLevel (some l) => (l, [])
  | .logDebug msg => (level, if level.value ≤ LogLevel.debug.value then ["DEBUG:  " ++ msg] else [])
  | .logInfo msg => (level, if level.value ≤ LogLevel.info.value then [msg] else [])
  | .logWarning msg => (level, if level.value ≤ LogLevel.warning.value then ["WARNING:  " ++ msg] else [])
  | .logError msg => (level, if level.value ≤ LogLevel.error.value then ["ERROR:  " ++ msg] else [])

/-- The lines printed during a sequence of calls, and the level afterwards. [user code, calling logging.py:39-60] -/
def runLog (level : LogLevel) : List LogCall → LogLevel × List String
  | [] => (level, [])
  | c :: cs =>
      let (l, out) := c.step level
      let (l', out') := runLog l cs
      (l', out ++ out')

end Traceon
