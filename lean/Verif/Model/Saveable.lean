import Verif.Model.Mesh
import Mathlib.Logic.Function.Basic

/-!
# Model of `traceon.util.Saveable`

Python's `pickle` is a parameter: what `dump` writes for an object, and what `load` makes of the contents of a file (`none`: it raises). A file is the list of its bytes on the disk.
-/
namespace Traceon.Saving

/-- Python's `pickle`, for objects of the type `α`. [used in util.py:11-31] -/
structure Pickle (α : Type) where
  dump : α → List UInt8
  load : List UInt8 → Option α

/-- The files. [util.py:11-31] -/
abbrev Disk := String → Option (List UInt8)

/-- What programs do. A program may be stopped during `write`, when `n` bytes have reached the disk. [util.py:12-31] -/
inductive Step (α : Type) where
  | write (file : String) (a : α)
  | stopped (file : String) (a : α) (n : Nat)

/-- util.py:19, `open(filename, 'wb')`: the file is made if it does not exist, and emptied. -/
def openEmpty (d : Disk) (file : String) : Disk := Function.update d file (some [])

/-- Bytes written are added to the file (util.py:20; buffers are flushed when the file is closed at the latest). -/
def append (d : Disk) (file : String) (bytes : List UInt8) : Disk := Function.update d file ((d file).map (· ++ bytes))

/-- util.py:12-20, `write`, completely or until `n` bytes are on the disk. -/
def run {α : Type} (P : Pickle α) (d : Disk) : Step α → Disk
  | .write file a => append (openEmpty d file) file (P.dump a)
  | .stopped file a n => append (openEmpty d file) file ((P.dump a).take n)

/-- A sequence of writes by any number of programs, one after the other. [user code, calling util.py:12-31] -/
def runs {α : Type} (P : Pickle α) (d : Disk) (ss : List (Step α)) : Disk := ss.foldl (run P) d

/-- util.py:23-30, `read`; `none`: it raises, for instance because there is no such file. -/
def read {α : Type} (P : Pickle α) (d : Disk) (file : String) : Option α := (d file).bind P.load

end Traceon.Saving
