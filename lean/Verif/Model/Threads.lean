import Verif.Model.Basic

/-!
# Model of the threads of `traceon.util.split_collect` (util.py:33-79) and of `Solver.get_matrix` (solver.py:146-182)

Threads run in any order, switching after every single access to shared memory. A thread has one register.
-/
namespace Traceon

/-- One access to the shared cell `cell`: from the register and the value in the cell compute their new values. [the accesses of the routines called in solver.py:156-175] -/
structure Step (C R : Type) where
  cell : C
  act : R → R → R × R

/-- Shared memory and the registers of the threads. [util.py:56-79] -/
structure ThreadState (C R : Type) where
  reg : Nat → R
  mem : C → R

namespace ThreadState
variable {C R : Type} [DecidableEq C]

/-- Thread `t` executes one step. [util.py:66-74] -/
def exec (t : Nat) (s : Step C R) (st : ThreadState C R) : ThreadState C R :=
  { reg := fun u => if u = t then (s.act (st.reg t) (st.mem s.cell)).1 else st.reg u
    mem := fun c => if c = s.cell then (s.act (st.reg t) (st.mem s.cell)).2 else st.mem c }

/-- A schedule is the list of threads that are given a turn, one after the other; a thread that has finished does nothing. [util.py:66-74] -/
def run : List Nat → (Nat → List (Step C R)) → ThreadState C R → ThreadState C R
  | [], _, st => st
  | t :: sched, progs, st =>
      match progs t with
      | [] => run sched progs st
      | s :: rest => run sched (fun u => if u = t then rest else progs u) (st.exec t s)

end ThreadState

/-- All threads have finished (`t.join()` for all threads, util.py:76-77): every thread had enough turns. -/
def Joined {C R : Type} (sched : List Nat) (progs : Nat → List (Step C R)) : Prop := ∀ t, (progs t).length ≤ sched.count t

/-! ## `np.array_split` and the number of threads -/

/-- util.py:33-53. `env` is the value of TRACEON_THREADS, `cpus` the number of processors (unknown: `none`). -/
def numberOfThreads (env : Option Int) (cpus : Option Nat) : Int :=
  match env with
  | some t => t
  | none =>
    match cpus with
    | none => 1
    | some c => if c ≤ 1 then 1 else (c / 2 : Nat)

/-- The lengths of the parts made by `np.array_split` of `n` entries into `t` parts. [util.py:62] -/
def splitSizes (n t : Nat) : List Nat := List.replicate (n % t) (n / t + 1) ++ List.replicate (t - n % t) (n / t)

/-- Cut a list into parts of given lengths. [util.py:62] -/
def chop {α : Type _} : List Nat → List α → List (List α)
  | [], _ => []
  | n :: ns, xs => xs.take n :: chop ns (xs.drop n)

/-- `np.array_split(xs, t)`; raises for `t ≤ 0`. (util.py:61) -/
def arraySplit {α : Type _} (xs : List α) (t : Int) : Option (List (List α)) :=
  if t ≤ 0 then none else some (chop (splitSizes xs.length t.toNat) xs)

/-! ## `split_collect` -/

/-- The program of thread `i` (util.py:65-66): store `f(args[i])` in `results[i]`; if `f` raises (`none`), nothing is stored. -/
def collectProg {α β : Type} (f : List α → Option β) (args : List (List α)) (i : Nat) : List (Step Nat β) :=
  match args[i]?.bind f with
  | some r => [{ cell := i, act := fun reg _ => (reg, r) }]
  | none => []

/-- util.py:55-79 with DEBUG off; `blank` is `np.zeros(0)`, `sched` the schedule. Gives the results. -/
def splitCollect {α β : Type} (f : List α → Option β) (xs : List α) (threads : Int) (blank : β) (sched : List Nat) : Option (List β) := do
  let args ← arraySplit xs threads
  let st := ThreadState.run sched (collectProg f args) { reg := fun _ => blank, mem := fun _ => blank }
  return (List.range args.length).map st.mem

/-! ## Filling the matrix -/

/-- How an entry of the matrix is changed: `matrix[...] = v` or `matrix[...] += v`. [tracing.c:283-366, radial.c:249-310] -/
inductive EntryOp (V : Type) where
  | set (v : V)
  | add (v : V)

/-- The steps of an assignment: `+=` is a load followed by a store. [tracing.c:283-366, radial.c:249-310] -/
def EntryOp.steps {C V : Type} [Add V] (c : C) : EntryOp V → List (Step C V)
  | .set v => [{ cell := c, act := fun r _ => (r, v) }]
  | .add v => [{ cell := c, act := fun _ m => (m, m) }, { cell := c, act := fun r _ => (r, r + v) }]

/-- The value of an entry after the assignments. [tracing.c:283-366, radial.c:249-310] -/
def EntryOp.apply {V : Type} [Add V] (m : V) : EntryOp V → V
  | .set v => v
  | .add v => m + v

/-- The loops of `fill_matrix_3d` (tracing.c:296-361) and `fill_matrix_radial` (radial.c:263-309) over rows `first` to `last`, both included.
`ops i j` are the assignments to entry `(i, j)`. -/
def fillRows {V : Type} [Add V] (n : Nat) (ops : Nat → Nat → List (EntryOp V)) (first last : Nat) : List (Step (Nat × Nat) V) :=
  (List.range' first (last + 1 - first)).flatMap (fun i => (List.range n).flatMap (fun j => (ops i j).flatMap (EntryOp.steps (i, j))))

/-- `fill_matrix_rows` (solver.py:157-162) on a thread. An empty chunk raises at `rows[0]`; then come the assertions of
backend/__init__.py:580 (radial: `start_index < end_index`) or 604 (3D: `start_index <= end_index`). After an exception the thread does nothing. -/
def fillProg {V : Type} [Add V] (radial : Bool) (n : Nat) (ops : Nat → Nat → List (EntryOp V)) (rows : List Nat) : List (Step (Nat × Nat) V) :=
  match rows.head?, rows.getLast? with
  | some first, some last =>
      if first < n ∧ last < n ∧ (if radial then first < last else first ≤ last) then fillRows n ops first last else []
  | _, _ => []

/-- What the threads of `get_matrix` do (solver.py:165). -/
def matrixProgs {V : Type} [Add V] (radial : Bool) (n : Nat) (threads : Int) (ops : Nat → Nat → List (EntryOp V)) (t : Nat) : List (Step (Nat × Nat) V) :=
  fillProg radial n ops (((arraySplit (List.range n) threads).getD []).getD t [])

/-- solver.py:146-182, the matrix for `n` elements. `diag i` is what is written on the diagonal for radial symmetry (lines 168-178).
The final assertion (finite entries) is left out. -/
def getMatrix {V : Type} [Add V] [Zero V] (radial : Bool) (n : Nat) (threads : Int) (ops : Nat → Nat → List (EntryOp V)) (diag : Nat → V)
    (sched : List Nat) : Option (Nat → Nat → V) := do
  let _ ← arraySplit (List.range n) threads
  let st := ThreadState.run sched (matrixProgs radial n threads ops) { reg := fun _ => 0, mem := fun _ => 0 }
  return fun i j => if radial ∧ i = j ∧ i < n then diag i else st.mem (i, j)

end Traceon
