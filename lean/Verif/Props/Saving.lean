import Verif.Spec.Saving
import Mathlib.Tactic.Linarith
import Mathlib.Data.List.Induction

/-!
# C100: saved objects
-/
namespace Traceon
open Spec Saving

variable {α : Type} {P : Pickle α}

theorem run_other (d : Disk) (s : Step α) (file : String) (h : fileOf s ≠ file) : run P d s file = d file := by
  cases s <;>
  · simp only [fileOf] at h
    simp only [run, append, openEmpty, Function.update_of_ne (Ne.symm h)]

theorem runs_other (ss : List (Step α)) (file : String) (h : ∀ s ∈ ss, fileOf s ≠ file) : ∀ d : Disk, runs P d ss file = d file := by
  induction ss with
  | nil => intro d; rfl
  | cons s ss ih =>
    intro d
    show runs P (run P d s) ss file = _
    rw [ih (fun s hs => h s (by simp [hs])), run_other d s file (h s (by simp))]

theorem run_write (d : Disk) (file : String) (a : α) : run P d (.write file a) file = some (P.dump a) := by
  simp [run, append, openEmpty]

theorem run_stopped (d : Disk) (file : String) (a : α) (n : Nat) : run P d (.stopped file a n) file = some ((P.dump a).take n) := by
  simp [run, append, openEmpty]

/-- C100: `read` gives back the object that was written to the file last, whatever was written before (also by programs that were stopped) and to other files since. -/
theorem C100_back (hP : GoodPickle P) (d : Disk) (before after : List (Step α)) (file : String) (a : α) (h : ∀ s ∈ after, fileOf s ≠ file) :
    Saving.read P (runs P d (before ++ .write file a :: after)) file = some a := by
  have : runs P d (before ++ .write file a :: after) = runs P (run P (runs P d before) (.write file a)) after := by
    unfold runs
    rw [List.foldl_append, List.foldl_cons]
  unfold Saving.read
  rw [this, runs_other after file h, run_write]
  exact hP.back a

/-- C100, a program is stopped during `write`: reading the file raises or gives the new object, and nothing else. Other files are as before. Missing: that the old object is kept until the new one is complete, which is false (`C100_refuted`). -/
theorem C100_stopped_partial (hP : GoodPickle P) (d : Disk) (before after : List (Step α)) (file : String) (a : α) (n : Nat) (h : ∀ s ∈ after, fileOf s ≠ file) :
    (Saving.read P (runs P d (before ++ .stopped file a n :: after)) file = none ∨ Saving.read P (runs P d (before ++ .stopped file a n :: after)) file = some a) ∧
    ∀ other, other ≠ file → Saving.read P (run P d (.stopped file a n)) other = Saving.read P d other := by
  have : runs P d (before ++ .stopped file a n :: after) = runs P (run P (runs P d before) (.stopped file a n)) after := by
    unfold runs
    rw [List.foldl_append, List.foldl_cons]
  constructor
  · unfold Saving.read
    rw [this, runs_other after file h, run_stopped]
    rcases Nat.lt_or_ge n (P.dump a).length with hn | hn
    · left; exact hP.cut a n hn
    · right; rw [List.take_of_length_le hn]; exact hP.back a
  · intro other ho
    unfold Saving.read
    rw [run_other d (.stopped file a n) other (fun h => ho h.symm)]

/-- C100: no object appears from nowhere: whatever is read from a file after any history was written to that file, or was in it at the start. -/
theorem C100_origin (hP : GoodPickle P) (d : Disk) (ss : List (Step α)) (file : String) (a : α) (h : Saving.read P (runs P d ss) file = some a) :
    Saving.read P d file = some a ∨ Step.write file a ∈ ss ∨ ∃ n, Step.stopped file a n ∈ ss := by
  induction ss using List.reverseRecOn with
  | nil => left; exact h
  | append_singleton ss s ih =>
    have e : runs P d (ss ++ [s]) = run P (runs P d ss) s := by unfold runs; rw [List.foldl_append]; rfl
    rw [e] at h
    by_cases hf : fileOf s = file
    · right
      cases s with
      | write f b =>
        simp only [fileOf] at hf
        subst hf
        unfold Saving.read at h
        rw [run_write, Option.bind_some, hP.back] at h
        cases h
        left; simp
      | stopped f b n =>
        simp only [fileOf] at hf
        subst hf
        right
        refine ⟨n, ?_⟩
        unfold Saving.read at h
        rw [run_stopped, Option.bind_some] at h
        rcases Nat.lt_or_ge n (P.dump b).length with hn | hn
        · rw [hP.cut b n hn] at h; cases h
        · rw [List.take_of_length_le hn, hP.back] at h
          cases h; simp
    · have h' : Saving.read P (runs P d ss) file = some a := by
        unfold Saving.read at h ⊢
        rw [run_other _ s file hf] at h
        exact h
      rcases ih h' with h | h | ⟨n, h⟩
      · exact .inl h
      · exact .inr (.inl (by simp [h]))
      · exact .inr (.inr ⟨n, by simp [h]⟩)

/-- C100 fails: the old object is lost if the program is stopped while it writes a new one, for every pickle, objects and place at which it is stopped before the end. -/
theorem C100_refuted (hP : GoodPickle P) (d : Disk) (file : String) (old new : α) (n : Nat) (hn : n < (P.dump new).length) :
    Saving.read P (runs P d [.write file old]) file = some old ∧ Saving.read P (runs P d [.write file old, .stopped file new n]) file = none := by
  refine ⟨C100_back hP d [] [] file old (by simp), ?_⟩
  show (run P (run P d (.write file old)) (.stopped file new n) file).bind P.load = none
  rw [run_stopped]
  exact hP.cut new n hn

/-- A pickle as assumed: `a` ones and the byte that ends a pickle. -/
def unaryPickle : Pickle Nat where
  dump a := List.replicate a 1 ++ [46]
  load l := if l.contains 46 then some (l.takeWhile (· != 46)).length else none

/-- The hypothesis on pickle can be met. -/
theorem C100_example : GoodPickle unaryPickle := by
  constructor
  · intro a
    have h : ∀ a : Nat, (List.replicate a (1 : UInt8) ++ [46]).takeWhile (· != 46) = List.replicate a 1 := by
      intro a
      induction a with
      | zero => rfl
      | succ a ih => rw [List.replicate_succ, List.cons_append, List.takeWhile_cons, ih]; rfl
    simp only [unaryPickle]
    rw [if_pos (by simp), h, List.length_replicate]
  · intro a n hn
    simp only [unaryPickle, List.length_append, List.length_replicate, List.length_singleton] at hn ⊢
    rw [if_neg]
    rw [List.take_append_of_le_length (by simp; omega), List.take_replicate]
    simp only [List.contains_replicate]
    have : ((46 : UInt8) == 1) = false := rfl
    simp [this]

end Traceon
