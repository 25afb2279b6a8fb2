import Verif.Spec.Logging
import Mathlib.Data.List.Induction
import Mathlib.Tactic.Push

namespace Traceon
open Spec

theorem runLog_level (level : LogLevel) (cs : List LogCall) : (runLog level cs).1 = levelAfter level cs := by
  induction cs generalizing level with
  | nil => rfl
  | cons c cs ih =>
    simp only [runLog]
    rw [ih]
    unfold levelAfter
    cases c with
    | setLogLevel l =>
      cases l with
      | none => simp [LogCall.step]
      | some l => simp [LogCall.step, List.getLast?_cons]
    | _ => simp [LogCall.step]

theorem runLog_append (level : LogLevel) (as bs : List LogCall) :
    (runLog level (as ++ bs)).2 = (runLog level as).2 ++ (runLog (runLog level as).1 bs).2 := by
  induction as generalizing level with
  | nil => rfl
  | cons a as ih => simp [runLog, ih]

/-- The output of one call when a level is in force. -/
theorem step_out (level : LogLevel) (c : LogCall) :
    (c.step level).2 = (match message c with
      | some (s, m) => if s ∈ shows level then [line s m] else []
      | none => []) := by
  cases c with
  | setLogLevel l => cases l <;> rfl
  | _ => cases level <;> simp [LogCall.step, message, shows, line, LogLevel.value]

/-- **C60.** After any history of calls, a message is printed (with its prefix) iff the level in force — the last
one that was set with a `LogLevel`, or the initial one — shows its severity; a call of `set_log_level` prints nothing. -/
theorem C60_filter (initial : LogLevel) (history : List LogCall) (c : LogCall) :
    (runLog initial (history ++ [c])).2 =
      (runLog initial history).2 ++
        (match message c with
         | some (s, m) => if s ∈ shows (levelAfter initial history) then [line s m] else []
         | none => []) := by
  rw [runLog_append, runLog_level]
  simp only [runLog, List.append_nil]
  rw [step_out]

/-- The whole output, in order. -/
theorem C60_output (level : LogLevel) (cs : List LogCall) :
    (runLog level cs).2 =
      ((List.range cs.length).flatMap fun i =>
        match (cs[i]?).bind message with
        | some (s, m) => if s ∈ shows (levelAfter level (cs.take i)) then [line s m] else []
        | none => []) := by
  induction cs using List.reverseRecOn with
  | nil => rfl
  | append_singleton cs c ih =>
    rw [C60_filter, ih, List.length_append, List.length_singleton, List.range_succ, List.flatMap_append]
    congr 1
    · rw [List.flatMap_def, List.flatMap_def]
      congr 1
      apply List.map_congr_left
      intro i hi
      have hi' : i < cs.length := List.mem_range.mp hi
      rw [List.getElem?_append_left hi', List.take_append_of_le_length (Nat.le_of_lt hi')]
    · simp

/-- `dir(LogLevel)` contains, besides the members, only names with a lower-case letter (`__class__`, `bit_length`, …),
and `str.upper` returns a string without lower-case letters `a`–`z`; on the ASCII strings it is the usual function. -/
structure PythonNames (upper : String → String) (dirOther : List String) : Prop where
  lower : ∀ n ∈ dirOther, ∃ ch ∈ n.toList, 'a' ≤ ch ∧ ch ≤ 'z'
  upper : ∀ s, ∀ ch ∈ (upper s).toList, ¬('a' ≤ ch ∧ ch ≤ 'z')

theorem upper_not_dir {upper : String → String} {dirOther : List String} (py : PythonNames upper dirOther)
    (s : String) : upper s ∉ dirOther := by
  intro h
  obtain ⟨ch, hch, hl⟩ := py.lower _ h
  exact py.upper s ch hch hl

/-- **C60.** The environment variable: the level with that name (whatever the case of the letters), and INFO for an
unknown or missing value. The module can always be imported. -/
theorem C60_environment {upper : String → String} {dirOther : List String} (py : PythonNames upper dirOther) :
    initialLogLevel upper dirOther none = some .info ∧
    (∀ s l, upper s = nameOf l → initialLogLevel upper dirOther (some s) = some l) ∧
    (∀ s, (∀ l, upper s ≠ nameOf l) → initialLogLevel upper dirOther (some s) = some .info) ∧
    ∀ env, ∃ l, initialLogLevel upper dirOther env = some l := by
  have known : ∀ s l, upper s = nameOf l → initialLogLevel upper dirOther (some s) = some l := by
    intro s l h
    simp only [initialLogLevel, h]
    cases l <;> simp [nameOf, LogLevel.names, LogLevel.byName]
  have unknown : ∀ s, (∀ l, upper s ≠ nameOf l) → initialLogLevel upper dirOther (some s) = some .info := by
    intro s h
    have h1 := upper_not_dir py s
    have d := h .debug
    have i := h .info
    have w := h .warning
    have e := h .error
    have q := h .silent
    simp only [nameOf] at d i w e q
    simp [initialLogLevel, LogLevel.names, h1, d, i, w, e, q]
  refine ⟨rfl, known, unknown, ?_⟩
  intro env
  cases env with
  | none => exact ⟨_, rfl⟩
  | some s =>
    by_cases h : ∃ l, upper s = nameOf l
    · obtain ⟨l, hl⟩ := h
      exact ⟨l, known s l hl⟩
    · push Not at h
      exact ⟨_, unknown s h⟩

/-- The hypothesis is met by upper-casing character by character. -/
example : PythonNames (fun s => String.ofList (s.toList.map Char.toUpper)) ["__class__", "bit_length"] where
  lower := by decide +kernel
  upper := by
    intro s ch h
    simp only [String.toList_ofList, List.mem_map] at h
    obtain ⟨c, -, rfl⟩ := h
    intro hh
    revert hh
    simp only [Char.toUpper]
    split
    · rename_i h1
      simp only [Char.le_def] at *
      have := h1.1
      have := h1.2
      intro h2
      have h3 := h2.1
      simp only [UInt32.le_iff_toNat_le] at *
      simp at *
      omega
    · rename_i h1
      intro h2
      apply h1
      exact ⟨h2.1, h2.2⟩

example : initialLogLevel (fun s => String.ofList (s.toList.map Char.toUpper)) ["__class__"] (some "warning")
    = some .warning := by decide +kernel

example : (runLog .info [.logDebug "a", .logInfo "b", .setLogLevel (some .error), .setLogLevel none,
    .logWarning "c", .logError "d"]).2 = ["b", "ERROR:  d"] := by decide +kernel

end Traceon
