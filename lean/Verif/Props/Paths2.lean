import Verif.Props.Paths
import Mathlib.Analysis.SpecialFunctions.Trigonometric.Basic

/-!
# Theorems about paths: C23, C24, C25
-/
namespace Traceon
open Spec V3

/-! ## C23 -/

/-- **C23.** Cutting a path at `0 ≤ l ≤ L`: the parts have lengths `l` and `L - l`, trace the original
path, share the cut point, keep every breakpoint of the original at its location (and have no other
ones), and joining them gives back the curve. -/
theorem C23_cut {p : Path} (hp : GoodPath p) {l : ℝ} (h0 : 0 ≤ l) (hl : l ≤ p.length) :
    GoodPath (p.cut l).1 ∧ GoodPath (p.cut l).2 ∧
    (p.cut l).1.length = l ∧ (p.cut l).2.length = p.length - l ∧
    (∀ t, 0 ≤ t → t ≤ l → (p.cut l).1.func t = p.func t) ∧
    (∀ s, 0 ≤ s → s ≤ p.length - l → (p.cut l).2.func s = p.func (l + s)) ∧
    (p.cut l).1.endpoint = (p.cut l).2.start ∧
    (∀ c ∈ p.breaks, c ≤ l → c ∈ (p.cut l).1.breaks) ∧
    (∀ c ∈ p.breaks, l ≤ c → c - l ∈ (p.cut l).2.breaks) ∧
    (∀ c ∈ (p.cut l).1.breaks, c ∈ p.breaks) ∧ (∀ c ∈ (p.cut l).2.breaks, l + c ∈ p.breaks) ∧
    ∃ r, (p.cut l).1.join (p.cut l).2 = some r ∧ r.length = p.length ∧ r.name = p.name ∧
      ∀ t, 0 ≤ t → t ≤ p.length → r.func t = p.func t := by
  obtain ⟨a, ha⟩ := hp.defined l h0 hl
  have he : (p.cut l).1.endpoint = some a := ha
  have hs : (p.cut l).2.start = some a := by
    simp only [Path.start, Path.cut, zero_add]; exact ha
  refine ⟨⟨h0, ?_, ?_, ?_⟩, ⟨?_, ?_, ?_, ?_⟩, rfl, rfl, fun _ _ _ => rfl, ?_, he.trans hs.symm, ?_, ?_, ?_, ?_, ?_⟩
  · exact hp.sorted.sublist List.filter_sublist
  · intro b hb
    simp only [Path.cut, List.mem_filter, decide_eq_true_eq] at hb ⊢
    exact ⟨(hp.inside b hb.1).1, hb.2⟩
  · intro u hu hul
    exact hp.defined u hu (le_trans hul hl)
  · simp only [Path.cut]; linarith
  · simp only [Path.cut, List.pairwise_map]
    exact (hp.sorted.sublist List.filter_sublist).imp (fun h => by linarith)
  · intro b hb
    simp only [Path.cut, List.mem_map, List.mem_filter, decide_eq_true_eq] at hb ⊢
    obtain ⟨c, ⟨hc, hcl⟩, rfl⟩ := hb
    have := (hp.inside c hc).2
    constructor <;> linarith
  · intro u hu hul
    simp only [Path.cut] at hul ⊢
    exact hp.defined _ (by linarith) (by linarith)
  · intro s _ _; simp only [Path.cut, add_comm]
  · intro c hc hcl
    simp [Path.cut, hc, hcl]
  · intro c hc hcl
    simp only [Path.cut, List.mem_map, List.mem_filter, decide_eq_true_eq]
    exact ⟨c, ⟨hc, hcl⟩, rfl⟩
  · intro c hc
    simp only [Path.cut, List.mem_filter] at hc; exact hc.1
  · intro c hc
    simp only [Path.cut, List.mem_map, List.mem_filter] at hc
    obtain ⟨d, hd, rfl⟩ := hc
    simpa using hd.1
  · obtain ⟨r, hr, hrl, hrn, _, h1, h2, _⟩ := join_some he hs (pointsClose_self a)
    have e1 : (p.cut l).1.length = l := rfl
    have e2 : (p.cut l).2.length = p.length - l := rfl
    rw [e1, e2] at h1 h2 hrl
    refine ⟨r, hr, by linarith, hrn, ?_⟩
    intro t ht htl
    by_cases h3 : t ≤ l
    · rw [h1 t ht (by linarith) h3]; rfl
    · rw [h2 t ht (not_le.1 h3) (by linarith)]
      simp [Path.cut]

example : GoodPath exCorner ∧ (exCorner.cut (1/2)).2.breaks = [1/2] := by
  refine ⟨C22_refuted.2.1, ?_⟩
  simp only [Path.cut, exCorner]
  norm_num

/-! ## C24 -/

theorem pyMod_nonneg {a b : ℝ} (hb : 0 < b) : 0 ≤ pyMod a b := by
  unfold pyMod
  have h1 := Int.floor_le (a / b)
  have : b * ⌊a / b⌋ ≤ b * (a / b) := mul_le_mul_of_nonneg_left h1 hb.le
  rw [mul_div_cancel₀ _ hb.ne'] at this
  linarith

theorem pyMod_lt {a b : ℝ} (hb : 0 < b) : pyMod a b < b := by
  unfold pyMod
  have h1 := Int.lt_floor_add_one (a / b)
  have : b * (a / b) < b * (⌊a / b⌋ + 1) := mul_lt_mul_of_pos_left h1 hb
  rw [mul_div_cancel₀ _ hb.ne'] at this
  linarith

/-- The remainder is the only number in `[0, b)` that differs from `a` by a multiple of `b`. -/
theorem pyMod_unique {a b c : ℝ} (hb : 0 < b) (h0 : 0 ≤ c) (h1 : c < b) (n : ℤ) (h : a = c + b * n) :
    pyMod a b = c := by
  have h2 : ⌊a / b⌋ = n := by
    rw [Int.floor_eq_iff]
    rw [le_div_iff₀ hb, div_lt_iff₀ hb, h]
    constructor <;> nlinarith
  unfold pyMod
  rw [h2, h]; ring

theorem pyMod_exists (a : ℝ) {b : ℝ} : ∃ n : ℤ, a = pyMod a b + b * n := ⟨⌊a / b⌋, by unfold pyMod; ring⟩

theorem pySorted_perm (l : List ℝ) : (pySorted l).Perm l := stableSort_perm l

theorem pySorted_pairwise (l : List ℝ) : (pySorted l).Pairwise (· ≤ ·) := by
  have := stableSort_pairwise (le := fun a b : ℝ => open Classical in decide (a ≤ b))
    (by intro a b; simp only [decide_eq_true_eq]; exact le_total a b)
    (by intro a b c; simp only [decide_eq_true_eq]; exact le_trans) l
  refine this.imp ?_
  intro a b h; simpa using h

/-- **C24.** Adding any phase to a closed path of positive length gives a closed path of the same length,
starting at distance `l` along the (periodically continued) original, tracing exactly the same points,
with the same corners (old breakpoints and old starting point) in ascending order, each at its old
location. -/
theorem C24_add_phase {p : Path} (hp : GoodPath p) (hL : 0 < p.length) (hc : p.func 0 = p.func p.length)
    (l : ℝ) :
    ∃ r, p.addPhase l = some r ∧ GoodPath r ∧ r.length = p.length ∧ r.name = p.name ∧
      r.func 0 = r.func r.length ∧
      (∀ u v, 0 ≤ u → u ≤ p.length → 0 ≤ v → v ≤ p.length → (∃ n : ℤ, v = l + u + n * p.length) →
        r.func u = p.func v) ∧
      (fun u => r.func u) '' {u | 0 ≤ u ∧ u ≤ p.length} = (fun u => p.func u) '' {u | 0 ≤ u ∧ u ≤ p.length} ∧
      r.breaks.length = p.breaks.length + 1 ∧
      (∀ c ∈ p.breaks, ∃ d ∈ r.breaks, r.func d = p.func c) ∧
      (∃ d ∈ r.breaks, r.func d = p.func 0) ∧
      (∀ d ∈ r.breaks, r.func d = p.func 0 ∨ ∃ c ∈ p.breaks, r.func d = p.func c) := by
  obtain ⟨a, ha⟩ := hp.defined 0 le_rfl hL.le
  have hcl : p.isClosed = some true := by
    simp [Path.isClosed, Path.start, Path.endpoint, ha, ← hc, pointsClose_self]
  have hform : p.addPhase l = some (Path.mk (fun u => p.func (pyMod (l + u) p.length)) p.length
      (pySorted ((p.breaks ++ [0]).map (fun b => pyMod (b - l) p.length))) p.name) := by
    simp [Path.addPhase, hcl, hL.ne']
  have key : ∀ u v, 0 ≤ v → v ≤ p.length → (∃ n : ℤ, v = l + u + n * p.length) →
      p.func (pyMod (l + u) p.length) = p.func v := by
    rintro u v hv0 hv1 ⟨n, hn⟩
    rcases hv1.lt_or_eq with h | h
    · rw [pyMod_unique hL hv0 h (-n) (by push_cast; linarith)]
    · rw [pyMod_unique hL le_rfl hL (1 - n) (by push_cast; rw [h] at hn; linarith), h, hc]
  have keyb : ∀ c, 0 ≤ c → c ≤ p.length → p.func (pyMod (l + pyMod (c - l) p.length) p.length) = p.func c := by
    intro c h0 h1
    obtain ⟨n, hn⟩ := pyMod_exists (c - l) (b := p.length)
    exact key _ c h0 h1 ⟨n, by linarith⟩
  refine ⟨_, hform, ⟨hL.le, pySorted_pairwise _, ?_, ?_⟩, rfl, rfl, ?_, ?_, ?_, ?_, ?_, ?_, ?_⟩
  · intro b hb
    have hb' := (pySorted_perm _).mem_iff.1 hb
    simp only [List.mem_map] at hb'
    obtain ⟨c, _, rfl⟩ := hb'
    exact ⟨pyMod_nonneg hL, (pyMod_lt hL).le⟩
  · intro u _ _
    exact hp.defined _ (pyMod_nonneg hL) (pyMod_lt hL).le
  · show p.func (pyMod (l + 0) p.length) = p.func (pyMod (l + p.length) p.length)
    obtain ⟨n, hn⟩ := pyMod_exists (l + 0) (b := p.length)
    exact (key p.length _ (pyMod_nonneg hL) (pyMod_lt hL).le ⟨-n - 1, by push_cast; linarith⟩).symm
  · intro u v _ _ hv0 hv1 hn
    exact key u v hv0 hv1 hn
  · ext q
    constructor
    · rintro ⟨u, _, rfl⟩
      exact ⟨_, ⟨pyMod_nonneg hL, (pyMod_lt hL).le⟩, rfl⟩
    · rintro ⟨v, ⟨hv0, hv1⟩, rfl⟩
      obtain ⟨n, hn⟩ := pyMod_exists (v - l) (b := p.length)
      exact ⟨pyMod (v - l) p.length, ⟨pyMod_nonneg hL, (pyMod_lt hL).le⟩,
        key _ v hv0 hv1 ⟨n, by linarith⟩⟩
  · show (pySorted _).length = _
    rw [(pySorted_perm _).length_eq]; simp
  · intro c hcb
    refine ⟨pyMod (c - l) p.length, (pySorted_perm _).mem_iff.2 ?_, ?_⟩
    · exact List.mem_map.2 ⟨c, by simp [hcb], rfl⟩
    · exact keyb c (hp.inside c hcb).1 (hp.inside c hcb).2
  · exact ⟨pyMod (0 - l) p.length, (pySorted_perm _).mem_iff.2 (List.mem_map.2 ⟨0, by simp, rfl⟩),
      keyb 0 le_rfl hL.le⟩
  · intro d hd
    obtain ⟨c, hcm, rfl⟩ := List.mem_map.1 ((pySorted_perm _).mem_iff.1 hd)
    rcases List.mem_append.1 hcm with h | h
    · exact Or.inr ⟨c, h, keyb c (hp.inside c h).1 (hp.inside c h).2⟩
    · left
      simp at h; subst h
      exact keyb 0 le_rfl hL.le

/-- **C24**, refusal: an open path gets no phase. -/
theorem C24_open_refused {p : Path} (h : p.isClosed = some false) (l : ℝ) : p.addPhase l = none := by
  simp [Path.addPhase, h]

/-- a closed path: there and back along the x-axis -/
noncomputable def exLoop : Path := { func := fun t => some ⟨if t ≤ 1 then t else 2 - t, 0, 0⟩, length := 2, breaks := [1] }

example : GoodPath exLoop ∧ 0 < exLoop.length ∧ exLoop.func 0 = exLoop.func exLoop.length := by
  refine ⟨⟨by simp [exLoop], by simp [exLoop], by simp [exLoop], fun u _ _ => ⟨_, rfl⟩⟩, by simp [exLoop], ?_⟩
  simp only [exLoop]; norm_num

end Traceon
