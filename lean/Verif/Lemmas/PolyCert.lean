import Mathlib.Analysis.SpecialFunctions.Log.Deriv
import Mathlib.Analysis.SpecialFunctions.Log.Basic
import Mathlib.Tactic.FieldSimp
import Mathlib.Tactic.Linarith
import Mathlib.Tactic.Positivity
import Mathlib.Tactic.GCongr

/-!
# Bounds for functions `P(p) + log(1/p) Q(p)` with polynomials with integer coefficients

The bounds are computed with integers by the kernel; the theorems of this file say that what is
computed is a bound for all `p` of an interval.
-/
namespace Traceon.Cert

/-- The value of a polynomial given by its list of coefficients. -/
noncomputable def pe : List ℤ → ℝ → ℝ
  | [], _ => 0
  | a :: P, x => a + x * pe P x

/-- Sum of polynomials. -/
def padd : List ℤ → List ℤ → List ℤ
  | [], Q => Q
  | P, [] => P
  | a :: P, b :: Q => (a + b) :: padd P Q

/-- Multiple of a polynomial. -/
def psmul (k : ℤ) (P : List ℤ) : List ℤ := P.map (fun a => k * a)

/-- Product of polynomials. -/
def pmul : List ℤ → List ℤ → List ℤ
  | [], _ => []
  | [a], Q => psmul a Q
  | a :: P, Q => padd (psmul a Q) (0 :: pmul P Q)

/-- Derivative of a polynomial. -/
def pderiv : List ℤ → List ℤ
  | [] => []
  | _ :: P => padd P (0 :: pderiv P)

/-- The polynomial in `v` that is `P ((W - v) / M)` times `M` to the degree. -/
def phom (W M : ℤ) : List ℤ → List ℤ
  | [] => []
  | a :: P => padd [a * M ^ P.length] (pmul [W, -1] (phom W M P))

/-- A bound for `|P v|` with `|v| ≤ 1`. -/
def pabs : List ℤ → ℤ
  | [] => 0
  | a :: P => |a| + pabs P

theorem pe_padd (P Q : List ℤ) (x : ℝ) : pe (padd P Q) x = pe P x + pe Q x := by
  induction P generalizing Q with
  | nil => simp [padd, pe]
  | cons a P ih =>
    cases Q with
    | nil => simp [padd, pe]
    | cons b Q => simp only [padd, pe, ih]; push_cast; ring

theorem pe_psmul (k : ℤ) (P : List ℤ) (x : ℝ) : pe (psmul k P) x = k * pe P x := by
  induction P with
  | nil => simp [psmul, pe]
  | cons a P ih =>
    change ((k * a : ℤ) : ℝ) + x * pe (psmul k P) x = k * (a + x * pe P x)
    rw [ih]; push_cast; ring

theorem pe_pmul (P Q : List ℤ) (x : ℝ) : pe (pmul P Q) x = pe P x * pe Q x := by
  induction P with
  | nil => simp [pmul, pe]
  | cons a P ih =>
    cases P with
    | nil => simp [pmul, pe, pe_psmul]
    | cons b P => simp only [pmul, pe_padd, pe_psmul, pe, ih]; push_cast; ring

theorem pe_phom {W M : ℤ} (hM : (M : ℝ) ≠ 0) (P : List ℤ) (v : ℝ) :
    M * pe (phom W M P) v = M ^ P.length * pe P ((W - v) / M) := by
  induction P with
  | nil => simp [phom, pe]
  | cons a P ih =>
    simp only [phom, pe_padd, pe_pmul, pe, List.length_cons]
    push_cast
    have e : (M : ℝ) ^ (P.length + 1) * (a + (W - v) / M * pe P ((W - v) / M)) =
        M * (a * M ^ P.length) + (W - v) * (M ^ P.length * pe P ((W - v) / M)) := by
      rw [pow_succ]; field_simp
    rw [e, ← ih]
    ring

theorem hasDerivAt_pe (P : List ℤ) (x : ℝ) : HasDerivAt (pe P) (pe (pderiv P) x) x := by
  induction P with
  | nil => simpa [pderiv, pe] using hasDerivAt_const x (0 : ℝ)
  | cons a P ih =>
    have h := ((hasDerivAt_id x).mul ih).const_add (a : ℝ)
    refine h.congr_deriv ?_
    simp only [pderiv, pe_padd, pe, id]
    push_cast; ring

theorem pabs_nonneg (P : List ℤ) : 0 ≤ pabs P := by
  induction P with
  | nil => simp [pabs]
  | cons a P ih => simp only [pabs]; positivity

theorem abs_pe_le {x : ℝ} (hx : |x| ≤ 1) (P : List ℤ) : |pe P x| ≤ (pabs P : ℝ) := by
  induction P with
  | nil => simp [pe, pabs]
  | cons a P ih =>
    simp only [pe, pabs]
    push_cast
    refine (abs_add_le _ _).trans (add_le_add le_rfl ?_)
    rw [abs_mul]
    calc |x| * |pe P x| ≤ 1 * |pe P x| := by gcongr
      _ ≤ _ := by rw [one_mul]; exact ih

theorem pe_map_range (f : ℕ → ℤ) (n : ℕ) (x : ℝ) :
    pe ((List.range n).map f) x = ∑ k ∈ Finset.range n, (f k : ℝ) * x ^ k := by
  induction n generalizing f with
  | zero => simp [pe]
  | succ n ih =>
    rw [List.range_succ_eq_map, List.map_cons, List.map_map, Finset.sum_range_succ']
    simp only [pe, ih, Finset.mul_sum, Function.comp_apply, pow_zero, mul_one]
    rw [add_comm]
    congr 1
    refine Finset.sum_congr rfl (fun k _ => ?_)
    rw [pow_succ]; ring

/-- The partial sum of the series of `-log (1 - v/W)`, times `m! W^m`. -/
def logPoly (W : ℤ) (m : ℕ) : List ℤ :=
  0 :: (List.range m).map (fun k => ((m.factorial / (k + 1) : ℕ) : ℤ) * W ^ (m - 1 - k))

theorem pe_logPoly {W : ℤ} (hW : (W : ℝ) ≠ 0) (m : ℕ) (v : ℝ) :
    pe (logPoly W m) v = m.factorial * W ^ m * ∑ k ∈ Finset.range m, (v / W) ^ (k + 1) / ((k : ℝ) + 1) := by
  unfold logPoly
  simp only [pe, pe_map_range, Finset.mul_sum]
  rw [Int.cast_zero, zero_add]
  refine Finset.sum_congr rfl (fun k hk => ?_)
  rw [Finset.mem_range] at hk
  have hd : (k + 1) ∣ m.factorial := Nat.dvd_factorial (by omega) (by omega)
  obtain ⟨q, hq⟩ := hd
  rw [hq, Nat.mul_div_cancel_left _ (by omega)]
  have hm : m = (m - 1 - k) + (k + 1) := by omega
  have e : (W : ℝ) ^ m = W ^ (m - 1 - k) * W ^ (k + 1) := by rw [← pow_add, ← hm]
  rw [e]
  have hk1 : ((k : ℝ) + 1) ≠ 0 := by positivity
  push_cast
  rw [div_pow, pow_succ v k]
  field_simp

/-- `-log (1 - x)` and its partial sums. -/
theorem log_near {x : ℝ} (hx : |x| < 1) (n : ℕ) :
    |-Real.log (1 - x) - ∑ k ∈ Finset.range n, x ^ (k + 1) / ((k : ℝ) + 1)| ≤ |x| ^ (n + 1) / (1 - |x|) := by
  have h := Real.abs_log_sub_add_sum_range_le hx n
  rw [← abs_neg]
  convert h using 2
  ring

/-- The check for one interval, `(W - 1)/M ≤ p ≤ W/M`, that `|P(p) + log(1/p) Q(p)| ≤ t/10²⁰ D`. `l/D` is
an approximation of `log (M/W)`; the error of it and of the series is at most `r/10²⁰`. -/
def blockOk (D : ℤ) (P Q : List ℤ) (l r t : ℤ) (W M : ℤ) (m : ℕ) : Bool :=
  let s : ℤ := m.factorial * W ^ m
  let Ph := phom W M P
  let Qh := phom W M Q
  let lam := padd [l * s] (psmul D (logPoly W m))
  decide (M * (10 ^ 20 * pabs (padd (psmul (D * s) Ph) (pmul lam Qh)) + r * (D * s * pabs Qh)) ≤
    t * (D * (D * s * M ^ P.length)))

theorem blockOk_sound {D : ℤ} (hD : 0 < D) {P Q : List ℤ} (hPQ : P.length = Q.length) {l r t W M : ℤ}
    {m : ℕ} (hW : 2 ≤ W) (hM : 0 < M) (hok : blockOk D P Q l r t W M m = true)
    (hl : |-Real.log ((W : ℝ) / M) - l / D| + (1 / (W : ℝ)) ^ (m + 1) / (1 - 1 / (W : ℝ)) ≤ r / 10 ^ 20) {p : ℝ}
    (hp1 : ((W : ℝ) - 1) / M ≤ p) (hp2 : p ≤ (W : ℝ) / M) :
    |pe P p + Real.log (1 / p) * pe Q p| ≤ t / 10 ^ 20 * D := by
  have hW2 : (2 : ℝ) ≤ W := by exact_mod_cast hW
  have hW0 : (0 : ℝ) < W := by linarith
  have hM0 : (0 : ℝ) < M := by exact_mod_cast hM
  have hD0 : (0 : ℝ) < D := by exact_mod_cast hD
  set v : ℝ := W - M * p with hv
  have hv0 : 0 ≤ v := by
    rw [le_div_iff₀ hM0] at hp2; rw [hv]; linarith
  have hv1 : v ≤ 1 := by
    rw [div_le_iff₀ hM0] at hp1; rw [hv]; linarith
  have hva : |v| ≤ 1 := by rw [abs_of_nonneg hv0]; exact hv1
  have hpv : (W - v) / M = p := by rw [hv]; field_simp; ring
  set x : ℝ := v / W with hx
  have hx0 : 0 ≤ x := by positivity
  have hx1 : x ≤ 1 / W := by rw [hx]; gcongr
  have hW' : (1 : ℝ) / W ≤ 1 / 2 := by
    rw [div_le_div_iff₀ hW0 (by norm_num)]; linarith
  have hxlt : |x| < 1 := by rw [abs_of_nonneg hx0]; linarith
  have hpx : p = (W : ℝ) / M * (1 - x) := by rw [← hpv, hx]; field_simp
  have hlog : Real.log (1 / p) = -Real.log ((W : ℝ) / M) + -Real.log (1 - x) := by
    rw [hpx, one_div, Real.log_inv, Real.log_mul (by positivity) (by linarith)]
    ring
  set S : ℝ := ∑ k ∈ Finset.range m, x ^ (k + 1) / ((k : ℝ) + 1) with hS
  have hrem : |-Real.log (1 - x) - S| ≤ (1 / (W : ℝ)) ^ (m + 1) / (1 - 1 / (W : ℝ)) := by
    refine (log_near hxlt m).trans ?_
    rw [abs_of_nonneg hx0]
    have : (0 : ℝ) < 1 - 1 / W := by linarith
    gcongr
  have herr : |Real.log (1 / p) - (l / D + S)| ≤ r / 10 ^ 20 := by
    refine le_trans ?_ hl
    rw [hlog]
    have : -Real.log ((W : ℝ) / M) + -Real.log (1 - x) - (l / D + S) =
      (-Real.log ((W : ℝ) / M) - l / D) + (-Real.log (1 - x) - S) := by ring
    rw [this]
    exact (abs_add_le _ _).trans (add_le_add le_rfl hrem)
  unfold blockOk at hok
  simp only [decide_eq_true_eq] at hok
  have hok' : (M : ℝ) * (10 ^ 20 * (pabs (padd (psmul (D * (m.factorial * W ^ m)) (phom W M P))
      (pmul (padd [l * (m.factorial * W ^ m)] (psmul D (logPoly W m))) (phom W M Q))) : ℝ) +
      r * (D * (m.factorial * W ^ m) * (pabs (phom W M Q) : ℝ))) ≤
      t * (D * (D * (m.factorial * W ^ m) * M ^ P.length)) := by
    exact_mod_cast hok
  set s : ℝ := m.factorial * (W : ℝ) ^ m with hs
  have hs0 : 0 < s := by positivity
  have hP := pe_phom (W := W) hM0.ne' P v
  have hQ := pe_phom (W := W) hM0.ne' Q v
  rw [hpv] at hP hQ
  rw [← hPQ] at hQ
  have b1 := abs_pe_le hva (padd (psmul (D * (m.factorial * W ^ m)) (phom W M P))
      (pmul (padd [l * (m.factorial * W ^ m)] (psmul D (logPoly W m))) (phom W M Q)))
  have b2 := abs_pe_le hva (phom W M Q)
  rw [pe_padd, pe_psmul, pe_pmul, pe_padd, pe_psmul, pe_logPoly hW0.ne'] at b1
  simp only [pe] at b1
  push_cast at b1
  rw [← hs, mul_zero, add_zero, ← hx] at b1
  rw [← hS] at b1
  -- the polynomial part
  have e1 : D * s * pe (phom W M P) v + (l * s + D * (s * S)) * pe (phom W M Q) v =
      D * s * (pe (phom W M P) v + (l / D + S) * pe (phom W M Q) v) := by
    field_simp
  rw [e1] at b1
  have hMn : (0 : ℝ) < M ^ P.length := by positivity
  have key : (M : ℝ) ^ P.length * (pe P p + Real.log (1 / p) * pe Q p) =
      M * ((pe (phom W M P) v + (l / D + S) * pe (phom W M Q) v) +
        (Real.log (1 / p) - (l / D + S)) * pe (phom W M Q) v) := by
    rw [mul_add, ← hP, mul_left_comm, ← hQ]
    ring
  have hfin : (D * s) * ((M : ℝ) ^ P.length * |pe P p + Real.log (1 / p) * pe Q p|) ≤
      (D * s) * ((M : ℝ) ^ P.length * (t / 10 ^ 20 * D)) := by
    rw [← abs_of_pos hMn, ← abs_mul, abs_of_pos hMn, key, abs_mul, abs_of_pos hM0]
    calc (D * s) * (M * |(pe (phom W M P) v + (l / D + S) * pe (phom W M Q) v) +
          (Real.log (1 / p) - (l / D + S)) * pe (phom W M Q) v|)
        ≤ (D * s) * (M * (|pe (phom W M P) v + (l / D + S) * pe (phom W M Q) v| +
          r / 10 ^ 20 * (pabs (phom W M Q) : ℝ))) := by
          gcongr
          refine (abs_add_le _ _).trans (add_le_add le_rfl ?_)
          rw [abs_mul]
          exact mul_le_mul herr b2 (abs_nonneg _) ((abs_nonneg _).trans herr)
      _ = M * (|D * s * (pe (phom W M P) v + (l / D + S) * pe (phom W M Q) v)| +
          r / 10 ^ 20 * (D * s * (pabs (phom W M Q) : ℝ))) := by
          rw [abs_mul, abs_of_pos (by positivity : 0 < D * s)]; ring
      _ ≤ M * ((pabs (padd (psmul (D * (m.factorial * W ^ m)) (phom W M P))
            (pmul (padd [l * (m.factorial * W ^ m)] (psmul D (logPoly W m))) (phom W M Q))) : ℝ) +
          r / 10 ^ 20 * (D * s * (pabs (phom W M Q) : ℝ))) := by gcongr
      _ ≤ (D * s) * ((M : ℝ) ^ P.length * (t / 10 ^ 20 * D)) := by
          have h10 : (0 : ℝ) < 10 ^ 20 := by positivity
          rw [← mul_le_mul_iff_right₀ h10]
          calc _ = _ := ?_
            _ ≤ _ := hok'
            _ = _ := ?_
          · field_simp
          · field_simp
  exact le_of_mul_le_mul_left (le_of_mul_le_mul_left hfin (by positivity)) hMn

theorem log_inv_le {p : ℝ} (hp : 0 < p) : p * Real.log (1 / p) ≤ 2 * √p := by
  have hs : 0 < √p := Real.sqrt_pos.2 hp
  have h1 : p = √p * √p := (Real.mul_self_sqrt hp.le).symm
  have h2 : Real.log (1 / p) = 2 * Real.log (1 / √p) := by
    conv_lhs => rw [h1]
    rw [one_div, one_div, Real.log_inv, Real.log_inv, Real.log_mul hs.ne' hs.ne']
    ring
  have h3 := Real.log_le_sub_one_of_pos (show 0 < 1 / √p by positivity)
  rw [h2]
  have h4 : Real.log (1 / √p) ≤ 1 / √p := by linarith
  calc p * (2 * Real.log (1 / √p)) ≤ p * (2 * (1 / √p)) := by gcongr
    _ = 2 * √p := by
      rw [mul_one_div, ← mul_div_assoc, div_eq_iff hs.ne', mul_assoc, ← h1]
      ring

/-- The check for `p ≤ 4⁻ⁿ`, for polynomials without a constant term: the terms of first order, and the rest. -/
def tailOk (a b : ℤ) (P Q : List ℤ) (D t : ℤ) (n : ℕ) : Bool :=
  decide (10 ^ 20 * (2 ^ n * |a| + pabs P + 2 * 4 ^ n * |b| + 2 * pabs Q) ≤ t * D * 8 ^ n)

theorem tailOk_sound {D : ℤ} {a b : ℤ} {P Q : List ℤ} {n : ℕ} {t : ℤ} (h : tailOk a b P Q D t n = true) {p : ℝ}
    (hp : 0 < p) (hp2 : p ≤ 1 / 4 ^ n) :
    |pe (0 :: a :: P) p + Real.log (1 / p) * pe (0 :: b :: Q) p| ≤ t / 10 ^ 20 * D := by
  have hle1 : p ≤ 1 := hp2.trans (by
    rw [div_le_one (by positivity)]; exact one_le_pow₀ (by norm_num))
  have hpa : |p| ≤ 1 := by rw [abs_of_pos hp]; exact hle1
  have hL : 0 ≤ Real.log (1 / p) := Real.log_nonneg (by rw [le_div_iff₀ hp]; linarith)
  have hPb := abs_pe_le hpa P
  have hQb := abs_pe_le hpa Q
  have hsq : √p ≤ 1 / 2 ^ n := by
    rw [Real.sqrt_le_left (by positivity)]
    refine hp2.trans (le_of_eq ?_)
    rw [div_pow, one_pow, ← pow_mul, mul_comm n 2, pow_mul]; norm_num
  have hpL : p * Real.log (1 / p) ≤ 2 / 2 ^ n := by
    refine (log_inv_le hp).trans ?_
    calc 2 * √p ≤ 2 * (1 / 2 ^ n) := by gcongr
      _ = 2 / 2 ^ n := by ring
  have h0 : 0 ≤ p * Real.log (1 / p) := mul_nonneg hp.le hL
  have e : pe (0 :: a :: P) p + Real.log (1 / p) * pe (0 :: b :: Q) p =
      p * (a + p * pe P p) + (p * Real.log (1 / p)) * (b + p * pe Q p) := by
    simp only [pe]; push_cast; ring
  have hab : ∀ (c : ℤ) (R : List ℤ), |pe R p| ≤ (pabs R : ℝ) → |(c : ℝ) + p * pe R p| ≤ |(c : ℝ)| + 1 / 4 ^ n * (pabs R : ℝ) := by
    intro c R hR
    refine (abs_add_le _ _).trans (add_le_add le_rfl ?_)
    rw [abs_mul, abs_of_pos hp]
    exact mul_le_mul hp2 hR (abs_nonneg _) (by positivity)
  have k1 := hab a P hPb
  have k2 := hab b Q hQb
  unfold tailOk at h
  simp only [decide_eq_true_eq] at h
  have h' : (10 : ℝ) ^ 20 * (2 ^ n * |(a : ℝ)| + (pabs P : ℝ) + 2 * 4 ^ n * |(b : ℝ)| + 2 * (pabs Q : ℝ)) ≤ t * D * 8 ^ n := by
    exact_mod_cast h
  have hPn : (0 : ℝ) ≤ (pabs P : ℝ) := (abs_nonneg _).trans hPb
  have hQn : (0 : ℝ) ≤ (pabs Q : ℝ) := (abs_nonneg _).trans hQb
  have h8 : (8 : ℝ) ^ n = 2 ^ n * 4 ^ n := by rw [← mul_pow]; norm_num
  have h84 : (2 : ℝ) ^ n ≤ 4 ^ n := by gcongr; norm_num
  have hb : |pe (0 :: a :: P) p + Real.log (1 / p) * pe (0 :: b :: Q) p| ≤
      1 / 4 ^ n * (|(a : ℝ)| + 1 / 4 ^ n * (pabs P : ℝ)) + 2 / 2 ^ n * (|(b : ℝ)| + 1 / 4 ^ n * (pabs Q : ℝ)) := by
    rw [e]
    refine (abs_add_le _ _).trans (add_le_add ?_ ?_)
    · rw [abs_mul, abs_of_pos hp]
      exact mul_le_mul hp2 k1 (abs_nonneg _) (by positivity)
    · rw [abs_mul, abs_of_nonneg h0]
      exact mul_le_mul hpL k2 (abs_nonneg _) (by positivity)
  refine hb.trans ?_
  have h2n : (0 : ℝ) < 2 ^ n := by positivity
  have h4n : (0 : ℝ) < 4 ^ n := by positivity
  have h41 : (1 : ℝ) ≤ 4 ^ n := one_le_pow₀ (by norm_num)
  have h24 : (2 : ℝ) ^ n / 4 ^ n ≤ 1 := by rw [div_le_one h4n]; exact h84
  have : 1 / 4 ^ n * (|(a : ℝ)| + 1 / 4 ^ n * (pabs P : ℝ)) + 2 / 2 ^ n * (|(b : ℝ)| + 1 / 4 ^ n * (pabs Q : ℝ)) =
      (2 ^ n * |(a : ℝ)| + (2 ^ n / 4 ^ n) * (pabs P : ℝ) + 2 * 4 ^ n * |(b : ℝ)| + 2 * (pabs Q : ℝ)) / 8 ^ n := by
    rw [h8]
    generalize (2 : ℝ) ^ n = X at *
    generalize (4 : ℝ) ^ n = Y at *
    field_simp
    ring
  rw [this, div_le_iff₀ (by positivity)]
  have hm : (2 : ℝ) ^ n / 4 ^ n * (pabs P : ℝ) ≤ 1 * (pabs P : ℝ) := by gcongr
  have h10 : (0 : ℝ) < 10 ^ 20 := by positivity
  have e2 : t / 10 ^ 20 * D * 8 ^ n = (t * D * 8 ^ n) / (10 ^ 20 : ℝ) := by ring
  rw [e2, le_div_iff₀ h10]
  linarith

end Traceon.Cert
