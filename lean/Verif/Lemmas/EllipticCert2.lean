import Verif.Lemmas.EllipticCert

/-!
# Soundness of the certificates on the whole of (0, 1]
-/
namespace Traceon.Cert

/-- The value of a polynomial at an integer. -/
def pz : List ℤ → ℤ → ℤ
  | [], _ => 0
  | a :: P, x => a + x * pz P x

theorem cast_pz (P : List ℤ) (x : ℤ) : ((pz P x : ℤ) : ℝ) = pe P x := by
  induction P with
  | nil => simp [pz, pe]
  | cons a P ih => simp only [pz, pe]; push_cast; rw [ih]

/-- The check that `l / den` is `-log (W/128)` with an error of at most `10⁻²¹`. -/
def lnOk (W l : ℤ) : Bool :=
  decide (10 ^ 22 * |l * (Nat.factorial 70 * 128 ^ 70) - den * pz (logPoly 128 70) (128 - W)| ≤ den * (Nat.factorial 70 * 128 ^ 70))

theorem lnOk_sound {W : ℕ} {l : ℤ} (h1 : 64 ≤ W) (h2 : W ≤ 128) (h : lnOk W l = true) :
    |-Real.log ((W : ℝ) / 128) - l / den| ≤ 1 / 10 ^ 20 / 5 := by
  have hW1 : (64 : ℝ) ≤ W := by exact_mod_cast h1
  have hW2 : (W : ℝ) ≤ 128 := by exact_mod_cast h2
  set x : ℝ := (128 - W) / 128 with hx
  have hx0 : 0 ≤ x := by rw [hx]; apply div_nonneg <;> linarith
  have hx1 : x ≤ 1 / 2 := by rw [hx]; linarith
  have hlog := log_near (x := x) (by rw [abs_of_nonneg hx0]; linarith) 70
  have e : 1 - x = (W : ℝ) / 128 := by rw [hx]; ring
  rw [e, abs_of_nonneg hx0] at hlog
  have hr : x ^ 71 / (1 - x) ≤ 1 / 10 ^ 20 / 10 := by
    calc x ^ 71 / (1 - x) ≤ (1 / 2) ^ 71 / (1 - 1 / 2) := by gcongr
      _ ≤ _ := by norm_num
  have hp := pe_logPoly (W := 128) (by norm_num) 70 (128 - W : ℝ)
  unfold lnOk at h
  simp only [decide_eq_true_eq] at h
  have h' : (10 : ℝ) ^ 22 * |(l : ℝ) * (Nat.factorial 70 * 128 ^ 70) - den * pe (logPoly 128 70) (128 - W : ℝ)| ≤
      den * (Nat.factorial 70 * 128 ^ 70) := by
    have e2 : pe (logPoly 128 70) (128 - W : ℝ) = ((pz (logPoly 128 70) (128 - W) : ℤ) : ℝ) := by
      rw [cast_pz]; push_cast; rfl
    rw [e2]
    exact_mod_cast h
  set S : ℝ := ∑ k ∈ Finset.range 70, x ^ (k + 1) / ((k : ℝ) + 1) with hS
  have hp' : pe (logPoly 128 70) (128 - W : ℝ) = (Nat.factorial 70 * 128 ^ 70 : ℝ) * S := by
    rw [hp, hS]; push_cast; rfl
  rw [hp'] at h'
  set F : ℝ := (Nat.factorial 70 * 128 ^ 70 : ℝ) with hF
  have hF0 : 0 < F := by positivity
  have hD0 : (0 : ℝ) < den := by unfold den; norm_num
  have e3 : (l : ℝ) * F - den * (F * S) = (den * F) * (l / den - S) := by field_simp
  rw [e3, abs_mul, abs_of_pos (by positivity : 0 < (den : ℝ) * F)] at h'
  have h3 : |(l : ℝ) / den - S| ≤ 1 / 10 ^ 22 := by
    rw [le_div_iff₀ (by positivity)]
    have hDF : 0 < (den : ℝ) * F := by positivity
    have : (den : ℝ) * F * (|(l : ℝ) / den - S| * 10 ^ 22) ≤ (den : ℝ) * F * 1 := by linarith
    exact le_of_mul_le_mul_left this hDF
  have h4 := abs_sub_le (-Real.log ((W : ℝ) / 128)) S (l / den)
  rw [abs_sub_comm S] at h4
  have h5 : (1 : ℝ) / 10 ^ 22 ≤ 1 / 10 ^ 20 / 10 := by norm_num
  linarith

theorem lnTab_check : ∀ k : Fin 64, lnOk (65 + (k.val : ℤ)) (lnTab.getD k.val 0) = true := by decide +kernel

theorem ln2_check : lnOk 64 ln2 = true := by decide +kernel

theorem log_two_near : |Real.log 2 - ln2 / den| ≤ 1 / 10 ^ 20 / 5 := by
  have h := lnOk_sound (W := 64) le_rfl (by norm_num) (l := ln2) (by exact_mod_cast ln2_check)
  have e : -Real.log (((64 : ℕ) : ℝ) / 128) = Real.log 2 := by
    rw [← Real.log_inv]; norm_num
  rwa [e] at h

theorem lnTab_near {k : ℕ} (hk : k < 64) :
    |-Real.log (((65 + k : ℕ) : ℝ) / 128) - lnTab.getD k 0 / den| ≤ 1 / 10 ^ 20 / 5 :=
  lnOk_sound (W := 65 + k) (by omega) (by omega) (by
    have := lnTab_check ⟨k, hk⟩
    simpa using this)

/-- The check for small arguments, on the lists of coefficients. -/
def tailOkL (P Q : List ℤ) (t : ℤ) (n : ℕ) : Bool :=
  match P, Q with
  | c :: a :: P, d :: b :: Q => decide (c = 0) && decide (d = 0) && tailOk a b P Q den t n
  | _, _ => false

theorem exists_row {p : ℝ} (h1 : p ≤ 1 / 2) : ∀ n : ℕ, 1 / 2 ^ (n + 1) < p →
    ∃ i < n, 1 / 2 ^ (i + 2) < p ∧ p ≤ 1 / 2 ^ (i + 1) := by
  intro n
  induction n with
  | zero => intro h; norm_num at h; linarith
  | succ n ih =>
    intro h
    rcases le_or_gt p (1 / 2 ^ (n + 1)) with h2 | h2
    · exact ⟨n, by omega, h, h2⟩
    · obtain ⟨i, hi, h3⟩ := ih h2
      exact ⟨i, by omega, h3⟩

/-- If all checks succeed then the bound holds for every `p` with `0 < p ≤ 1`. -/
theorem checks_sound {P Q : List ℤ} {t : ℤ} {n : ℕ} (hn : 1 ≤ n) (hn2 : n ≤ 20) (hlen : P.length = Q.length)
    (htop : ∀ j < 4, topOk P Q t j = true) (hrow : ∀ i < 2 * n - 1, rowOk P Q t i = true)
    (htail : tailOkL P Q t n = true) {p : ℝ} (hp : 0 < p) (hp1 : p ≤ 1) :
    |pe P p + Real.log (1 / p) * pe Q p| ≤ t / 10 ^ 20 * den := by
  have hden : 0 < den := by unfold den; norm_num
  rcases le_or_gt p (1 / 4 ^ n) with h0 | h0
  · unfold tailOkL at htail
    split at htail
    · rename_i c a P d b Q
      simp only [Bool.and_eq_true, decide_eq_true_eq] at htail
      obtain ⟨⟨rfl, rfl⟩, h⟩ := htail
      exact tailOk_sound h hp h0
    · cases htail
  rcases le_or_gt p (1 / 2) with h1 | h1
  · obtain ⟨i, hi, hi1, hi2⟩ := exists_row h1 (2 * n - 1) (by
      refine lt_of_eq_of_lt ?_ h0
      rw [show 2 * n - 1 + 1 = 2 * n by omega, pow_mul]
      norm_num)
    have hr := hrow i hi
    unfold rowOk at hr
    rw [List.all_eq_true] at hr
    set M : ℤ := 16 * 2 ^ (i + 1) with hM
    have hMr : (M : ℝ) = 16 * 2 ^ (i + 1) := by rw [hM]; push_cast; rfl
    have hM0 : (0 : ℝ) < M := by rw [hMr]; positivity
    set W := ⌈(M : ℝ) * p⌉₊ with hW
    have hW1 : 9 ≤ W := by
      have : (8 : ℝ) < M * p := by
        rw [hMr]
        calc (8 : ℝ) = 16 * 2 ^ (i + 1) * (1 / 2 ^ (i + 2)) := by rw [pow_succ 2 (i + 1)]; field_simp; norm_num
          _ < _ := by gcongr
      have := lt_of_lt_of_le this (Nat.le_ceil ((M : ℝ) * p))
      have : 8 < W := by exact_mod_cast this
      omega
    have hW2 : W ≤ 16 := by
      rw [hW, Nat.ceil_le, hMr]
      calc 16 * 2 ^ (i + 1) * p ≤ 16 * 2 ^ (i + 1) * (1 / 2 ^ (i + 1)) := by gcongr
        _ = ((16 : ℕ) : ℝ) := by push_cast; field_simp
    have hr' := hr (W - 9) (by rw [List.mem_range]; omega)
    have hWz : (9 + ((W - 9 : ℕ) : ℤ)) = (W : ℤ) := by push_cast [hW1]; ring
    rw [hWz] at hr'
    have hWr : ((W : ℤ) : ℝ) = (W : ℝ) := by push_cast; rfl
    have hW9 : (9 : ℝ) ≤ W := by exact_mod_cast hW1
    refine blockOk_sound hden hlen (W := W) (M := M) (by omega) (by rw [hM]; positivity) hr' ?_ ?_ ?_
    · have ht := lnTab_near (k := 8 * (W - 9) + 7) (by omega)
      have e1 : ((65 + (8 * (W - 9) + 7) : ℕ) : ℝ) / 128 = (W : ℝ) / 16 := by
        have : 65 + (8 * (W - 9) + 7) = 8 * W := by omega
        rw [this]; push_cast; ring
      rw [e1] at ht
      have e2 : -Real.log (((W : ℤ) : ℝ) / M) = (i + 1) * Real.log 2 + -Real.log ((W : ℝ) / 16) := by
        rw [hMr, hWr, ← div_div, Real.log_div (by positivity) (by positivity), Real.log_pow]
        push_cast; ring
      rw [e2, hWr]
      push_cast
      have e3 : (i + 1) * Real.log 2 + -Real.log ((W : ℝ) / 16) - ((i + 1) * (ln2 : ℝ) + (lnTab.getD (8 * (W - 9) + 7) 0 : ℝ)) / den =
          (i + 1) * (Real.log 2 - ln2 / den) + (-Real.log ((W : ℝ) / 16) - (lnTab.getD (8 * (W - 9) + 7) 0 : ℝ) / den) := by ring
      rw [e3]
      have b1 : |((i : ℝ) + 1) * (Real.log 2 - ln2 / den)| ≤ 40 * (1 / 10 ^ 20 / 5) := by
        rw [abs_mul, abs_of_nonneg (by positivity)]
        have : (i : ℝ) + 1 ≤ 40 := by
          have : (i : ℝ) < 39 := by exact_mod_cast (by omega : i < 39)
          linarith
        exact mul_le_mul this log_two_near (abs_nonneg _) (by norm_num)
      have b2 := (abs_add_le (((i : ℝ) + 1) * (Real.log 2 - ln2 / den)) (-Real.log ((W : ℝ) / 16) - (lnTab.getD (8 * (W - 9) + 7) 0 : ℝ) / den)).trans
        (add_le_add b1 ht)
      have b3 : (1 / (W : ℝ)) ^ (12 + 1) / (1 - 1 / (W : ℝ)) ≤ (1 / 9) ^ 13 / (1 - 1 / 9) := by
        have : 1 / (W : ℝ) ≤ 1 / 9 := by gcongr
        have h9 : (0:ℝ) < 1 - 1 / 9 := by norm_num
        gcongr
      have b4 : (1 / 9 : ℝ) ^ 13 / (1 - 1 / 9) + 41 * (1 / 10 ^ 20 / 5) ≤ 50000000 / 10 ^ 20 := by norm_num
      linarith
    · rw [hWr, div_le_iff₀ hM0, mul_comm]
      have := Nat.ceil_lt_add_one (mul_pos hM0 hp).le
      linarith
    · rw [hWr, le_div_iff₀ hM0, mul_comm]
      exact Nat.le_ceil _
  · set W := ⌈(128 : ℝ) * p⌉₊ with hW
    have hW1 : 65 ≤ W := by
      have : (64 : ℝ) < 128 * p := by linarith
      have := lt_of_lt_of_le this (Nat.le_ceil ((128 : ℝ) * p))
      have : 64 < W := by exact_mod_cast this
      omega
    have hW2 : W ≤ 128 := by
      rw [hW, Nat.ceil_le]; push_cast; linarith
    set j := (W - 65) / 16 with hj
    set k := (W - 65) % 16 with hk
    have hjk : 16 * j + k = W - 65 := Nat.div_add_mod _ _
    have hr := htop j (by omega)
    unfold topOk at hr
    rw [List.all_eq_true] at hr
    have hr' := hr k (by rw [List.mem_range]; omega)
    have hWz : (65 + 16 * (j : ℤ) + (k : ℤ)) = (W : ℤ) := by
      have : (16 * j + k : ℤ) = W - 65 := by
        have h' : ((16 * j + k : ℕ) : ℤ) = ((W - 65 : ℕ) : ℤ) := by rw [hjk]
        push_cast [hW1] at h'; linarith
      linarith
    rw [hWz, hjk] at hr'
    have hWr : ((W : ℤ) : ℝ) = (W : ℝ) := by push_cast; rfl
    have hW9 : (65 : ℝ) ≤ W := by exact_mod_cast hW1
    have hM0 : (0 : ℝ) < ((128 : ℤ) : ℝ) := by norm_num
    refine blockOk_sound hden hlen (W := W) (M := 128) (by omega) (by norm_num) hr' ?_ ?_ ?_
    · have ht := lnTab_near (k := W - 65) (by omega)
      have e1 : 65 + (W - 65) = W := by omega
      rw [e1] at ht
      rw [hWr]
      have b3 : (1 / (W : ℝ)) ^ (10 + 1) / (1 - 1 / (W : ℝ)) ≤ (1 / 65) ^ 11 / (1 - 1 / 65) := by
        have : 1 / (W : ℝ) ≤ 1 / 65 := by gcongr
        have h9 : (0:ℝ) < 1 - 1 / 65 := by norm_num
        gcongr
      have b4 : (1 / 65 : ℝ) ^ 11 / (1 - 1 / 65) + (1 / 10 ^ 20 / 5) ≤ 3 / 10 ^ 20 := by norm_num
      push_cast
      linarith
    · rw [hWr, div_le_iff₀ hM0, mul_comm]
      have := Nat.ceil_lt_add_one (mul_pos (show (0:ℝ) < 128 by norm_num) hp).le
      push_cast
      linarith
    · rw [hWr, le_div_iff₀ hM0, mul_comm]
      push_cast
      exact Nat.le_ceil _

end Traceon.Cert
