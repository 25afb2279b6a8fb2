import Verif.Model.Rounding
import Verif.Props.Charges
import Mathlib.Tactic.Linarith
import Mathlib.Tactic.FieldSimp
import Mathlib.Tactic.Positivity

/-!
# C106: rounding errors of potentials and fields
-/
namespace Traceon.Fp

/-- `y` is `x` up to `k` rounding errors. -/
def Rel (u : ℝ) (k : Nat) (x y : ℝ) : Prop := ∃ t, (1 - u) ^ k ≤ t ∧ t * (1 - u) ^ k ≤ 1 ∧ y = x * t

variable {u : ℝ}

theorem Rel.refl (u x : ℝ) : Rel u 0 x x := ⟨1, by simp, by simp, by simp⟩

theorem Rel.mono (h0 : 0 ≤ u) (h1 : u < 1) {k l : Nat} (hkl : k ≤ l) {x y : ℝ} (h : Rel u k x y) : Rel u l x y := by
  obtain ⟨t, ht, ht', rfl⟩ := h
  have hd : (0 : ℝ) < (1 - u) ^ k := pow_pos (by linarith) k
  have hle : (1 - u) ^ l ≤ (1 - u) ^ k := pow_le_pow_of_le_one (by linarith) (by linarith) hkl
  exact ⟨t, by linarith, le_trans (mul_le_mul_of_nonneg_left hle (by linarith)) ht', rfl⟩

theorem Rel.pos (h1 : u < 1) {k : Nat} {t : ℝ} (h : (1 - u) ^ k ≤ t) : 0 < t := lt_of_lt_of_le (pow_pos (by linarith) k) h

theorem Rel.mul (h1 : u < 1) {k l : Nat} {a b x y : ℝ} (h : Rel u k a x) (h' : Rel u l b y) : Rel u (k + l) (a * b) (x * y) := by
  obtain ⟨t, ht, ht', rfl⟩ := h
  obtain ⟨s, hs, hs', rfl⟩ := h'
  have d1 : (0 : ℝ) < (1 - u) ^ k := pow_pos (by linarith) k
  have d2 : (0 : ℝ) < (1 - u) ^ l := pow_pos (by linarith) l
  have t0 := Rel.pos h1 ht
  have s0 := Rel.pos h1 hs
  refine ⟨t * s, ?_, ?_, by ring⟩
  · rw [pow_add]; exact mul_le_mul ht hs d2.le t0.le
  · rw [pow_add]
    calc t * s * ((1 - u) ^ k * (1 - u) ^ l) = (t * (1 - u) ^ k) * (s * (1 - u) ^ l) := by ring
      _ ≤ 1 * 1 := mul_le_mul ht' hs' (by positivity) (by norm_num)
      _ = 1 := by ring

theorem Rel.inv (h1 : u < 1) {k : Nat} {a x : ℝ} (h : Rel u k a x) : Rel u k a⁻¹ x⁻¹ := by
  obtain ⟨t, ht, ht', rfl⟩ := h
  have d1 : (0 : ℝ) < (1 - u) ^ k := pow_pos (by linarith) k
  have t0 := Rel.pos h1 ht
  refine ⟨t⁻¹, ?_, ?_, by rw [mul_inv]⟩
  · rw [le_inv_comm₀ d1 t0, ← one_div, le_div_iff₀ d1]; exact ht'
  · rw [inv_mul_le_iff₀ t0, mul_one]; exact ht

theorem Rel.div (h1 : u < 1) {k l : Nat} {a b x y : ℝ} (h : Rel u k a x) (h' : Rel u l b y) : Rel u (k + l) (a / b) (x / y) := by
  rw [div_eq_mul_inv, div_eq_mul_inv]
  exact h.mul h1 (h'.inv h1)

theorem Rel.pow (h1 : u < 1) {k : Nat} {a x : ℝ} (h : Rel u k a x) (n : Nat) : Rel u (n * k) (a ^ n) (x ^ n) := by
  induction n with
  | zero => simpa using Rel.refl u 1
  | succ n ih =>
    rw [pow_succ, pow_succ, Nat.succ_mul]
    exact ih.mul h1 h

theorem Rel.neg {k : Nat} {a x : ℝ} (h : Rel u k a x) : Rel u k (-a) (-x) := by
  obtain ⟨t, ht, ht', rfl⟩ := h
  exact ⟨t, ht, ht', by ring⟩

/-- Sums of numbers that are not negative do not add to the relative error. -/
theorem Rel.add (h1 : u < 1) {k : Nat} {a b x y : ℝ} (ha : 0 ≤ a) (hb : 0 ≤ b) (h : Rel u k a x) (h' : Rel u k b y) : Rel u k (a + b) (x + y) := by
  obtain ⟨t, ht, ht', rfl⟩ := h
  obtain ⟨s, hs, hs', rfl⟩ := h'
  have d1 : (0 : ℝ) < (1 - u) ^ k := pow_pos (by linarith) k
  rcases eq_or_lt_of_le (add_nonneg ha hb) with h0 | h0
  · have ea : a = 0 := by linarith
    have eb : b = 0 := by linarith
    subst ea eb
    exact ⟨t, ht, ht', by ring⟩
  · refine ⟨(a * t + b * s) / (a + b), ?_, ?_, by field_simp⟩
    · rw [le_div_iff₀ h0]
      nlinarith [mul_le_mul_of_nonneg_left ht ha, mul_le_mul_of_nonneg_left hs hb]
    · rw [div_mul_eq_mul_div, div_le_one h0]
      nlinarith [mul_le_mul_of_nonneg_left ht' ha, mul_le_mul_of_nonneg_left hs' hb]

theorem Rel.sqrt (h1 : u < 1) {k : Nat} {a x : ℝ} (ha : 0 ≤ a) (h : Rel u (2 * k) a x) : Rel u k (Real.sqrt a) (Real.sqrt x) := by
  obtain ⟨t, ht, ht', rfl⟩ := h
  have d1 : (0 : ℝ) < (1 - u) ^ k := pow_pos (by linarith) k
  have e : (1 - u) ^ (2 * k) = ((1 - u) ^ k) ^ 2 := by rw [mul_comm, pow_mul]
  rw [e] at ht ht'
  refine ⟨Real.sqrt t, Real.le_sqrt_of_sq_le ht, ?_, Real.sqrt_mul ha t⟩
  have t0 : 0 ≤ t := le_trans (by positivity) ht
  rw [← Real.sqrt_sq d1.le, ← Real.sqrt_mul t0]
  exact Real.sqrt_le_one.2 ht'

theorem Rel.rnd (h0 : 0 ≤ u) (h1 : u < 1) {k : Nat} {a x y : ℝ} (h : Rel u k a x) (hr : Rnd u x y) : Rel u (k + 1) a y := by
  have : Rel u 1 x y := by
    unfold Rnd at hr
    rcases eq_or_ne x 0 with rfl | hx
    · have : y = 0 := by simpa using hr
      exact ⟨1, by simp; linarith, by simp; linarith, by simp [this]⟩
    · refine ⟨y / x, ?_, ?_, by field_simp⟩
      · have hq : |y / x - 1| ≤ u := by
          rw [show y / x - 1 = (y - x) / x by field_simp, abs_div, div_le_iff₀ (abs_pos.2 hx)]; exact hr
        rw [pow_one]; linarith [(abs_le.1 hq).1]
      · have hq : |y / x - 1| ≤ u := by
          rw [show y / x - 1 = (y - x) / x by field_simp, abs_div, div_le_iff₀ (abs_pos.2 hx)]; exact hr
        rw [pow_one]
        have := (abs_le.1 hq).2
        nlinarith
  obtain ⟨t, ht, ht', rfl⟩ := h
  obtain ⟨s, hs, hs', rfl⟩ := this
  have := Rel.mul h1 (a := a) (b := 1) (x := a * t) (y := s) ⟨t, ht, ht', rfl⟩ ⟨s, hs, hs', by ring⟩
  rwa [mul_one] at this

/-- The absolute error. -/
theorem Rel.abs_sub (h0 : 0 ≤ u) (h1 : u < 1) {k : Nat} {a x : ℝ} (h : Rel u k a x) : |x - a| ≤ (((1 - u) ^ k)⁻¹ - 1) * |a| := by
  obtain ⟨t, ht, ht', rfl⟩ := h
  have d1 : (0 : ℝ) < (1 - u) ^ k := pow_pos (by linarith) k
  have d2 : (1 - u) ^ k ≤ 1 := pow_le_one₀ (by linarith) (by linarith)
  rw [show a * t - a = (t - 1) * a by ring, abs_mul]
  refine mul_le_mul_of_nonneg_right ?_ (abs_nonneg a)
  have hi : t ≤ ((1 - u) ^ k)⁻¹ := by rw [← one_div, le_div_iff₀ d1]; exact ht'
  rw [abs_le]
  refine ⟨?_, by linarith⟩
  have : 2 ≤ (1 - u) ^ k + ((1 - u) ^ k)⁻¹ := by
    have := mul_inv_cancel₀ d1.ne'
    nlinarith [sq_nonneg ((1 - u) ^ k - 1), inv_pos.2 d1]
  linarith

/-! ## Sums -/

theorem one_le_inv (h0 : 0 ≤ u) (h1 : u < 1) (k : Nat) : 1 ≤ ((1 - u) ^ k)⁻¹ :=
  (one_le_inv₀ (pow_pos (by linarith) k)).2 (pow_le_one₀ (by linarith) (by linarith))

theorem inv_mono (h0 : 0 ≤ u) (h1 : u < 1) {k l : Nat} (h : k ≤ l) : ((1 - u) ^ k)⁻¹ ≤ ((1 - u) ^ l)⁻¹ :=
  inv_anti₀ (pow_pos (by linarith) l) (pow_le_pow_of_le_one (by linarith) (by linarith) h)

theorem abs_sum_le_abs (l : List ℝ) : |l.sum| ≤ (l.map abs).sum := by
  induction l with
  | nil => simp
  | cons a l ih => rw [List.sum_cons, List.map_cons, List.sum_cons]; exact (abs_add_le _ _).trans (add_le_add le_rfl ih)

theorem AnySum.error (h0 : 0 ≤ u) (h1 : u < 1) {d : Nat} {l : List ℝ} {a : ℝ} (h : AnySum u d l a) : |a - l.sum| ≤ (((1 - u) ^ d)⁻¹ - 1) * (l.map abs).sum := by
  induction h with
  | zero => simp
  | one x => simp
  | perm h hp ih => rwa [← hp.sum_eq, ← (hp.map abs).sum_eq]
  | @add d e l m a b c hl hm hr ihl ihm =>
    rw [List.sum_append, List.map_append, List.sum_append]
    set A := (l.map abs).sum
    set B := (m.map abs).sum
    have hA : |l.sum| ≤ A := abs_sum_le_abs _
    have hB : |m.sum| ≤ B := abs_sum_le_abs _
    have A0 : 0 ≤ A := le_trans (abs_nonneg _) hA
    have B0 : 0 ≤ B := le_trans (abs_nonneg _) hB
    have k1 := inv_mono h0 h1 (le_max_left d e)
    have k2 := inv_mono h0 h1 (le_max_right d e)
    set D := ((1 - u) ^ (max d e))⁻¹ with hD
    have hD1 : 1 ≤ D := one_le_inv h0 h1 _
    have e1 : |a - l.sum| ≤ (D - 1) * A := le_trans ihl (mul_le_mul_of_nonneg_right (by linarith) A0)
    have e2 : |b - m.sum| ≤ (D - 1) * B := le_trans ihm (mul_le_mul_of_nonneg_right (by linarith) B0)
    have a1 : |a + b| ≤ D * (A + B) := by
      have : |a + b| ≤ |a - l.sum| + |b - m.sum| + (|l.sum| + |m.sum|) := by
        calc |a + b| = |(a - l.sum) + (b - m.sum) + (l.sum + m.sum)| := by congr 1; ring
          _ ≤ |(a - l.sum) + (b - m.sum)| + |l.sum + m.sum| := abs_add_le _ _
          _ ≤ _ := add_le_add (abs_add_le _ _) (abs_add_le _ _)
      linarith
    unfold Rnd at hr
    have c1 : |c - (l.sum + m.sum)| ≤ |c - (a + b)| + (|a - l.sum| + |b - m.sum|) := by
      calc |c - (l.sum + m.sum)| = |(c - (a + b)) + ((a - l.sum) + (b - m.sum))| := by congr 1; ring
        _ ≤ _ := (abs_add_le _ _).trans (add_le_add le_rfl (abs_add_le _ _))
    have u1 : u * |a + b| ≤ u * (D * (A + B)) := mul_le_mul_of_nonneg_left a1 h0
    have hE : ((1 - u) ^ (max d e + 1))⁻¹ = D * (1 - u)⁻¹ := by rw [pow_succ, mul_inv]
    have hv : 1 + u ≤ (1 - u)⁻¹ := by
      rw [← one_div, le_div_iff₀ (by linarith)]; nlinarith
    have hf : D * (1 + u) ≤ D * (1 - u)⁻¹ := mul_le_mul_of_nonneg_left hv (by linarith)
    rw [hE]
    have := mul_le_mul_of_nonneg_right hf (add_nonneg A0 B0)
    nlinarith

theorem abs_sum_le {l m : List ℝ} {k : ℝ} (h : List.Forall₂ (fun x y => |y - x| ≤ k * |x|) l m) :
    |m.sum - l.sum| ≤ k * (l.map abs).sum ∧ (m.map abs).sum ≤ (1 + k) * (l.map abs).sum := by
  induction h with
  | nil => simp
  | @cons x y l m hxy _ ih =>
    simp only [List.sum_cons, List.map_cons]
    constructor
    · calc |y + m.sum - (x + l.sum)| = |(y - x) + (m.sum - l.sum)| := by congr 1; ring
        _ ≤ |y - x| + |m.sum - l.sum| := abs_add_le _ _
        _ ≤ _ := by linarith [ih.1]
    · have : |y| ≤ |y - x| + |x| := by
        calc |y| = |(y - x) + x| := by congr 1; ring
          _ ≤ _ := abs_add_le _ _
      linarith [ih.2]

/-- A loop over terms each of which suffers `k` rounding errors. -/
theorem LoopR.error (h0 : 0 ≤ u) (h1 : u < 1) {d k : Nat} {ts : List Expr} {v : ℝ} (h : LoopR u d ts v) (hk : ∀ t ∈ ts, ∀ x, Rounded u t x → Rel u k t.value x) :
    |v - (ts.map Expr.value).sum| ≤ (((1 - u) ^ (d + k))⁻¹ - 1) * (ts.map fun t => |t.value|).sum := by
  obtain ⟨vs, hvs, hs⟩ := h
  have hs' := hs.error h0 h1
  have hf : List.Forall₂ (fun x y => |y - x| ≤ (((1 - u) ^ k)⁻¹ - 1) * |x|) (ts.map Expr.value) vs := by
    rw [List.forall₂_map_left_iff]
    clear hs hs'
    induction hvs with
    | nil => exact .nil
    | @cons t x ts vs htx _ ih =>
      exact .cons ((hk t (by simp) x htx).abs_sub h0 h1) (ih fun t' ht' => hk t' (by simp [ht']))
  obtain ⟨g1, g2⟩ := abs_sum_le hf
  rw [List.map_map, show (abs ∘ Expr.value) = fun t => |t.value| from rfl] at g1 g2
  set S := (ts.map fun t => |t.value|).sum
  set D := ((1 - u) ^ d)⁻¹
  set K := ((1 - u) ^ k)⁻¹
  have hD : 1 ≤ D := one_le_inv h0 h1 d
  rw [pow_add, mul_inv]
  have : |v - (ts.map Expr.value).sum| ≤ |v - vs.sum| + |vs.sum - (ts.map Expr.value).sum| := by
    calc |v - (ts.map Expr.value).sum| = |(v - vs.sum) + (vs.sum - (ts.map Expr.value).sum)| := by congr 1; ring
      _ ≤ _ := abs_add_le _ _
  have h2 := mul_le_mul_of_nonneg_left g2 (show 0 ≤ D - 1 by linarith)
  change _ ≤ (D * K - 1) * S
  nlinarith

theorem inv_le_gamma (h0 : 0 ≤ u) (h1 : u < 1) {m : Nat} (hm : m * u < 1) : ((1 - u) ^ m)⁻¹ - 1 ≤ gamma u m := by
  have hb : 1 - m * u ≤ (1 - u) ^ m := by
    have := one_add_mul_le_pow (show (-2 : ℝ) ≤ -u by linarith) m
    rw [show 1 + -u = 1 - u by ring] at this
    linarith
  have hp : 0 < 1 - m * u := by linarith
  have : ((1 - u) ^ m)⁻¹ ≤ (1 - m * u)⁻¹ := inv_anti₀ hp hb
  unfold gamma
  rw [show (m * u) / (1 - m * u) = (1 - m * u)⁻¹ - 1 by field_simp; ring]
  linarith


/-! ## The formulas -/

theorem rnd_self (h0 : 0 ≤ u) (x : ℝ) : Rnd u x x := by simp [Rnd]; positivity

theorem input_rel {x y : ℝ} (h : Rounded u (.input x) y) : Rel u 0 x y := by
  cases h; exact Rel.refl u x

theorem const_rel (h0 : 0 ≤ u) (h1 : u < 1) {x y : ℝ} (h : Rounded u (.const x) y) : Rel u 1 x y := by
  cases h with | const h => exact (Rel.refl u x).rnd h0 h1 h

theorem difference_rel (h0 : 0 ≤ u) (h1 : u < 1) {a b y : ℝ} (h : Rounded u (.sub (.input a) (.input b)) y) : Rel u 1 (a - b) y := by
  cases h with | sub ha hb h => cases ha; cases hb; exact (Rel.refl u _).rnd h0 h1 h

theorem mul_rel (h0 : 0 ≤ u) (h1 : u < 1) {a b : Expr} {k l : Nat} {y : ℝ} (ha : ∀ x, Rounded u a x → Rel u k a.value x) (hb : ∀ x, Rounded u b x → Rel u l b.value x) (h : Rounded u (.mul a b) y) :
    Rel u (k + l + 1) (a.value * b.value) y := by
  cases h with | mul h h' hr => exact ((ha _ h).mul h1 (hb _ h')).rnd h0 h1 hr

theorem div_rel (h0 : 0 ≤ u) (h1 : u < 1) {a b : Expr} {k l : Nat} {y : ℝ} (ha : ∀ x, Rounded u a x → Rel u k a.value x) (hb : ∀ x, Rounded u b x → Rel u l b.value x) (h : Rounded u (.div a b) y) :
    Rel u (k + l + 1) (a.value / b.value) y := by
  cases h with | div h h' _ hr => exact ((ha _ h).div h1 (hb _ h')).rnd h0 h1 hr

theorem add_rel (h0 : 0 ≤ u) (h1 : u < 1) {a b : Expr} {k : Nat} {y : ℝ} (pa : 0 ≤ a.value) (pb : 0 ≤ b.value) (ha : ∀ x, Rounded u a x → Rel u k a.value x) (hb : ∀ x, Rounded u b x → Rel u k b.value x)
    (h : Rounded u (.add a b) y) : Rel u (k + 1) (a.value + b.value) y := by
  cases h with | add h h' hr => exact (Rel.add h1 pa pb (ha _ h) (hb _ h')).rnd h0 h1 hr

theorem sqrt_rel (h0 : 0 ≤ u) (h1 : u < 1) {a : Expr} {k : Nat} {y : ℝ} (pa : 0 ≤ a.value) (ha : ∀ x, Rounded u a x → Rel u (2 * k) a.value x) (h : Rounded u (.sqrt a) y) :
    Rel u (k + 1) (Real.sqrt a.value) y := by
  cases h with | sqrt h hr => exact ((ha _ h).sqrt h1 pa).rnd h0 h1 hr

theorem pow_rel (h0 : 0 ≤ u) (h1 : u < 1) {a : Expr} {k n : Nat} {y : ℝ} (ha : ∀ x, Rounded u a x → Rel u k a.value x) (h : Rounded u (.pow a n) y) :
    Rel u (n * k + 2) (a.value ^ n) y := by
  cases h with | pow h hr hr' => exact (((ha _ h).pow h1 n).rnd h0 h1 hr).rnd h0 h1 hr'

theorem neg_rel {a : Expr} {k : Nat} {y : ℝ} (ha : ∀ x, Rounded u a x → Rel u k a.value x) (h : Rounded u (.neg a) y) : Rel u k (-a.value) y := by
  cases h with | neg h => exact (ha _ h).neg

theorem square_rel (h0 : 0 ≤ u) (h1 : u < 1) (a b : ℝ) : ∀ x, Rounded u (.mul (.sub (.input a) (.input b)) (.sub (.input a) (.input b))) x → Rel u 3 ((a - b) * (a - b)) x :=
  fun _ h => mul_rel h0 h1 (k := 1) (l := 1) (fun _ => difference_rel h0 h1) (fun _ => difference_rel h0 h1) h

theorem distance_rel (h0 : 0 ≤ u) (h1 : u < 1) (p q : V3) {y : ℝ} (h : Rounded u (distanceE p q) y) : Rel u 4 (V3.norm (q - p)) y := by
  have e : V3.norm (q - p) = Real.sqrt ((q.x - p.x) * (q.x - p.x) + (q.y - p.y) * (q.y - p.y) + (q.z - p.z) * (q.z - p.z)) := by
    simp [V3.norm, V3.dot]
  rw [e]
  refine sqrt_rel h0 h1 (k := 3) ?_ (fun x hx => ?_) h
  · exact add_nonneg (add_nonneg (mul_self_nonneg _) (mul_self_nonneg _)) (mul_self_nonneg _)
  · refine Rel.mono h0 h1 (by norm_num : 5 ≤ 2 * 3) ?_
    refine add_rel h0 h1 (k := 4) ?_ ?_ (fun y hy => ?_) (fun y hy => (square_rel h0 h1 _ _ y hy).mono h0 h1 (by norm_num)) hx
    · exact add_nonneg (mul_self_nonneg _) (mul_self_nonneg _)
    · exact mul_self_nonneg _
    · exact add_rel h0 h1 (k := 3) (mul_self_nonneg _) (mul_self_nonneg _) (square_rel h0 h1 _ _) (square_rel h0 h1 _ _) hy

theorem distance_value (p q : V3) : (distanceE p q).value = V3.norm (q - p) := by
  simp [distanceE, norm3dE, Expr.value, V3.norm, V3.dot]

theorem fourPi_rel (h0 : 0 ≤ u) (h1 : u < 1) : ∀ x, Rounded u (.mul (.input 4) (.const Real.pi)) x → Rel u 2 (4 * Real.pi) x :=
  fun _ h => mul_rel h0 h1 (k := 0) (l := 1) (fun _ => input_rel) (fun _ => const_rel h0 h1) h

theorem potential3dPoint_value (p q : V3) : (potential3dPointE p q).value = potential3dPoint p q := by
  simp only [potential3dPointE, Expr.value, distance_value, potential3dPoint]

theorem potential3dPoint_rel (h0 : 0 ≤ u) (h1 : u < 1) (p q : V3) : ∀ x, Rounded u (potential3dPointE p q) x → Rel u 8 (potential3dPointE p q).value x := fun _ h =>
  div_rel h0 h1 (k := 0) (l := 7) (fun _ => input_rel)
    (fun _ => mul_rel h0 h1 (k := 2) (l := 4) (fourPi_rel h0 h1) (fun x hx => by rw [distance_value]; exact distance_rel h0 h1 p q hx)) h

theorem d1Potential3dPoint_value (p q : V3) : (d1Potential3dPointE V3.x p q).value = dx1Potential3dPoint p q ∧ (d1Potential3dPointE V3.y p q).value = dy1Potential3dPoint p q ∧
    (d1Potential3dPointE V3.z p q).value = dz1Potential3dPoint p q := by
  simp only [d1Potential3dPointE, Expr.value, distance_value, dx1Potential3dPoint, dy1Potential3dPoint, dz1Potential3dPoint, and_self]

theorem d1Potential3dPoint_rel (h0 : 0 ≤ u) (h1 : u < 1) (c : V3 → ℝ) (p q : V3) : ∀ x, Rounded u (d1Potential3dPointE c p q) x → Rel u 19 (d1Potential3dPointE c p q).value x := fun _ h =>
  div_rel h0 h1 (k := 1) (l := 17) (fun _ => difference_rel h0 h1)
    (fun _ => mul_rel h0 h1 (k := 2) (l := 14) (fourPi_rel h0 h1) (fun _ => pow_rel h0 h1 (k := 4) (fun x hx => by rw [distance_value]; exact distance_rel h0 h1 p q hx))) h

theorem term_rel (h0 : 0 ≤ u) (h1 : u < 1) (q j : ℝ) {f : Expr} {k : Nat} (hf : ∀ x, Rounded u f x → Rel u k f.value x) : ∀ x, Rounded u (termE q j f) x → Rel u (k + 2) (termE q j f).value x := fun x h => by
  have := mul_rel h0 h1 (k := 1) (l := k) (fun _ => mul_rel h0 h1 (k := 0) (l := 0) (fun _ => input_rel) (fun _ => input_rel)) hf h
  rwa [show k + 2 = 1 + k + 1 by omega]

theorem points_sum {P : Type} (e : EffCharges P) (f : P → ℝ) : ((points e).map fun x => x.1 * x.2.1 * f x.2.2).sum = e.loop f := by
  rw [EffCharges.loop_eq, Spec.superpose, points]
  induction e.charges.zip (e.jacobians.zip e.positions) with
  | nil => rfl
  | cons a l ih =>
    rw [List.flatMap_cons, List.map_append, List.sum_append, List.map_cons, List.sum_cons, ih, List.map_map]
    rfl

theorem sum_neg {α : Type} (f : α → ℝ) (l : List α) : (l.map fun x => -f x).sum = -(l.map f).sum := by
  induction l with
  | nil => simp
  | cons a l ih => simp [ih]; ring

/-! ## Machines that round every operation by a fixed rule -/

/-- adding one number after the other -/
theorem serial_sum {r : ℝ → ℝ} (hr : ∀ x, Rnd u x (r x)) (l : List ℝ) : AnySum u l.length l (l.foldl (fun s x => r (s + x)) 0) := by
  induction l using List.reverseRecOn with
  | nil => exact .zero
  | append_singleton l x ih =>
    rw [List.foldl_append, List.foldl_cons, List.foldl_nil, List.length_append, List.length_singleton]
    exact (Nat.max_zero l.length) ▸ AnySum.add ih (.one x) (hr _)

theorem distance_computed {r : ℝ → ℝ} (hr : ∀ x, Rnd u x (r x)) (p q : V3) : ∃ x, Rounded u (distanceE p q) x :=
  ⟨_, .sqrt (.add (.add (.mul (.sub (.input _) (.input _) (hr _)) (.sub (.input _) (.input _) (hr _)) (hr _)) (.mul (.sub (.input _) (.input _) (hr _)) (.sub (.input _) (.input _) (hr _)) (hr _)) (hr _))
    (.mul (.sub (.input _) (.input _) (hr _)) (.sub (.input _) (.input _) (hr _)) (hr _)) (hr _)) (hr _)⟩

theorem Rel.ne_zero (h1 : u < 1) {k : Nat} {a x : ℝ} (h : Rel u k a x) (ha : a ≠ 0) : x ≠ 0 := by
  obtain ⟨t, ht, -, rfl⟩ := h
  exact mul_ne_zero ha (Rel.pos h1 ht).ne'

theorem norm_sub_ne {p q : V3} (h : q ≠ p) : V3.norm (q - p) ≠ 0 := by
  refine (V3.norm_pos fun h0 => h ?_).ne'
  have hx := congrArg V3.x h0
  have hy := congrArg V3.y h0
  have hz := congrArg V3.z h0
  rw [V3.sub_x, V3.zero_x] at hx
  rw [V3.sub_y, V3.zero_y] at hy
  rw [V3.sub_z, V3.zero_z] at hz
  ext <;> linarith

theorem term_computed (h0 : 0 ≤ u) (h1 : u < 1) {r : ℝ → ℝ} (hr : ∀ x, Rnd u x (r x)) {p q : V3} (h : q ≠ p) (c j : ℝ) : ∃ x, Rounded u (termE c j (potential3dPointE p q)) x := by
  obtain ⟨x, hx⟩ := distance_computed hr p q
  have hd : Rounded u (.mul (.mul (.input 4) (.const Real.pi)) (distanceE p q)) _ := .mul (.mul (.input _) (.const (hr _)) (hr _)) hx (hr _)
  have hn := (mul_rel h0 h1 (k := 2) (l := 4) (fourPi_rel h0 h1) (fun x hx => by rw [distance_value]; exact distance_rel h0 h1 p q hx) hd).ne_zero h1
    (by rw [distance_value]; exact mul_ne_zero (mul_ne_zero (show (4:ℝ) ≠ 0 by norm_num) Real.pi_ne_zero) (norm_sub_ne h))
  exact ⟨_, .mul (.mul (.input _) (.input _) (hr _)) (.div (.input _) hd hn (hr _)) (hr _)⟩

/-- The sum of the sizes of the contributions of all integration points. -/
noncomputable def _root_.Traceon.Spec.sizes {P : Type} (e : EffCharges P) (f : P → ℝ) : ℝ := ((points e).map fun x => |x.1 * x.2.1 * f x.2.2|).sum

end Traceon.Fp

namespace Traceon
open Fp

/-- **C106**, the potential: however the operations are rounded and in whatever order the terms are added, the computed potential differs from the exact one by at most γ(d+10) times the sum of the sizes of the terms,
where no term goes through more than `d` additions. -/
theorem C106_potential {u : ℝ} (h0 : 0 ≤ u) {d : Nat} (hd : ((d + 10 : Nat) : ℝ) * u < 1) (p : V3) (e : EffCharges V3) {v : ℝ} (h : Potential3dR u d p e v) :
    |v - potential3d p e| ≤ gamma u (d + 10) * Spec.sizes e (potential3dPoint p) := by
  have h1 : u < 1 := by push_cast at hd; nlinarith [Nat.cast_nonneg (α := ℝ) d]
  have := h.error h0 h1 (k := 10) (fun t ht x hx => by
    obtain ⟨y, -, rfl⟩ := List.mem_map.1 ht
    exact term_rel h0 h1 _ _ (potential3dPoint_rel h0 h1 _ _) x hx)
  simp only [List.map_map, Function.comp_def, termE, Expr.value, potential3dPoint_value] at this
  rw [points_sum e (potential3dPoint p)] at this
  refine this.trans (mul_le_mul_of_nonneg_right (inv_le_gamma h0 h1 hd) ?_)
  exact List.sum_nonneg (by simp only [List.mem_map]; rintro _ ⟨y, -, rfl⟩; positivity)

/-- **C106**, the field, component by component -/
theorem C106_field {u : ℝ} (h0 : 0 ≤ u) {d : Nat} (hd : ((d + 21 : Nat) : ℝ) * u < 1) (p : V3) (e : EffCharges V3) {v : V3} (h : Field3dR u d p e v) :
    |v.x - (field3d p e).x| ≤ gamma u (d + 21) * Spec.sizes e (dx1Potential3dPoint p) ∧
    |v.y - (field3d p e).y| ≤ gamma u (d + 21) * Spec.sizes e (dy1Potential3dPoint p) ∧
    |v.z - (field3d p e).z| ≤ gamma u (d + 21) * Spec.sizes e (dz1Potential3dPoint p) := by
  have h1 : u < 1 := by push_cast at hd; nlinarith [Nat.cast_nonneg (α := ℝ) d]
  have key : ∀ (c : V3 → ℝ) (f : V3 → ℝ), (∀ q, (d1Potential3dPointE c p q).value = f q) → ∀ w : ℝ, LoopR u d ((points e).map fun x => .neg (termE x.1 x.2.1 (d1Potential3dPointE c p x.2.2))) w →
      |w - e.loopSub f| ≤ gamma u (d + 21) * Spec.sizes e f := by
    intro c f hf w hw
    have := hw.error h0 h1 (k := 21) (fun t ht x hx => by
      obtain ⟨y, -, rfl⟩ := List.mem_map.1 ht
      exact neg_rel (term_rel h0 h1 _ _ (d1Potential3dPoint_rel h0 h1 _ _ _)) hx)
    simp only [List.map_map, Function.comp_def, termE, Expr.value, hf, abs_neg] at this
    have en : ((points e).map fun x => -(x.1 * x.2.1 * f x.2.2)).sum = e.loopSub f := by
      rw [EffCharges.loopSub_loop, ← points_sum e f]
      exact sum_neg _ _
    rw [en] at this
    refine this.trans (mul_le_mul_of_nonneg_right (inv_le_gamma h0 h1 hd) ?_)
    exact List.sum_nonneg (by simp only [List.mem_map]; rintro _ ⟨y, -, rfl⟩; positivity)
  exact ⟨key V3.x _ (fun q => (d1Potential3dPoint_value p q).1) _ h.1, key V3.y _ (fun q => (d1Potential3dPoint_value p q).2.1) _ h.2.1, key V3.z _ (fun q => (d1Potential3dPoint_value p q).2.2) _ h.2.2⟩

/-- **C106** for doubles: with up to four million additions the error of the potential is less than 1e-9 times the sum of the sizes of the terms; if all the terms have the same sign, this is a relative error. -/
theorem C106_doubles {d : Nat} (hd : d ≤ 4000000) (p : V3) (e : EffCharges V3) {v : ℝ} (h : Potential3dR (2⁻¹ ^ 53) d p e v) :
    |v - potential3d p e| ≤ 1e-9 * Spec.sizes e (potential3dPoint p) ∧
    ((∀ x ∈ points e, 0 ≤ x.1 * x.2.1) → |v - potential3d p e| ≤ 1e-9 * |potential3d p e|) := by
  have hd' : (d : ℝ) ≤ 4000000 := by exact_mod_cast hd
  have hu : (2⁻¹ : ℝ) ^ 53 ≤ 1.2e-16 := by norm_num
  have hu0 : (0 : ℝ) ≤ 2⁻¹ ^ 53 := by positivity
  generalize (2⁻¹ : ℝ) ^ 53 = u at *
  have hm : ((d + 10 : Nat) : ℝ) * u ≤ 5e-10 := by
    push_cast
    calc ((d : ℝ) + 10) * u ≤ 4000010 * 1.2e-16 := mul_le_mul (by linarith) hu hu0 (by norm_num)
      _ ≤ _ := by norm_num
  have := C106_potential hu0 (lt_of_le_of_lt hm (by norm_num)) p e h
  have S0 : 0 ≤ Spec.sizes e (potential3dPoint p) := List.sum_nonneg (by simp only [List.mem_map]; rintro _ ⟨y, -, rfl⟩; positivity)
  have hg : gamma u (d + 10) ≤ 1e-9 := by
    unfold gamma
    rw [div_le_iff₀ (by norm_num at hm ⊢; linarith)]
    norm_num at hm ⊢
    linarith
  have hr := this.trans (mul_le_mul_of_nonneg_right hg S0)
  refine ⟨hr, fun hs => ?_⟩
  have e1 : Spec.sizes e (potential3dPoint p) = potential3d p e := by
    unfold Spec.sizes potential3d
    rw [← points_sum e (potential3dPoint p)]
    congr 1
    refine List.map_congr_left fun x hx => abs_of_nonneg (mul_nonneg (hs x hx) ?_)
    unfold potential3dPoint
    have := Real.sqrt_nonneg (V3.dot (x.2.2 - p) (x.2.2 - p))
    unfold V3.norm
    positivity
  rw [e1] at hr S0
  rwa [abs_of_nonneg S0]

/-- Away from the charges every machine that rounds correctly computes a value, adding one term after the other. -/
theorem C106_computed {u : ℝ} (h0 : 0 ≤ u) (h1 : u < 1) {r : ℝ → ℝ} (hr : ∀ x, Rnd u x (r x)) {p : V3} {e : EffCharges V3} (hp : ∀ x ∈ points e, x.2.2 ≠ p) : ∃ v, Potential3dR u (points e).length p e v := by
  have : ∃ vs, List.Forall₂ (Rounded u) ((points e).map fun x => termE x.1 x.2.1 (potential3dPointE p x.2.2)) vs := by
    revert hp
    generalize points e = l
    intro hp
    induction l with
    | nil => exact ⟨[], .nil⟩
    | cons x l ih =>
      obtain ⟨vs, hvs⟩ := ih fun y hy => hp y (List.mem_cons_of_mem _ hy)
      obtain ⟨y, hy⟩ := term_computed h0 h1 hr (hp x List.mem_cons_self) x.1 x.2.1
      exact ⟨y :: vs, .cons hy hvs⟩
  obtain ⟨vs, hvs⟩ := this
  refine ⟨vs.foldl (fun s x => r (s + x)) 0, vs, hvs, ?_⟩
  have := serial_sum hr vs
  rwa [← hvs.length_eq, List.length_map] at this

theorem Fp.currentPotentialAxial_rel {u : ℝ} (h0 : 0 ≤ u) (h1 : u < 1) (z0 r z : ℝ) : ∀ x, Rounded u (currentPotentialAxialE z0 r z) x → Rel u 6 (currentPotentialAxialE z0 r z).value x := by
  intro x h
  refine div_rel h0 h1 (k := 1) (l := 4) (fun y hy => ?_) (fun y hy => ?_) h
  · exact neg_rel (fun _ => difference_rel h0 h1) hy
  · refine mul_rel h0 h1 (k := 0) (l := 3) (fun _ => input_rel) (fun w hw => ?_) hy
    refine sqrt_rel h0 h1 (k := 2) ?_ (fun v hv => ?_) hw
    · exact add_nonneg (mul_self_nonneg _) (mul_self_nonneg _)
    · refine add_rel h0 h1 (k := 3) (mul_self_nonneg _) (mul_self_nonneg _) (square_rel h0 h1 _ _) (fun t ht => ?_) hv
      exact (mul_rel h0 h1 (k := 0) (l := 0) (fun _ => input_rel) (fun _ => input_rel) ht).mono h0 h1 (by norm_num)

/-- **C106**, the magnetic scalar potential of coils on the axis -/
theorem C106_coil_axis {u : ℝ} (h0 : 0 ≤ u) {d : Nat} (hd : ((d + 8 : Nat) : ℝ) * u < 1) (z0 : ℝ) (e : EffCharges V3) {v : ℝ} (h : CurrentPotentialAxialR u d z0 e v) :
    |v - currentPotentialAxial z0 e| ≤ gamma u (d + 8) * Spec.sizes e (fun q => currentPotentialAxialRadialRing z0 q.x q.z) := by
  have h1 : u < 1 := by push_cast at hd; nlinarith [Nat.cast_nonneg (α := ℝ) d]
  have := h.error h0 h1 (k := 8) (fun t ht x hx => by
    obtain ⟨y, -, rfl⟩ := List.mem_map.1 ht
    exact term_rel h0 h1 _ _ (currentPotentialAxial_rel h0 h1 _ _ _) x hx)
  have ev : ∀ q : V3, (currentPotentialAxialE z0 q.x q.z).value = currentPotentialAxialRadialRing z0 q.x q.z := fun q => by
    simp only [currentPotentialAxialE, Expr.value, currentPotentialAxialRadialRing]
  simp only [List.map_map, Function.comp_def, termE, Expr.value, ev] at this
  rw [points_sum e (fun q => currentPotentialAxialRadialRing z0 q.x q.z)] at this
  refine this.trans (mul_le_mul_of_nonneg_right (inv_le_gamma h0 h1 hd) ?_)
  exact List.sum_nonneg (by simp only [List.mem_map]; rintro _ ⟨y, -, rfl⟩; positivity)

/-- Two elements with two integration points each, charged oppositely: there is a computed potential, also if every operation gives the exact result times 1 + u, and it obeys the bound for doubles. -/
theorem C106_example : let e : EffCharges V3 := ⟨2, [1, -2], [[1, 1], [1, 1]], [[⟨0, 0, 0⟩, ⟨1, 0, 0⟩], [⟨0, 1, 0⟩, ⟨0, 2, 0⟩]]⟩
    ∃ v, Potential3dR (2⁻¹ ^ 53) 4 ⟨0, 0, 3⟩ e v ∧ |v - potential3d ⟨0, 0, 3⟩ e| ≤ 1e-9 * Spec.sizes e (potential3dPoint ⟨0, 0, 3⟩) := by
  intro e
  have hp : (points e).length = 4 := rfl
  obtain ⟨v, hv⟩ := C106_computed (u := 2⁻¹ ^ 53) (by positivity) (by norm_num) (r := fun x => x * (1 + 2⁻¹ ^ 53))
    (fun x => by
      have : x * (1 + 2⁻¹ ^ 53) - x = 2⁻¹ ^ 53 * x := by ring
      rw [Rnd, this, abs_mul, abs_of_pos (by positivity)]) (p := ⟨0, 0, 3⟩) (e := e)
    (by
      intro x hx
      simp only [e, points, List.zip_cons_cons, List.zip_nil_right, List.flatMap_cons, List.flatMap_nil, List.map_cons, List.map_nil, List.cons_append, List.nil_append, List.mem_cons,
        List.not_mem_nil, or_false] at hx
      rcases hx with rfl | rfl | rfl | rfl <;> intro h <;> have := congrArg V3.z h <;> norm_num at this)
  rw [hp] at hv
  exact ⟨v, hv, (C106_doubles (by norm_num) _ _ hv).1⟩

end Traceon
