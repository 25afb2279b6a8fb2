import Verif.Props.Rounding
import Mathlib.Analysis.SpecialFunctions.Log.Basic
import Mathlib.Analysis.Complex.ExponentialBounds

/-!
# C106 for axisymmetric potentials

Absolute errors relative to a size `s`, counted in units of `w`, which is `u` times the condition number `κ`.
-/
namespace Traceon.Fp

/-- `x` is `a` up to `c * w` times the size `s`. -/
def App (w c s a x : ℝ) : Prop := |x - a| ≤ c * w * s

variable {u w : ℝ}

theorem app_rnd (hu : 0 ≤ u) (huw : u ≤ w) (hw : w ≤ 1e-6) {c c' s a x y : ℝ} (hc : 0 ≤ c) (ha : |a| ≤ s) (h : App w c s a x) (hr : Rnd u x y) (hc' : c + 1 + c * 1e-6 ≤ c') : App w c' s a y := by
  unfold App Rnd at *
  have w0 : 0 ≤ w := hu.trans huw
  have s0 : 0 ≤ s := (abs_nonneg a).trans ha
  have hx : |x| ≤ s + c * w * s := by
    calc |x| = |(x - a) + a| := by congr 1; ring
      _ ≤ |x - a| + |a| := abs_add_le _ _
      _ ≤ _ := by linarith
  have h1 : |y - a| ≤ |y - x| + |x - a| := by
    calc |y - a| = |(y - x) + (x - a)| := by congr 1; ring
      _ ≤ _ := abs_add_le _ _
  have h2 : u * |x| ≤ w * (s + c * w * s) := mul_le_mul huw hx (abs_nonneg _) w0
  have h3 : c * w ≤ c * 1e-6 := mul_le_mul_of_nonneg_left hw hc
  have ws : 0 ≤ w * s := mul_nonneg w0 s0
  have h4 := mul_le_mul_of_nonneg_right hc' ws
  have h5 := mul_le_mul_of_nonneg_right h3 ws
  nlinarith

theorem app_mul (w0 : 0 ≤ w) (hw : w ≤ 1e-6) {c e c' s r a b x y : ℝ} (hc : 0 ≤ c) (he : 0 ≤ e) (ha : |a| ≤ s) (hb : |b| ≤ r) (h : App w c s a x) (h' : App w e r b y) (hc' : c + e + c * e * 1e-6 ≤ c') :
    App w c' (s * r) (a * b) (x * y) := by
  unfold App at *
  have s0 : 0 ≤ s := (abs_nonneg a).trans ha
  have r0 : 0 ≤ r := (abs_nonneg b).trans hb
  have e1 : x * y - a * b = (x - a) * (y - b) + (x - a) * b + a * (y - b) := by ring
  have h1 : |x * y - a * b| ≤ |x - a| * |y - b| + |x - a| * |b| + |a| * |y - b| := by
    rw [e1, ← abs_mul, ← abs_mul, ← abs_mul]
    exact (abs_add_le _ _).trans (add_le_add (abs_add_le _ _) le_rfl)
  have cw : 0 ≤ c * w * s := by positivity
  have m1 : |x - a| * |y - b| ≤ (c * w * s) * (e * w * r) := mul_le_mul h h' (abs_nonneg _) cw
  have m2 : |x - a| * |b| ≤ (c * w * s) * r := mul_le_mul h hb (abs_nonneg _) cw
  have m3 : |a| * |y - b| ≤ s * (e * w * r) := mul_le_mul ha h' (abs_nonneg _) s0
  have h3 : c * e * w ≤ c * e * 1e-6 := mul_le_mul_of_nonneg_left hw (mul_nonneg hc he)
  have ws : 0 ≤ w * (s * r) := by positivity
  have h4 := mul_le_mul_of_nonneg_right hc' ws
  have h5 := mul_le_mul_of_nonneg_right h3 ws
  nlinarith

theorem app_add {c e c' s r q a b x y : ℝ} (w0 : 0 ≤ w) (h : App w c s a x) (h' : App w e r b y) (hc' : c * s + e * r ≤ c' * q) : App w c' q (a + b) (x + y) := by
  unfold App at *
  have h1 : |x + y - (a + b)| ≤ |x - a| + |y - b| := by
    rw [show x + y - (a + b) = (x - a) + (y - b) by ring]; exact abs_add_le _ _
  have := mul_le_mul_of_nonneg_left hc' w0
  nlinarith

theorem app_mono {c c' s s' a x : ℝ} (w0 : 0 ≤ w) (h : App w c s a x) (hc : c * s ≤ c' * s') : App w c' s' a x := by
  unfold App at *
  have := mul_le_mul_of_nonneg_left hc w0
  nlinarith

theorem app_low (w0 : 0 ≤ w) (hw : w ≤ 1e-6) {e b y : ℝ} (he : 0 ≤ e) (hb : 0 < b) (h : App w e b b y) : b * (1 - e * 1e-6) ≤ y := by
  unfold App at h
  have h1 := (abs_le.1 h).1
  have h2 : e * w ≤ e * 1e-6 := mul_le_mul_of_nonneg_left hw he
  have := mul_le_mul_of_nonneg_right h2 hb.le
  nlinarith

theorem app_div (w0 : 0 ≤ w) (hw : w ≤ 1e-6) {c e c' s a b x y : ℝ} (hc : 0 ≤ c) (he : 0 ≤ e) (he' : e ≤ 1e5) (ha : |a| ≤ s) (hb : 0 < b) (h : App w c s a x) (h' : App w e b b y)
    (hc' : c + e ≤ c' * (1 - e * 1e-6)) : App w c' (s / b) (a / b) (x / y) := by
  have hy := app_low w0 hw he hb h'
  unfold App at *
  have s0 : 0 ≤ s := (abs_nonneg a).trans ha
  have k0 : 0 < 1 - e * 1e-6 := by nlinarith
  have y0 : 0 < y := lt_of_lt_of_le (mul_pos hb k0) hy
  have e1 : x / y - a / b = (b * (x - a) - a * (y - b)) / (y * b) := by field_simp; ring
  rw [e1, abs_div, abs_of_pos (mul_pos y0 hb), div_le_iff₀ (mul_pos y0 hb)]
  have h1 : |b * (x - a) - a * (y - b)| ≤ b * (c * w * s) + s * (e * w * b) := by
    refine (abs_sub _ _).trans ?_
    rw [abs_mul, abs_mul, abs_of_pos hb]
    exact add_le_add (mul_le_mul_of_nonneg_left h hb.le) (mul_le_mul ha h' (abs_nonneg _) s0)
  refine h1.trans ?_
  have c0 : 0 ≤ c' := by
    by_contra hn
    push Not at hn
    nlinarith
  have e2 : c' * w * (s / b) * (y * b) = c' * w * s * y := by field_simp
  rw [e2]
  have h2 := mul_le_mul_of_nonneg_left hy (show 0 ≤ c' * w * s by positivity)
  have h3 := mul_le_mul_of_nonneg_right hc' (show 0 ≤ w * s * b by positivity)
  nlinarith

theorem app_sqrt (w0 : 0 ≤ w) (hw : w ≤ 1e-6) {c a x : ℝ} (hc : 0 ≤ c) (hc' : c ≤ 1e5) (ha : 0 ≤ a) (h : App w c a a x) : App w c (Real.sqrt a) (Real.sqrt a) (Real.sqrt x) := by
  rcases ha.eq_or_lt with rfl | ha
  · have : x = 0 := by simpa [App] using h
    simp [this, App]
  have hx := app_low w0 hw hc ha h
  unfold App at *
  have x0 : 0 ≤ x := le_trans (by nlinarith) hx
  have sa := Real.sqrt_pos.2 ha
  have sx := Real.sqrt_nonneg x
  have ea := Real.mul_self_sqrt ha.le
  have ex := Real.mul_self_sqrt x0
  have e1 : x - a = (Real.sqrt x - Real.sqrt a) * (Real.sqrt x + Real.sqrt a) := by nlinarith
  rw [e1, abs_mul, abs_of_pos (add_pos_of_nonneg_of_pos sx sa)] at h
  have h2 : |Real.sqrt x - Real.sqrt a| * Real.sqrt a ≤ |Real.sqrt x - Real.sqrt a| * (Real.sqrt x + Real.sqrt a) := mul_le_mul_of_nonneg_left (by linarith) (abs_nonneg _)
  have h3 : |Real.sqrt x - Real.sqrt a| * Real.sqrt a ≤ (c * w * Real.sqrt a) * Real.sqrt a := by
    rw [mul_assoc (c * w), ea]; linarith
  exact le_of_mul_le_mul_right h3 sa

theorem app_pow (w0 : 0 ≤ w) (hw : w ≤ 1e-6) {c s a x : ℝ} (hc : 0 ≤ c) (n : ℕ) (hn : n * c ≤ 1000) (ha : |a| ≤ s) (h : App w c s a x) : App w (1.002 * (n * c)) (s ^ n) (a ^ n) (x ^ n) := by
  have s0 : 0 ≤ s := (abs_nonneg a).trans ha
  have cw : 0 ≤ c * w := mul_nonneg hc w0
  have hx : |x| ≤ (1 + c * w) * s := by
    unfold App at h
    calc |x| = |(x - a) + a| := by congr 1; ring
      _ ≤ |x - a| + |a| := abs_add_le _ _
      _ ≤ _ := by linarith
  have key : ∀ m : ℕ, |x ^ m - a ^ m| ≤ ((1 + c * w) ^ m - 1) * s ^ m := by
    intro m
    induction m with
    | zero => simp
    | succ m ih =>
      have e1 : x ^ (m + 1) - a ^ (m + 1) = x ^ m * (x - a) + a * (x ^ m - a ^ m) := by ring
      have h1 : |x ^ m * (x - a)| ≤ ((1 + c * w) * s) ^ m * (c * w * s) := by
        rw [abs_mul, abs_pow]
        exact mul_le_mul (pow_le_pow_left₀ (abs_nonneg _) hx m) h (abs_nonneg _) (by positivity)
      have h2 : |a * (x ^ m - a ^ m)| ≤ s * (((1 + c * w) ^ m - 1) * s ^ m) := by
        rw [abs_mul]
        exact mul_le_mul ha ih (abs_nonneg _) s0
      rw [e1]
      refine (abs_add_le _ _).trans ((add_le_add h1 h2).trans (le_of_eq ?_))
      rw [mul_pow]
      ring
  refine (key n).trans (mul_le_mul_of_nonneg_right ?_ (pow_nonneg s0 n))
  have z1 : n * (c * w) ≤ 1e-3 := by
    calc n * (c * w) = (n * c) * w := by ring
      _ ≤ 1000 * 1e-6 := mul_le_mul hn hw w0 (by norm_num)
      _ = _ := by norm_num
  have z0 : 0 ≤ n * (c * w) := by positivity
  rcases Nat.eq_zero_or_pos n with rfl | hpos
  · simp
  have hcw1 : c * w ≤ 1 := by
    have : (1 : ℝ) ≤ n := by exact_mod_cast hpos
    nlinarith
  have hb : 1 - n * (c * w) ≤ (1 - c * w) ^ n := by
    have := one_add_mul_le_pow (show (-2 : ℝ) ≤ -(c * w) by linarith) n
    rw [show 1 + -(c * w) = 1 - c * w by ring] at this
    linarith
  have hp : ((1 + c * w) * (1 - c * w)) ^ n ≤ 1 := pow_le_one₀ (by nlinarith) (by nlinarith)
  rw [mul_pow] at hp
  have hq : (1 + c * w) ^ n * (1 - n * (c * w)) ≤ 1 := (mul_le_mul_of_nonneg_left hb (by positivity)).trans hp
  have h2 : (1 + c * w) ^ n ≤ 1 + 1.002 * (n * (c * w)) := by
    by_contra hh
    push Not at hh
    have := mul_lt_mul_of_pos_right hh (show 0 < 1 - n * (c * w) by linarith)
    generalize (n : ℝ) * (c * w) = z at *
    nlinarith
  calc (1 + c * w) ^ n - 1 ≤ 1.002 * (n * (c * w)) := by linarith
    _ = _ := by ring

theorem app_log (w0 : 0 ≤ w) (hw : w ≤ 1e-6) {c a x : ℝ} (hc : 0 ≤ c) (hc' : c ≤ 1000) (ha : 0 < a) (h : App w c a a x) : |Real.log x - Real.log a| ≤ 1.002 * c * w := by
  have hx := app_low w0 hw hc ha h
  have x0 : 0 < x := lt_of_lt_of_le (by nlinarith) hx
  have hxa : |x / a - 1| ≤ c * w := by
    rw [show x / a - 1 = (x - a) / a by field_simp, abs_div, abs_of_pos ha, div_le_iff₀ ha]
    exact h
  have cw : c * w ≤ 1e-3 := by
    calc c * w ≤ 1000 * 1e-6 := mul_le_mul hc' hw w0 (by norm_num)
      _ = _ := by norm_num
  have cw0 : 0 ≤ c * w := mul_nonneg hc w0
  rw [← Real.log_div x0.ne' ha.ne']
  have q0 : 0 < x / a := div_pos x0 ha
  obtain ⟨l, r⟩ := abs_le.1 hxa
  rw [abs_le]
  constructor
  · have h1 := Real.one_sub_inv_le_log_of_pos q0
    have h2 : (x / a)⁻¹ ≤ 1 + 1.002 * (c * w) := by
      rw [inv_le_comm₀ q0 (by linarith)]
      refine le_trans ?_ (show 1 - c * w ≤ x / a by linarith)
      rw [inv_le_iff_one_le_mul₀ (by linarith)]
      generalize c * w = z at *
      nlinarith
    nlinarith
  · have := Real.log_le_sub_one_of_pos q0
    nlinarith

/-! ## Expressions -/

/-- All values that may be computed for `a` are close to the exact one, which is not larger than `s`. -/
def EApp (u w c s : ℝ) (a : Expr) : Prop := |a.value| ≤ s ∧ ∀ x, Rounded u a x → App w c s a.value x

theorem EApp.input {x s : ℝ} (h : |x| ≤ s) : EApp u w 0 s (.input x) := ⟨h, fun y hy => by cases hy; simp [App, Expr.value]⟩

theorem EApp.const (hu : 0 ≤ u) (huw : u ≤ w) (hw : w ≤ 1e-6) {x c' s : ℝ} (h : |x| ≤ s) (hc' : 1 ≤ c') : EApp u w c' s (.const x) := ⟨h, fun y hy => by
  cases hy with
  | const hr => exact app_rnd hu huw hw le_rfl h (by simp [App, Expr.value]) hr (by linarith)⟩

theorem EApp.scale (w0 : 0 ≤ w) {c c' s s' : ℝ} {a : Expr} (h : EApp u w c s a) (ha : |a.value| ≤ s') (hc : c * s ≤ c' * s') : EApp u w c' s' a :=
  ⟨ha, fun x hx => app_mono w0 (h.2 x hx) hc⟩

theorem EApp.weight {w' c s s' : ℝ} {a : Expr} (hc : 0 ≤ c) (h : EApp u w c s a) (ha : |a.value| ≤ s') (hw : w * s ≤ w' * s') : EApp u w' c s' a :=
  ⟨ha, fun x hx => (h.2 x hx).trans (by nlinarith)⟩

theorem EApp.add (hu : 0 ≤ u) (huw : u ≤ w) (hw : w ≤ 1e-6) {c e c' s r q : ℝ} (c1 : ℝ) {a b : Expr} (h : EApp u w c s a) (h' : EApp u w e r b) (hq : |a.value + b.value| ≤ q) (h0 : 0 ≤ c1) (h1 : c * s + e * r ≤ c1 * q)
    (hc' : c1 + 1 + c1 * 1e-6 ≤ c') : EApp u w c' q (.add a b) := ⟨hq, fun x hx => by
  cases hx with
  | add ha hb hr => exact app_rnd hu huw hw h0 hq (app_add (hu.trans huw) (h.2 _ ha) (h'.2 _ hb) h1) hr hc'⟩

theorem EApp.sub (hu : 0 ≤ u) (huw : u ≤ w) (hw : w ≤ 1e-6) {c e c' s r q : ℝ} (c1 : ℝ) {a b : Expr} (h : EApp u w c s a) (h' : EApp u w e r b) (hq : |a.value - b.value| ≤ q) (h0 : 0 ≤ c1) (h1 : c * s + e * r ≤ c1 * q)
    (hc' : c1 + 1 + c1 * 1e-6 ≤ c') : EApp u w c' q (.sub a b) := ⟨hq, fun x hx => by
  cases hx with
  | @sub _ _ x y _ ha hb hr =>
    refine app_rnd hu huw hw h0 hq (x := x - y) ?_ hr hc'
    have := app_add (hu.trans huw) (h.2 _ ha) (b := -b.value) (y := -y) (e := e) (r := r) (by
      have := h'.2 _ hb
      unfold App at *
      rwa [show -y - -b.value = -(y - b.value) by ring, abs_neg]) h1
    simpa [sub_eq_add_neg, Expr.value] using this⟩

theorem EApp.mul (hu : 0 ≤ u) (huw : u ≤ w) (hw : w ≤ 1e-6) {c e c' s r : ℝ} {a b : Expr} (hc : 0 ≤ c) (he : 0 ≤ e) (h : EApp u w c s a) (h' : EApp u w e r b)
    (hc' : (c + e + c * e * 1e-6) + 1 + (c + e + c * e * 1e-6) * 1e-6 ≤ c') : EApp u w c' (s * r) (.mul a b) := by
  have hq : |a.value * b.value| ≤ s * r := by
    rw [abs_mul]; exact mul_le_mul h.1 h'.1 (abs_nonneg _) ((abs_nonneg _).trans h.1)
  refine ⟨hq, fun x hx => ?_⟩
  cases hx with
  | mul ha hb hr => exact app_rnd hu huw hw (by positivity) hq (app_mul (hu.trans huw) hw hc he h.1 h'.1 (h.2 _ ha) (h'.2 _ hb) le_rfl) hr hc'

theorem EApp.div (hu : 0 ≤ u) (huw : u ≤ w) (hw : w ≤ 1e-6) {c e c' s : ℝ} (c1 : ℝ) {a b : Expr} (hc : 0 ≤ c) (he : 0 ≤ e) (he' : e ≤ 1e5) (hb : 0 < b.value) (h : EApp u w c s a) (h' : EApp u w e b.value b)
    (h1 : c + e ≤ c1 * (1 - e * 1e-6)) (hc' : c1 + 1 + c1 * 1e-6 ≤ c') : EApp u w c' (s / b.value) (.div a b) := by
  have hq : |a.value / b.value| ≤ s / b.value := by
    rw [abs_div, abs_of_pos hb]; exact div_le_div_of_nonneg_right h.1 hb.le
  have c0 : 0 ≤ c1 := by
    by_contra hn
    push Not at hn
    nlinarith
  refine ⟨hq, fun x hx => ?_⟩
  cases hx with
  | div ha hb' _ hr => exact app_rnd hu huw hw c0 hq (app_div (hu.trans huw) hw hc he he' h.1 hb (h.2 _ ha) (h'.2 _ hb') h1) hr hc'

theorem EApp.sqrt (hu : 0 ≤ u) (huw : u ≤ w) (hw : w ≤ 1e-6) {c c' : ℝ} {a : Expr} (hc : 0 ≤ c) (hc1 : c ≤ 1e5) (ha : 0 ≤ a.value) (h : EApp u w c a.value a) (hc' : c + 1 + c * 1e-6 ≤ c') :
    EApp u w c' (Real.sqrt a.value) (.sqrt a) := by
  have hq : |Real.sqrt a.value| ≤ Real.sqrt a.value := (abs_of_nonneg (Real.sqrt_nonneg _)).le
  refine ⟨hq, fun x hx => ?_⟩
  cases hx with
  | sqrt h' hr => exact app_rnd hu huw hw hc hq (app_sqrt (hu.trans huw) hw hc hc1 ha (h.2 _ h')) hr hc'

theorem EApp.pow (hu : 0 ≤ u) (huw : u ≤ w) (hw : w ≤ 1e-6) {c c' s : ℝ} {a : Expr} (hc : 0 ≤ c) (n : ℕ) (hn : n * c ≤ 1000) (h : EApp u w c s a) (hc' : 1.002 * (n * c) + 2.01 ≤ c') :
    EApp u w c' (s ^ n) (.pow a n) := by
  have hq : |a.value ^ n| ≤ s ^ n := by rw [abs_pow]; exact pow_le_pow_left₀ (abs_nonneg _) h.1 n
  refine ⟨hq, fun x hx => ?_⟩
  have n0 : 0 ≤ (n : ℝ) * c := by positivity
  cases hx with
  | pow h' hr hr' =>
    have h1 := app_rnd hu huw hw (by positivity) hq (app_pow (hu.trans huw) hw hc n hn h.1 (h.2 _ h')) hr (le_refl _)
    exact app_rnd hu huw hw (by positivity) hq h1 hr' (by nlinarith)

theorem EApp.log (hu : 0 ≤ u) (huw : u ≤ w) (hw : w ≤ 1e-6) {c c' s : ℝ} {a : Expr} (hc : 0 ≤ c) (hc1 : c ≤ 990) (ha : 0 < a.value) (h : EApp u w c a.value a) (hs : 1 ≤ s) (hs' : |Real.log a.value| ≤ s) (hc' : 1.002 * c + 2.01 ≤ c') :
    EApp u w c' s (.log a) := by
  refine ⟨hs', fun x hx => ?_⟩
  cases hx with
  | log h' _ hr hr' =>
    have h0 : App w (1.002 * c) s (Real.log a.value) _ := (app_log (hu.trans huw) hw hc (by linarith) ha (h.2 _ h')).trans (le_mul_of_one_le_right (by have := hu.trans huw; positivity) hs)
    have h1 := app_rnd hu huw hw (by positivity) hs' h0 hr (le_refl _)
    exact app_rnd hu huw hw (by positivity) hs' h1 hr' (by nlinarith)

theorem EApp.fold (hu : 0 ≤ u) (huw : u ≤ w) (hw : w ≤ 1e-6) (l : List (Expr × ℝ)) : ∀ {c S : ℝ} {s : Expr}, (∀ t ∈ l, EApp u w 900 t.2 t.1) → 900 ≤ c → c + 1.002 * l.length ≤ 1000 → EApp u w c S s →
    EApp u w (c + 1.002 * l.length) (S + (l.map Prod.snd).sum) ((l.map Prod.fst).foldl Expr.add s) := by
  induction l with
  | nil => intro c S s _ _ _ h; simpa using h
  | cons t l ih =>
    intro c S s hl hc hcl h
    simp only [List.length_cons, List.map_cons, List.sum_cons, List.foldl_cons, Nat.cast_add, Nat.cast_one] at hcl ⊢
    have ht := hl t (by simp)
    have s0 := (abs_nonneg _).trans h.1
    have t0 := (abs_nonneg _).trans ht.1
    have l0 : (0 : ℝ) ≤ l.length := Nat.cast_nonneg _
    have := ih (c := c + 1.002) (S := S + t.2) (s := .add s t.1) (fun y hy => hl y (by simp [hy])) (by linarith) (by linarith)
      (EApp.add hu huw hw c h ht ((abs_add_le _ _).trans (add_le_add h.1 ht.1)) (by linarith) (by nlinarith) (by norm_num; nlinarith))
    rw [show c + 1.002 * ((l.length : ℝ) + 1) = c + 1.002 + 1.002 * l.length by ring, ← add_assoc]
    exact this

/-! ## The elliptic integral -/

theorem ellipkm1_value (p : Expr) : (ellipkm1E p).value = ellipkm1 p.value := by
  simp [ellipkm1E, coeffsKm1, ellipkm1, chebSum, List.range_succ, Expr.value]

theorem coeffs_app (hu : 0 ≤ u) (huw : u ≤ w) (hw : w ≤ 1e-6) : ∀ t ∈ (List.range coeffsKm1.length).zip coeffsKm1,
    t.1 ≤ 7 ∧ EApp u w 2.1 t.2.1.value t.2.1 ∧ EApp u w 1 t.2.2.value t.2.2 := by
  have hc : ∀ x : ℝ, 0 ≤ x → EApp u w 1 (Expr.const x).value (.const x) := fun x hx => EApp.const hu huw hw (abs_of_nonneg hx).le le_rfl
  have hc2 : ∀ x : ℝ, 0 ≤ x → EApp u w 2.1 (Expr.const x).value (.const x) := fun x hx => EApp.const hu huw hw (abs_of_nonneg hx).le (by norm_num)
  have hl : EApp u w 2.1 (Expr.log (.input 4)).value (.log (.input 4)) := by
    have l4 : 1 ≤ Real.log 4 := by
      rw [Real.le_log_iff_exp_le (by norm_num)]
      linarith [Real.exp_one_lt_d9]
    refine EApp.log (c := 0) hu huw hw le_rfl (by norm_num) (show (0:ℝ) < 4 by norm_num) (EApp.input (show |(4:ℝ)| ≤ 4 by norm_num)) l4 (abs_of_nonneg (by change 0 ≤ Real.log 4; linarith)).le (by norm_num)
  have hh : EApp u w 1 (Expr.div (.input 1) (.input 2)).value (.div (.input 1) (.input 2)) :=
    EApp.div (c := 0) (e := 0) (s := 1) hu huw hw 0 le_rfl le_rfl (by norm_num) (show (0:ℝ) < 2 by norm_num) (EApp.input (by norm_num)) (EApp.input (show |(2:ℝ)| ≤ 2 by norm_num)) (by norm_num) (by norm_num)
  intro t ht
  simp only [coeffsKm1, List.length_cons, List.length_nil, List.range_succ, List.range_zero, List.nil_append, List.cons_append, List.zip_cons_cons, List.zip_nil_right, List.mem_cons, List.not_mem_nil, or_false] at ht
  rcases ht with rfl | rfl | rfl | rfl | rfl | rfl | rfl | rfl
  · exact ⟨by norm_num, hl, hh⟩
  all_goals exact ⟨by norm_num, hc2 _ (by norm_num), hc _ (by norm_num)⟩

theorem ellipkm1_app (hu : 0 ≤ u) (huw : u ≤ w) (hw : w ≤ 1e-6) {p : Expr} (p0 : 0 < p.value) (p1 : p.value ≤ 1) (hp : EApp u w 111 p.value p) :
    0 < ellipkm1 p.value ∧ EApp u w 1455 (ellipkm1 p.value) (ellipkm1E p) := by
  set L := Real.log (1 / p.value) with hL
  have L0 : 0 ≤ L := Real.log_nonneg (by rw [le_div_iff₀ p0]; linarith)
  have hinv : EApp u w 112.2 (Expr.div (.input 1) p).value (.div (.input 1) p) :=
    EApp.div (c := 0) (e := 111) (s := 1) hu huw hw 111.1 le_rfl (by norm_num) (by norm_num) p0 (EApp.input (by norm_num)) hp (by norm_num) (by norm_num)
  have hlog : EApp u w 114.6 (1 + L) (.log (.div (.input 1) p)) :=
    EApp.log hu huw hw (c := 112.2) (by norm_num) (by norm_num) (show (0:ℝ) < 1 / p.value by positivity) hinv (by linarith) (by
      change |L| ≤ _
      rw [abs_of_nonneg L0]; linarith) (by norm_num)
  have hterm : ∀ t ∈ (List.range coeffsKm1.length).zip coeffsKm1, EApp u w 900 ((t.2.1.value + (1 + L) * t.2.2.value) * p.value ^ t.1) (.mul (.add t.2.1 (.mul (.log (.div (.input 1) p)) t.2.2)) (.pow p t.1)) := by
    intro t ht
    obtain ⟨h7, hA, hB⟩ := coeffs_app hu huw hw t ht
    have A0 := (abs_nonneg _).trans hA.1
    have B0 := (abs_nonneg _).trans hB.1
    have h7' : (t.1 : ℝ) ≤ 7 := by exact_mod_cast h7
    have hLB : EApp u w 116.7 ((1 + L) * t.2.2.value) (.mul (.log (.div (.input 1) p)) t.2.2) := EApp.mul hu huw hw (by norm_num) (by norm_num) hlog hB (by norm_num)
    have hAB : EApp u w 117.8 (t.2.1.value + (1 + L) * t.2.2.value) (.add t.2.1 (.mul (.log (.div (.input 1) p)) t.2.2)) :=
      EApp.add hu huw hw 116.7 hA hLB ((abs_add_le _ _).trans (add_le_add hA.1 hLB.1)) (by norm_num) (by nlinarith) (by norm_num)
    exact EApp.mul (c := 117.8) (e := 780.7) hu huw hw (by norm_num) (by norm_num) hAB (EApp.pow hu huw hw (c := 111) (by norm_num) t.1 (by nlinarith) hp (by nlinarith)) (by norm_num)
  have hf := EApp.fold hu huw hw (((List.range coeffsKm1.length).zip coeffsKm1).map fun t => (Expr.mul (.add t.2.1 (.mul (.log (.div (.input 1) p)) t.2.2)) (.pow p t.1), (t.2.1.value + (1 + L) * t.2.2.value) * p.value ^ t.1))
    (c := 900) (S := 0) (s := .input 0) (by
      intro y hy
      obtain ⟨t, ht, rfl⟩ := List.mem_map.1 hy
      exact hterm t ht) le_rfl (by simp [coeffsKm1]; norm_num) ((EApp.input (s := 0) (by simp)).scale (hu.trans huw) (by simp [Expr.value]) (by simp))
  rw [List.map_map, List.map_map] at hf
  change EApp u w _ _ (ellipkm1E p) at hf
  set T := (List.map (Prod.snd ∘ fun t : ℕ × Expr × Expr => (Expr.mul (.add t.2.1 (.mul (.log (.div (.input 1) p)) t.2.2)) (.pow p t.1), (t.2.1.value + (1 + L) * t.2.2.value) * p.value ^ t.1)) ((List.range coeffsKm1.length).zip coeffsKm1)).sum with hT
  have l4 : (1.386 : ℝ) ≤ Real.log 4 := by
    rw [show (4 : ℝ) = 2 ^ 2 by norm_num, Real.log_pow]
    have := Real.log_two_gt_d9
    norm_num at this ⊢
    linarith
  have hK : ellipkm1 p.value = (Real.log 4 + L * (1 / 2)) + (9.65736020516771e-2 + L * 1.24999998585309e-1) * p.value + (3.08909633861795e-2 + L * 7.03114105853296e-2) * p.value ^ 2 +
      (1.52618320622534e-2 + L * 4.87379510945218e-2) * p.value ^ 3 + (1.25565693543211e-2 + L * 3.57218443007327e-2) * p.value ^ 4 + (1.68695685967517e-2 + L * 2.09857677336790e-2) * p.value ^ 5 +
      (1.09423810688623e-2 + L * 5.81807961871996e-3) * p.value ^ 6 + (1.40704915496101e-3 + L * 3.42805719229748e-4) * p.value ^ 7 := by
    simp only [ellipkm1, chebSum, List.length_cons, List.length_nil, List.range_succ, List.range_zero, List.nil_append, List.cons_append, List.zip_cons_cons, List.zip_nil_right, List.foldl_cons, List.foldl_nil, ← hL]
    ring
  have hT' : T = ellipkm1 p.value + (1 / 2 + 1.24999998585309e-1 * p.value + 7.03114105853296e-2 * p.value ^ 2 + 4.87379510945218e-2 * p.value ^ 3 + 3.57218443007327e-2 * p.value ^ 4 +
      2.09857677336790e-2 * p.value ^ 5 + 5.81807961871996e-3 * p.value ^ 6 + 3.42805719229748e-4 * p.value ^ 7) := by
    rw [hK, hT]
    simp only [coeffsKm1, List.length_cons, List.length_nil, List.range_succ, List.range_zero, List.nil_append, List.cons_append, List.zip_cons_cons, List.zip_nil_right, List.map_cons, List.map_nil, List.sum_cons, List.sum_nil,
      Function.comp_apply, Expr.value]
    ring
  have hpow : ∀ n : ℕ, 0 ≤ p.value ^ n ∧ p.value ^ n ≤ 1 := fun n => ⟨by positivity, pow_le_one₀ p0.le p1⟩
  have hKlow : Real.log 4 ≤ ellipkm1 p.value := by
    rw [hK]
    have : ∀ a b : ℝ, 0 ≤ a → 0 ≤ b → ∀ n : ℕ, 0 ≤ (a + L * b) * p.value ^ n := fun a b ha hb n => by have := hpow n; positivity
    have h1 : 0 ≤ (9.65736020516771e-2 + L * 1.24999998585309e-1) * p.value := by positivity
    have h2 := this 3.08909633861795e-2 7.03114105853296e-2 (by norm_num) (by norm_num) 2
    have h3 := this 1.52618320622534e-2 4.87379510945218e-2 (by norm_num) (by norm_num) 3
    have h4 := this 1.25565693543211e-2 3.57218443007327e-2 (by norm_num) (by norm_num) 4
    have h5 := this 1.68695685967517e-2 2.09857677336790e-2 (by norm_num) (by norm_num) 5
    have h6 := this 1.09423810688623e-2 5.81807961871996e-3 (by norm_num) (by norm_num) 6
    have h7 := this 1.40704915496101e-3 3.42805719229748e-4 (by norm_num) (by norm_num) 7
    linarith
  have hTK : T ≤ 1.6 * ellipkm1 p.value := by
    rw [hT']
    have h2 := (hpow 2).2
    have h3 := (hpow 3).2
    have h4 := (hpow 4).2
    have h5 := (hpow 5).2
    have h6 := (hpow 6).2
    have h7 := (hpow 7).2
    linarith
  have K0 : 0 < ellipkm1 p.value := by linarith
  refine ⟨K0, hf.scale (hu.trans huw) (by rw [ellipkm1_value, abs_of_pos K0]) ?_⟩
  simp only [coeffsKm1, List.length_map, List.length_zip, List.length_range, List.length_cons, List.length_nil, zero_add, min_self]
  norm_num
  linarith

/-! ## The ring -/

theorem norm2d_app (hu : 0 ≤ u) (hw : u ≤ 1e-6) (x y : ℝ) : EApp u u 3.01 (norm2d x y) (norm2dE x y) := by
  have sq : ∀ a : ℝ, EApp u u 1 (a * a) (.mul (.input a) (.input a)) := fun a => by
    have := EApp.mul hu le_rfl hw le_rfl le_rfl (EApp.input (u := u) (w := u) (le_refl |a|)) (EApp.input (le_refl |a|)) (c' := 1) (by norm_num)
    rwa [abs_mul_abs_self] at this
  refine EApp.sqrt hu le_rfl hw (c := 2.001) (by norm_num) (by norm_num) (add_nonneg (mul_self_nonneg x) (mul_self_nonneg y)) ?_ (by norm_num)
  exact EApp.add hu le_rfl hw 1 (sq x) (sq y) (abs_of_nonneg (add_nonneg (mul_self_nonneg x) (mul_self_nonneg y))).le (by norm_num) (by change 1 * (x * x) + 1 * (y * y) ≤ 1 * (x * x + y * y); linarith) (by norm_num)

theorem ring_app (hu : 0 ≤ u) (huw : u ≤ w) (hw : w ≤ 1e-6) {e0 : Expr} {R z0 r z : ℝ} (he : e0.value = R) (hR : 0 ≤ R) (h0 : EApp u u 3.01 R e0) (hr : 0 < r) (hρ : 0 < (z - z0) ^ 2 + (r - R) ^ 2)
    (h1 : u * (r + R) ≤ w * r) (h2 : u * (r + R) ≤ w * Real.sqrt ((z - z0) ^ 2 + (r - R) ^ 2)) :
    (potentialRingE e0 z0 r z).value = potentialRadialRing R z0 r z ∧ 0 ≤ potentialRadialRing R z0 r z ∧ EApp u w 1504 (potentialRadialRing R z0 r z) (potentialRingE e0 z0 r z) := by
  have w0 : 0 ≤ w := hu.trans huw
  set ρ := Real.sqrt ((z - z0) ^ 2 + (r - R) ^ 2) with hρd
  have ρ0 : 0 < ρ := Real.sqrt_pos.2 hρ
  have ρ2 : ρ ^ 2 = (z - z0) ^ 2 + (r - R) ^ 2 := Real.sq_sqrt hρ.le
  have hΔ : 0 < (z - z0) ^ 2 + (r + R) ^ 2 := by positivity
  set Δ := Real.sqrt ((z - z0) ^ 2 + (r + R) ^ 2) with hΔd
  have Δ0 : 0 < Δ := Real.sqrt_pos.2 hΔ
  have Δ2 : Δ ^ 2 = (z - z0) ^ 2 + (r + R) ^ 2 := Real.sq_sqrt hΔ.le
  have zρ : |z - z0| ≤ ρ := abs_le_of_sq_le_sq (by nlinarith [sq_nonneg (r - R)]) ρ0.le
  have rρ : |r - R| ≤ ρ := abs_le_of_sq_le_sq (by nlinarith [sq_nonneg (z - z0)]) ρ0.le
  have ρΔ : ρ ≤ Δ := Real.sqrt_le_sqrt (by nlinarith)
  have SΔ : r + R ≤ Δ := Real.le_sqrt_of_sq_le (by nlinarith [sq_nonneg (z - z0)])
  have SR : |r - R| ≤ r + R := abs_le.2 ⟨by linarith, by linarith⟩
  have uΔ : u * (r + R) ≤ w * Δ := mul_le_mul huw SΔ (by positivity) w0
  have uw6 : u ≤ 1e-6 := huw.trans hw
  -- differences
  have edz : EApp u w 1 ρ (.sub (.input z) (.input z0)) :=
    EApp.sub hu huw hw 0 (EApp.input (le_refl |z|)) (EApp.input (le_refl |z0|)) zρ le_rfl (by norm_num) (by norm_num)
  have edrU : EApp u u 4.02 (r + R) (.sub (.input r) e0) := by
    refine EApp.sub hu le_rfl uw6 3.01 (EApp.input (le_refl |r|)) h0 ?_ (by norm_num) (by nlinarith) (by norm_num)
    rw [he]; exact SR
  have vdr : (Expr.sub (.input r) e0).value = r - R := by simp [Expr.value, he]
  have edr : EApp u w 4.02 ρ (.sub (.input r) e0) := edrU.weight (by norm_num) (by rw [vdr]; exact rρ) h2
  have eN : EApp u w 15.3 (ρ ^ 2) (.add (.pow (.sub (.input z) (.input z0)) 2) (.pow (.sub (.input r) e0) 2)) := by
    refine EApp.add hu huw hw 14.2 (EApp.pow hu huw hw (by norm_num) 2 (by norm_num) edz (c' := 4.1) (by norm_num)) (EApp.pow hu huw hw (by norm_num) 2 (by norm_num) edr (c' := 10.1) (by norm_num)) ?_ (by norm_num) (by linarith) (by norm_num)
    simp only [Expr.value, he]
    rw [abs_of_nonneg hρ.le, ρ2]
  have vN : (Expr.add (.pow (.sub (.input z) (.input z0)) 2) (.pow (.sub (.input r) e0) 2)).value = ρ ^ 2 := by simp only [Expr.value, he]; rw [ρ2]
  -- the same, relative to the larger distance
  have edzD : EApp u w 1 Δ (.sub (.input z) (.input z0)) := edz.scale w0 (zρ.trans ρΔ) (by linarith)
  have edrD : EApp u w 4.02 Δ (.sub (.input r) e0) := edrU.weight (by norm_num) (by rw [vdr]; exact rρ.trans ρΔ) uΔ
  have e0D : EApp u w 3.01 Δ e0 := by
    refine ⟨by rw [he, abs_of_nonneg hR]; linarith, fun x hx => (h0.2 x hx).trans ?_⟩
    have : u * R ≤ w * Δ := (mul_le_mul_of_nonneg_left (by linarith) hu).trans uΔ
    nlinarith
  have e4r : EApp u w 4.02 (4 * Δ) (.mul (.input 4) e0) := EApp.mul hu huw hw le_rfl (by norm_num) (EApp.input (by norm_num)) e0D (by norm_num)
  have e4rd : EApp u w 9.05 (4 * Δ * Δ) (.mul (.mul (.input 4) e0) (.sub (.input r) e0)) := EApp.mul hu huw hw (by norm_num) (by norm_num) e4r edrD (by norm_num)
  have eD1 : EApp u w 11.4 (5 * Δ ^ 2) (.add (.add (.pow (.sub (.input z) (.input z0)) 2) (.pow (.sub (.input r) e0) 2)) (.mul (.mul (.input 4) e0) (.sub (.input r) e0))) := by
    refine EApp.add hu huw hw 10.31 eN e4rd ?_ (by norm_num) (by nlinarith [pow_le_pow_left₀ ρ0.le ρΔ 2]) (by norm_num)
    refine (abs_add_le _ _).trans ((add_le_add eN.1 e4rd.1).trans ?_)
    nlinarith [pow_le_pow_left₀ ρ0.le ρΔ 2]
  have e4rr : EApp u w 9.1 (4 * Δ ^ 2) (.mul (.input 4) (.pow e0 2)) :=
    EApp.mul hu huw hw le_rfl (by norm_num) (EApp.input (by norm_num)) (EApp.pow hu huw hw (by norm_num) 2 (by norm_num) e0D (c' := 8.05) (by norm_num)) (by norm_num)
  have vD : (Expr.add (.add (.add (.pow (.sub (.input z) (.input z0)) 2) (.pow (.sub (.input r) e0) 2)) (.mul (.mul (.input 4) e0) (.sub (.input r) e0))) (.mul (.input 4) (.pow e0 2))).value = Δ ^ 2 := by
    simp only [Expr.value, he]; rw [Δ2]; ring
  have eD : EApp u w 94.5 (Δ ^ 2) (.add (.add (.add (.pow (.sub (.input z) (.input z0)) 2) (.pow (.sub (.input r) e0) 2)) (.mul (.mul (.input 4) e0) (.sub (.input r) e0))) (.mul (.input 4) (.pow e0 2))) := by
    refine EApp.add hu huw hw 93.4 eD1 e4rr ?_ (by norm_num) (by linarith [sq_nonneg Δ]) (by norm_num)
    change |(Expr.add (.add (.add (.pow (.sub (.input z) (.input z0)) 2) (.pow (.sub (.input r) e0) 2)) (.mul (.mul (.input 4) e0) (.sub (.input r) e0))) (.mul (.input 4) (.pow e0 2))).value| ≤ _
    rw [vD, abs_of_nonneg (sq_nonneg Δ)]
  set N : Expr := .add (.pow (.sub (.input z) (.input z0)) 2) (.pow (.sub (.input r) e0) 2) with hN
  set D : Expr := .add (.add N (.mul (.mul (.input 4) e0) (.sub (.input r) e0))) (.mul (.input 4) (.pow e0 2)) with hD
  have Dpos : 0 < D.value := by rw [vD]; positivity
  have vt : (Expr.div N D).value = ρ ^ 2 / Δ ^ 2 := by change N.value / D.value = _; rw [vN, vD]
  have et : EApp u w 111 (Expr.div N D).value (.div N D) := by
    have := EApp.div (e := 94.5) hu huw hw 109.9 (by norm_num) (by norm_num) (by norm_num) Dpos eN (by rw [vD]; exact eD) (c' := 111) (by norm_num) (by norm_num)
    rwa [vD, ← vt] at this
  have t0 : 0 < (Expr.div N D).value := by rw [vt]; positivity
  have t1 : (Expr.div N D).value ≤ 1 := by
    rw [vt, div_le_one (by positivity)]
    exact pow_le_pow_left₀ ρ0.le ρΔ 2
  obtain ⟨K0, eK⟩ := ellipkm1_app hu huw hw t0 t1 et
  set K := ellipkm1 (Expr.div N D).value with hK
  -- the factors
  have epi : EApp u w 2.01 (1 / Real.pi) (.div (.input 1) (.const Real.pi)) :=
    EApp.div hu huw hw 1.001 le_rfl (by norm_num) (by norm_num) Real.pi_pos (EApp.input (s := 1) (by norm_num)) (EApp.const hu huw hw (abs_of_pos Real.pi_pos).le le_rfl) (by norm_num) (by norm_num)
  have eKp : EApp u w 1458.1 (1 / Real.pi * K) (.mul (.div (.input 1) (.const Real.pi)) (ellipkm1E (.div N D))) := EApp.mul hu huw hw (by norm_num) (by norm_num) epi eK (by norm_num)
  have vrr : (Expr.add (.sub (.input r) e0) e0).value = r := by simp only [Expr.value, he]; ring
  have errU : EApp u u 8.04 (r + R) (.add (.sub (.input r) e0) e0) := by
    refine EApp.add hu le_rfl uw6 7.03 edrU h0 ?_ (by norm_num) (by nlinarith) (by norm_num)
    change |(Expr.add (.sub (.input r) e0) e0).value| ≤ _
    rw [vrr, abs_of_pos hr]; linarith
  have err : EApp u w 8.04 r (.add (.sub (.input r) e0) e0) := errU.weight (by norm_num) (by rw [vrr, abs_of_pos hr]) h1
  have enum : EApp u w 1467.2 (1 / Real.pi * K * r) (.mul (.mul (.div (.input 1) (.const Real.pi)) (ellipkm1E (.div N D))) (.add (.sub (.input r) e0) e0)) :=
    EApp.mul hu huw hw (by norm_num) (by norm_num) eKp err (by norm_num)
  have e2r : EApp u w 4.02 (2 * Δ) (.mul (.input 2) e0) := EApp.mul hu huw hw le_rfl (by norm_num) (EApp.input (by norm_num)) e0D (by norm_num)
  have vS : (Expr.add (.sub (.input r) e0) (.mul (.input 2) e0)).value = r + R := by simp only [Expr.value, he]; ring
  have eS : EApp u w 13.1 Δ (.add (.sub (.input r) e0) (.mul (.input 2) e0)) := by
    refine EApp.add hu huw hw 12.06 edrD e2r ?_ (by norm_num) (by linarith) (by norm_num)
    change |(Expr.add (.sub (.input r) e0) (.mul (.input 2) e0)).value| ≤ _
    rw [vS, abs_of_pos (by linarith)]; exact SΔ
  have vden : (Expr.add (.pow (.sub (.input z) (.input z0)) 2) (.pow (.add (.sub (.input r) e0) (.mul (.input 2) e0)) 2)).value = (z - z0) ^ 2 + (r + R) ^ 2 := by
    change (z - z0) ^ 2 + (Expr.add (.sub (.input r) e0) (.mul (.input 2) e0)).value ^ 2 = _
    rw [vS]
  have eden : EApp u w 33.5 ((z - z0) ^ 2 + (r + R) ^ 2) (.add (.pow (.sub (.input z) (.input z0)) 2) (.pow (.add (.sub (.input r) e0) (.mul (.input 2) e0)) 2)) := by
    refine EApp.add hu huw hw 32.4 (EApp.pow hu huw hw (by norm_num) 2 (by norm_num) edzD (c' := 4.1) (by norm_num)) (EApp.pow hu huw hw (by norm_num) 2 (by norm_num) eS (c' := 28.3) (by norm_num)) ?_ (by norm_num) (by rw [Δ2]; linarith) (by norm_num)
    change |(Expr.add (.pow (.sub (.input z) (.input z0)) 2) (.pow (.add (.sub (.input r) e0) (.mul (.input 2) e0)) 2)).value| ≤ _
    rw [vden, abs_of_pos hΔ]
  set den : Expr := .add (.pow (.sub (.input z) (.input z0)) 2) (.pow (.add (.sub (.input r) e0) (.mul (.input 2) e0)) 2) with hden
  have vsq : (Expr.sqrt den).value = Δ := by change Real.sqrt den.value = _; rw [vden]
  have esq : EApp u w 34.6 (Expr.sqrt den).value (.sqrt den) :=
    EApp.sqrt (c := 33.5) hu huw hw (by norm_num) (by norm_num) (by rw [vden]; exact hΔ.le) (by rw [vden]; exact eden) (by norm_num)
  have ev : potentialRadialRing R z0 r z = 1 / Real.pi * K * r / Δ := by
    unfold potentialRadialRing potentialRingWith
    simp only []
    have a1 : (z - z0) ^ 2 + (r - R) ^ 2 + 4 * R * (r - R) + 4 * R ^ 2 = Δ ^ 2 := by rw [Δ2]; ring
    have a2 : (z - z0) ^ 2 + (r - R + 2 * R) ^ 2 = (z - z0) ^ 2 + (r + R) ^ 2 := by ring
    rw [a1, a2, ← ρ2, ← vt, ← hK, ← hΔd, show r - R + R = r by ring]
  have eR := EApp.div hu huw hw 1502 (by norm_num) (by norm_num) (by norm_num) (by rw [vsq]; exact Δ0) enum esq (c' := 1504) (by norm_num) (by norm_num)
  rw [vsq, ← ev] at eR
  refine ⟨?_, ?_, eR⟩
  · change 1 / Real.pi * (ellipkm1E (.div N D)).value * (Expr.add (.sub (.input r) e0) e0).value / (Expr.sqrt den).value = _
    rw [ellipkm1_value, vrr, vsq, ev]
  · rw [ev]; have := Real.pi_pos; positivity

theorem LoopR.error_real (h0 : 0 ≤ u) (h1 : u < 1) {d : Nat} {η : ℝ} (hη : 0 ≤ η) {ts : List Expr} {v : ℝ} (h : LoopR u d ts v) (hk : ∀ t ∈ ts, ∀ x, Rounded u t x → |x - t.value| ≤ η * |t.value|) :
    |v - (ts.map Expr.value).sum| ≤ (((1 - u) ^ d)⁻¹ * (1 + η) - 1) * (ts.map fun t => |t.value|).sum := by
  obtain ⟨vs, hvs, hs⟩ := h
  have hs' := hs.error h0 h1
  have hf : List.Forall₂ (fun x y => |y - x| ≤ η * |x|) (ts.map Expr.value) vs := by
    rw [List.forall₂_map_left_iff]
    clear hs hs'
    induction hvs with
    | nil => exact .nil
    | @cons t x ts vs htx _ ih => exact .cons (hk t (by simp) x htx) (ih fun t' ht' => hk t' (by simp [ht']))
  obtain ⟨g1, g2⟩ := abs_sum_le hf
  rw [List.map_map, show (abs ∘ Expr.value) = fun t => |t.value| from rfl] at g1 g2
  set S := (ts.map fun t => |t.value|).sum
  set D := ((1 - u) ^ d)⁻¹
  have hD : 1 ≤ D := one_le_inv h0 h1 d
  have : |v - (ts.map Expr.value).sum| ≤ |v - vs.sum| + |vs.sum - (ts.map Expr.value).sum| := by
    calc |v - (ts.map Expr.value).sum| = |(v - vs.sum) + (vs.sum - (ts.map Expr.value).sum)| := by congr 1; ring
      _ ≤ _ := abs_add_le _ _
  have h2 := mul_le_mul_of_nonneg_left g2 (show 0 ≤ D - 1 by linarith)
  nlinarith

end Traceon.Fp

namespace Traceon
open Fp

/-- **C106**, axisymmetric potentials: `κ` says how near to the charges the point is, and how near to the axis the charges are, in comparison with the distances from the axis. -/
theorem C106_radial {u κ : ℝ} (hu : 0 ≤ u) (hκ1 : 1 ≤ κ) (hκ : κ * u ≤ 1e-6) {d : Nat} (hd : d * u ≤ 1e-3) (p : V3) (e : EffCharges (ℝ × ℝ))
    (hq : ∀ x ∈ points e, 0 < x.2.2.1 ∧ x.2.2.1 + norm2d p.x p.y ≤ κ * x.2.2.1 ∧ x.2.2.1 + norm2d p.x p.y ≤ κ * Real.sqrt ((x.2.2.2 - p.z) ^ 2 + (x.2.2.1 - norm2d p.x p.y) ^ 2))
    {v : ℝ} (h : PotentialRadialR u d p e v) :
    |v - potentialRadial p e| ≤ (1600 * κ + 2 * d) * u * Spec.sizes e (fun q => potentialRadialRing (norm2d p.x p.y) p.z q.1 q.2) := by
  have huw : u ≤ κ * u := le_mul_of_one_le_left hu hκ1
  have hu6 : u ≤ 1e-6 := huw.trans hκ
  have h1 : u < 1 := lt_of_le_of_lt hu6 (by norm_num)
  have R0 : 0 ≤ norm2d p.x p.y := Real.sqrt_nonneg _
  have hring : ∀ x ∈ points e, (potentialRingE (norm2dE p.x p.y) p.z x.2.2.1 x.2.2.2).value = potentialRadialRing (norm2d p.x p.y) p.z x.2.2.1 x.2.2.2 ∧
      0 ≤ potentialRadialRing (norm2d p.x p.y) p.z x.2.2.1 x.2.2.2 ∧
      EApp u (κ * u) 1504 (potentialRadialRing (norm2d p.x p.y) p.z x.2.2.1 x.2.2.2) (potentialRingE (norm2dE p.x p.y) p.z x.2.2.1 x.2.2.2) := by
    intro x hx
    obtain ⟨q1, q2, q3⟩ := hq x hx
    refine ring_app hu huw hκ rfl R0 (norm2d_app hu hu6 _ _) q1 ?_ ?_ ?_
    · by_contra hn
      rw [Real.sqrt_eq_zero_of_nonpos (not_lt.1 hn)] at q3
      linarith
    · nlinarith
    · nlinarith
  have key := h.error_real hu h1 (η := 1508 * (κ * u)) (by positivity) (fun t ht x hx => by
    obtain ⟨y, hy, rfl⟩ := List.mem_map.1 ht
    obtain ⟨r1, r2, r3⟩ := hring y hy
    have e1 : EApp u (κ * u) 1 (|y.1| * |y.2.1|) (.mul (.input y.1) (.input y.2.1)) := EApp.mul hu huw hκ le_rfl le_rfl (EApp.input le_rfl) (EApp.input le_rfl) (by norm_num)
    have := (EApp.mul hu huw hκ (by norm_num) (by norm_num) e1 r3 (c' := 1508) (by norm_num)).2 x hx
    unfold App at this
    have ev : |(termE y.1 y.2.1 (potentialRingE (norm2dE p.x p.y) p.z y.2.2.1 y.2.2.2)).value| = |y.1| * |y.2.1| * potentialRadialRing (norm2d p.x p.y) p.z y.2.2.1 y.2.2.2 := by
      simp only [termE, Expr.value]
      rw [r1, abs_mul, abs_mul, abs_of_nonneg r2]
    rw [ev]
    exact this)
  have e1 : (((points e).map fun x => termE x.1 x.2.1 (potentialRingE (norm2dE p.x p.y) p.z x.2.2.1 x.2.2.2)).map Expr.value).sum = potentialRadial p e := by
    unfold potentialRadial
    rw [← points_sum e (fun q => potentialRadialRing (norm2d p.x p.y) p.z q.1 q.2), List.map_map]
    congr 1
  have e2 : (((points e).map fun x => termE x.1 x.2.1 (potentialRingE (norm2dE p.x p.y) p.z x.2.2.1 x.2.2.2)).map fun t => |t.value|).sum =
      Spec.sizes e (fun q => potentialRadialRing (norm2d p.x p.y) p.z q.1 q.2) := by
    unfold Spec.sizes
    rw [List.map_map]
    congr 1
  rw [e1, e2] at key
  refine key.trans (mul_le_mul_of_nonneg_right ?_ (List.sum_nonneg (by simp only [List.mem_map]; rintro _ ⟨y, -, rfl⟩; positivity)))
  have hg := inv_le_gamma hu h1 (m := d) (lt_of_le_of_lt hd (by norm_num))
  have hg' : gamma u d ≤ 1.002 * (d * u) := by
    unfold gamma
    have d0 : 0 ≤ (d : ℝ) * u := by positivity
    rw [div_le_iff₀ (by norm_num at hd ⊢; linarith)]
    generalize (d : ℝ) * u = z at *
    nlinarith
  have hD : ((1 - u) ^ d)⁻¹ ≤ 1 + 1.002 * (d * u) := by linarith
  have k0 : 0 ≤ κ * u := hu.trans huw
  have d0 : 0 ≤ (d : ℝ) * u := by positivity
  have := mul_le_mul_of_nonneg_right hD (show 0 ≤ 1 + 1508 * (κ * u) by positivity)
  have m := mul_nonneg k0 (show 0 ≤ 1e-3 - (d : ℝ) * u by linarith)
  nlinarith

/-- Away from the charges a value is computed: exact arithmetic is one of the possibilities. -/
theorem C106_radial_computed {u : ℝ} (hu : 0 ≤ u) {p : V3} {e : EffCharges (ℝ × ℝ)}
    (hq : ∀ x ∈ points e, 0 < x.2.2.1 ∧ 0 < (x.2.2.2 - p.z) ^ 2 + (x.2.2.1 - norm2d p.x p.y) ^ 2) : ∃ v, PotentialRadialR u (points e).length p e v := by
  have R0 : 0 ≤ norm2d p.x p.y := Real.sqrt_nonneg _
  have re : ∀ x : ℝ, Rnd u x x := rnd_self hu
  have hnorm : Rounded u (norm2dE p.x p.y) (norm2d p.x p.y) := .sqrt (.add (.mul (.input _) (.input _) (re _)) (.mul (.input _) (.input _) (re _)) (re _)) (re _)
  have hfold : ∀ (l : List Expr) (s : Expr) (y : ℝ), Rounded u s y → (∀ t ∈ l, ∃ x, Rounded u t x) → ∃ x, Rounded u (l.foldl Expr.add s) x := by
    intro l
    induction l with
    | nil => exact fun s y hs _ => ⟨y, hs⟩
    | cons t l ih =>
      intro s y hs hl
      obtain ⟨x, hx⟩ := hl t (by simp)
      exact ih (.add s t) _ (.add hs hx (re _)) fun t' ht' => hl t' (by simp [ht'])
  have hell : ∀ (t : Expr) (v : ℝ), Rounded u t v → 0 < v → ∃ k, Rounded u (ellipkm1E t) k := by
    intro t v ht v0
    have hL := Rounded.log (.div (.input 1) ht v0.ne' (re _)) (one_div_pos.2 v0) (re _) (re _)
    refine hfold _ _ 0 (.input 0) fun t' ht' => ?_
    obtain ⟨y, hy, rfl⟩ := List.mem_map.1 ht'
    have hAB : (∃ a, Rounded u y.2.1 a) ∧ ∃ b, Rounded u y.2.2 b := by
      simp only [coeffsKm1, List.length_cons, List.length_nil, List.range_succ, List.range_zero, List.nil_append, List.cons_append, List.zip_cons_cons, List.zip_nil_right, List.mem_cons, List.not_mem_nil, or_false] at hy
      rcases hy with rfl | rfl | rfl | rfl | rfl | rfl | rfl | rfl
      · exact ⟨⟨_, .log (.input 4) (by norm_num) (re _) (re _)⟩, ⟨_, .div (.input 1) (.input 2) (by norm_num) (re _)⟩⟩
      all_goals exact ⟨⟨_, .const (re _)⟩, ⟨_, .const (re _)⟩⟩
    obtain ⟨⟨a, ha⟩, ⟨b, hb⟩⟩ := hAB
    exact ⟨_, .mul (.add ha (.mul hL hb (re _)) (re _)) (.pow ht (re _) (re _)) (re _)⟩
  have hring : ∀ x ∈ points e, ∃ y, Rounded u (termE x.1 x.2.1 (potentialRingE (norm2dE p.x p.y) p.z x.2.2.1 x.2.2.2)) y := by
    intro x hx
    obtain ⟨q1, q2⟩ := hq x hx
    have hdz : Rounded u (.sub (.input x.2.2.2) (.input p.z)) (x.2.2.2 - p.z) := .sub (.input _) (.input _) (re _)
    have hdr : Rounded u (.sub (.input x.2.2.1) (norm2dE p.x p.y)) (x.2.2.1 - norm2d p.x p.y) := .sub (.input _) hnorm (re _)
    have hN := Rounded.add (.pow (n := 2) hdz (re _) (re _)) (.pow (n := 2) hdr (re _) (re _)) (re _)
    have hD := Rounded.add (.add hN (.mul (.mul (.input 4) hnorm (re _)) hdr (re _)) (re _)) (.mul (.input 4) (.pow (n := 2) hnorm (re _) (re _)) (re _)) (re _)
    have D0 : 0 < (x.2.2.2 - p.z) ^ 2 + (x.2.2.1 - norm2d p.x p.y) ^ 2 + 4 * norm2d p.x p.y * (x.2.2.1 - norm2d p.x p.y) + 4 * norm2d p.x p.y ^ 2 := by
      have : (x.2.2.2 - p.z) ^ 2 + (x.2.2.1 - norm2d p.x p.y) ^ 2 + 4 * norm2d p.x p.y * (x.2.2.1 - norm2d p.x p.y) + 4 * norm2d p.x p.y ^ 2 = (x.2.2.2 - p.z) ^ 2 + (x.2.2.1 + norm2d p.x p.y) ^ 2 := by ring
      rw [this]; positivity
    have ht := Rounded.div hN hD D0.ne' (re _)
    obtain ⟨k, hk⟩ := hell _ _ ht (div_pos q2 D0)
    have hden := Rounded.sqrt (.add (.pow (n := 2) hdz (re _) (re _)) (.pow (n := 2) (.add hdr (.mul (.input 2) hnorm (re _)) (re _)) (re _) (re _)) (re _)) (re _)
    have d0 : Real.sqrt ((x.2.2.2 - p.z) ^ 2 + (x.2.2.1 - norm2d p.x p.y + 2 * norm2d p.x p.y) ^ 2) ≠ 0 := by
      refine (Real.sqrt_pos.2 ?_).ne'
      rw [show x.2.2.1 - norm2d p.x p.y + 2 * norm2d p.x p.y = x.2.2.1 + norm2d p.x p.y by ring]
      positivity
    exact ⟨_, .mul (.mul (.input _) (.input _) (re _)) (.div (.mul (.mul (.div (.input 1) (.const (re _)) Real.pi_ne_zero (re _)) hk (re _)) (.add hdr hnorm (re _)) (re _)) hden d0 (re _)) (re _)⟩
  have : ∃ vs, List.Forall₂ (Rounded u) ((points e).map fun x => termE x.1 x.2.1 (potentialRingE (norm2dE p.x p.y) p.z x.2.2.1 x.2.2.2)) vs := by
    revert hring
    generalize points e = l
    intro hring
    induction l with
    | nil => exact ⟨[], .nil⟩
    | cons x l ih =>
      obtain ⟨vs, hvs⟩ := ih fun y hy => hring y (List.mem_cons_of_mem _ hy)
      obtain ⟨y, hy⟩ := hring x List.mem_cons_self
      exact ⟨y :: vs, .cons hy hvs⟩
  obtain ⟨vs, hvs⟩ := this
  refine ⟨vs.foldl (fun s x => id (s + x)) 0, vs, hvs, ?_⟩
  have := serial_sum (r := id) re vs
  rwa [← hvs.length_eq, List.length_map] at this

/-- Two rings charged oppositely, with radii 1 and 2, seen from a point at the distance 5 of the axis: `κ` = 6 will do, and doubles satisfy the condition. -/
theorem C106_radial_example : let e : EffCharges (ℝ × ℝ) := ⟨1, [1, -2], [[1], [1]], [[(1, 0)], [(2, 1)]]⟩
    (1 : ℝ) ≤ 6 ∧ (6 : ℝ) * 2⁻¹ ^ 53 ≤ 1e-6 ∧ ∀ x ∈ points e, 0 < x.2.2.1 ∧ x.2.2.1 + norm2d 3 4 ≤ 6 * x.2.2.1 ∧ x.2.2.1 + norm2d 3 4 ≤ 6 * Real.sqrt ((x.2.2.2 - 0) ^ 2 + (x.2.2.1 - norm2d 3 4) ^ 2) := by
  intro e
  have h5 : norm2d 3 4 = 5 := by
    unfold norm2d
    rw [show (3 : ℝ) * 3 + 4 * 4 = 5 ^ 2 by norm_num]; exact Real.sqrt_sq (by norm_num)
  refine ⟨by norm_num, by norm_num, fun x hx => ?_⟩
  simp only [e, points, List.zip_cons_cons, List.zip_nil_right, List.flatMap_cons, List.flatMap_nil, List.map_cons, List.map_nil, List.cons_append, List.nil_append, List.mem_cons,
    List.not_mem_nil, or_false] at hx
  rcases hx with rfl | rfl
  · refine ⟨by norm_num, by rw [h5]; norm_num, ?_⟩
    rw [h5]
    have : (4 : ℝ) ≤ Real.sqrt ((0 - 0) ^ 2 + (1 - 5) ^ 2) := Real.le_sqrt_of_sq_le (by norm_num)
    norm_num at this ⊢
  · refine ⟨by norm_num, by rw [h5]; norm_num, ?_⟩
    rw [h5]
    have : (3 : ℝ) ≤ Real.sqrt ((1 - 0) ^ 2 + (2 - 5) ^ 2) := Real.le_sqrt_of_sq_le (by norm_num)
    norm_num at this ⊢
    linarith

end Traceon
