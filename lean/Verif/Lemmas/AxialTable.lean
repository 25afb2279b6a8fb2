import Verif.Model.Axial3D
import Mathlib.Tactic.FieldSimp
import Mathlib.Tactic.Linarith
import Mathlib.Tactic.IntervalCases

/-!
# The tables of three_d.c:102-178

Generated: the entries of `output_base` are polynomials of `s`, the distance of the charge to the axis divided by its distance to the point on the axis.
-/
namespace Traceon

/-- `output_base[nu][m]` up to a constant factor. -/
noncomputable def axisPoly (nu m : Nat) (s : ℝ) : ℝ :=
  match nu, m with
  | 0, 0 => (1)
  | 0, 1 => (1) * s ^ 1
  | 0, 2 => (3 / 4) * s ^ 2
  | 0, 3 => (5 / 8) * s ^ 3
  | 0, 4 => (35 / 64) * s ^ 4
  | 0, 5 => (63 / 128) * s ^ 5
  | 0, 6 => (231 / 512) * s ^ 6
  | 0, 7 => (429 / 1024) * s ^ 7
  | 1, 0 => (-1 / 2) + (3 / 4) * s ^ 2
  | 1, 1 => (-3 / 2) * s ^ 1 + (15 / 8) * s ^ 3
  | 1, 2 => (-15 / 8) * s ^ 2 + (35 / 16) * s ^ 4
  | 1, 3 => (-35 / 16) * s ^ 3 + (315 / 128) * s ^ 5
  | 1, 4 => (-315 / 128) * s ^ 4 + (693 / 256) * s ^ 6
  | 1, 5 => (-693 / 256) * s ^ 5 + (3003 / 1024) * s ^ 7
  | 1, 6 => (-3003 / 1024) * s ^ 6 + (6435 / 2048) * s ^ 8
  | 1, 7 => (-6435 / 2048) * s ^ 7 + (109395 / 32768) * s ^ 9
  | 2, 0 => (3 / 8) + (-15 / 8) * s ^ 2 + (105 / 64) * s ^ 4
  | 2, 1 => (15 / 8) * s ^ 1 + (-105 / 16) * s ^ 3 + (315 / 64) * s ^ 5
  | 2, 2 => (105 / 32) * s ^ 2 + (-315 / 32) * s ^ 4 + (3465 / 512) * s ^ 6
  | 2, 3 => (315 / 64) * s ^ 3 + (-3465 / 256) * s ^ 5 + (9009 / 1024) * s ^ 7
  | 2, 4 => (3465 / 512) * s ^ 4 + (-9009 / 512) * s ^ 6 + (45045 / 4096) * s ^ 8
  | 2, 5 => (9009 / 1024) * s ^ 5 + (-45045 / 2048) * s ^ 7 + (109395 / 8192) * s ^ 9
  | 2, 6 => (45045 / 4096) * s ^ 6 + (-109395 / 4096) * s ^ 8 + (2078505 / 131072) * s ^ 10
  | 2, 7 => (109395 / 8192) * s ^ 7 + (-2078505 / 65536) * s ^ 9 + (4849845 / 262144) * s ^ 11
  | 3, 0 => (-5 / 16) + (105 / 32) * s ^ 2 + (-945 / 128) * s ^ 4 + (1155 / 256) * s ^ 6
  | 3, 1 => (-35 / 16) * s ^ 1 + (945 / 64) * s ^ 3 + (-3465 / 128) * s ^ 5 + (15015 / 1024) * s ^ 7
  | 3, 2 => (-315 / 64) * s ^ 2 + (3465 / 128) * s ^ 4 + (-45045 / 1024) * s ^ 6 + (45045 / 2048) * s ^ 8
  | 3, 3 => (-1155 / 128) * s ^ 3 + (45045 / 1024) * s ^ 5 + (-135135 / 2048) * s ^ 7 + (255255 / 8192) * s ^ 9
  | 3, 4 => (-15015 / 1024) * s ^ 4 + (135135 / 2048) * s ^ 6 + (-765765 / 8192) * s ^ 8 + (692835 / 16384) * s ^ 10
  | 3, 5 => (-45045 / 2048) * s ^ 5 + (765765 / 8192) * s ^ 7 + (-2078505 / 16384) * s ^ 9 + (14549535 / 262144) * s ^ 11
  | 3, 6 => (-255255 / 8192) * s ^ 6 + (2078505 / 16384) * s ^ 8 + (-43648605 / 262144) * s ^ 10 + (37182145 / 524288) * s ^ 12
  | 3, 7 => (-692835 / 16384) * s ^ 7 + (43648605 / 262144) * s ^ 9 + (-111546435 / 524288) * s ^ 11 + (185910725 / 2097152) * s ^ 13
  | _, _ => 0

theorem abs_le_of_cert {B Q P N : ℝ} (h1 : 0 ≤ P) (h2 : 0 ≤ N) (e1 : B - Q = P) (e2 : B + Q = N) : |Q| ≤ B := by
  rw [abs_le]; constructor <;> linarith

theorem axisCert_0_0 {x : ℝ} (h0 : 0 ≤ x) (h1 : x ≤ 1) : |((1) : ℝ)| ≤ 3 := by
  have h : 0 ≤ 1 - x := by linarith
  refine abs_le_of_cert (P := 2 * x ^ 0 * (1 - x) ^ 1 + 2 * x ^ 1 * (1 - x) ^ 0) (N := 4 * x ^ 0 * (1 - x) ^ 1 + 4 * x ^ 1 * (1 - x) ^ 0) (by positivity) (by positivity) (by ring) (by ring)

theorem axisCert_0_1 {x : ℝ} (h0 : 0 ≤ x) (h1 : x ≤ 1) : |((1) : ℝ)| ≤ 3 := by
  have h : 0 ≤ 1 - x := by linarith
  refine abs_le_of_cert (P := 2 * x ^ 0 * (1 - x) ^ 1 + 2 * x ^ 1 * (1 - x) ^ 0) (N := 4 * x ^ 0 * (1 - x) ^ 1 + 4 * x ^ 1 * (1 - x) ^ 0) (by positivity) (by positivity) (by ring) (by ring)

theorem axisCert_0_2 {x : ℝ} (h0 : 0 ≤ x) (h1 : x ≤ 1) : |((3 / 4) * x ^ 1 : ℝ)| ≤ 3 := by
  have h : 0 ≤ 1 - x := by linarith
  refine abs_le_of_cert (P := 3 * x ^ 0 * (1 - x) ^ 1 + 9 / 4 * x ^ 1 * (1 - x) ^ 0) (N := 3 * x ^ 0 * (1 - x) ^ 1 + 15 / 4 * x ^ 1 * (1 - x) ^ 0) (by positivity) (by positivity) (by ring) (by ring)

theorem axisCert_0_3 {x : ℝ} (h0 : 0 ≤ x) (h1 : x ≤ 1) : |((5 / 8) * x ^ 1 : ℝ)| ≤ 3 := by
  have h : 0 ≤ 1 - x := by linarith
  refine abs_le_of_cert (P := 3 * x ^ 0 * (1 - x) ^ 1 + 19 / 8 * x ^ 1 * (1 - x) ^ 0) (N := 3 * x ^ 0 * (1 - x) ^ 1 + 29 / 8 * x ^ 1 * (1 - x) ^ 0) (by positivity) (by positivity) (by ring) (by ring)

theorem axisCert_0_4 {x : ℝ} (h0 : 0 ≤ x) (h1 : x ≤ 1) : |((35 / 64) * x ^ 2 : ℝ)| ≤ 3 := by
  have h : 0 ≤ 1 - x := by linarith
  refine abs_le_of_cert (P := 3 * x ^ 0 * (1 - x) ^ 2 + 6 * x ^ 1 * (1 - x) ^ 1 + 157 / 64 * x ^ 2 * (1 - x) ^ 0) (N := 3 * x ^ 0 * (1 - x) ^ 2 + 6 * x ^ 1 * (1 - x) ^ 1 + 227 / 64 * x ^ 2 * (1 - x) ^ 0) (by positivity) (by positivity) (by ring) (by ring)

theorem axisCert_0_5 {x : ℝ} (h0 : 0 ≤ x) (h1 : x ≤ 1) : |((63 / 128) * x ^ 2 : ℝ)| ≤ 3 := by
  have h : 0 ≤ 1 - x := by linarith
  refine abs_le_of_cert (P := 3 * x ^ 0 * (1 - x) ^ 2 + 6 * x ^ 1 * (1 - x) ^ 1 + 321 / 128 * x ^ 2 * (1 - x) ^ 0) (N := 3 * x ^ 0 * (1 - x) ^ 2 + 6 * x ^ 1 * (1 - x) ^ 1 + 447 / 128 * x ^ 2 * (1 - x) ^ 0) (by positivity) (by positivity) (by ring) (by ring)

theorem axisCert_0_6 {x : ℝ} (h0 : 0 ≤ x) (h1 : x ≤ 1) : |((231 / 512) * x ^ 3 : ℝ)| ≤ 3 := by
  have h : 0 ≤ 1 - x := by linarith
  refine abs_le_of_cert (P := 3 * x ^ 0 * (1 - x) ^ 3 + 9 * x ^ 1 * (1 - x) ^ 2 + 9 * x ^ 2 * (1 - x) ^ 1 + 1305 / 512 * x ^ 3 * (1 - x) ^ 0) (N := 3 * x ^ 0 * (1 - x) ^ 3 + 9 * x ^ 1 * (1 - x) ^ 2 + 9 * x ^ 2 * (1 - x) ^ 1 + 1767 / 512 * x ^ 3 * (1 - x) ^ 0) (by positivity) (by positivity) (by ring) (by ring)

theorem axisCert_0_7 {x : ℝ} (h0 : 0 ≤ x) (h1 : x ≤ 1) : |((429 / 1024) * x ^ 3 : ℝ)| ≤ 3 := by
  have h : 0 ≤ 1 - x := by linarith
  refine abs_le_of_cert (P := 3 * x ^ 0 * (1 - x) ^ 3 + 9 * x ^ 1 * (1 - x) ^ 2 + 9 * x ^ 2 * (1 - x) ^ 1 + 2643 / 1024 * x ^ 3 * (1 - x) ^ 0) (N := 3 * x ^ 0 * (1 - x) ^ 3 + 9 * x ^ 1 * (1 - x) ^ 2 + 9 * x ^ 2 * (1 - x) ^ 1 + 3501 / 1024 * x ^ 3 * (1 - x) ^ 0) (by positivity) (by positivity) (by ring) (by ring)

theorem axisCert_1_0 {x : ℝ} (h0 : 0 ≤ x) (h1 : x ≤ 1) : |((-1 / 2) + (3 / 4) * x ^ 1 : ℝ)| ≤ 3 := by
  have h : 0 ≤ 1 - x := by linarith
  refine abs_le_of_cert (P := 7 / 2 * x ^ 0 * (1 - x) ^ 1 + 11 / 4 * x ^ 1 * (1 - x) ^ 0) (N := 5 / 2 * x ^ 0 * (1 - x) ^ 1 + 13 / 4 * x ^ 1 * (1 - x) ^ 0) (by positivity) (by positivity) (by ring) (by ring)

theorem axisCert_1_1 {x : ℝ} (h0 : 0 ≤ x) (h1 : x ≤ 1) : |((-3 / 2) + (15 / 8) * x ^ 1 : ℝ)| ≤ 3 := by
  have h : 0 ≤ 1 - x := by linarith
  refine abs_le_of_cert (P := 9 / 2 * x ^ 0 * (1 - x) ^ 1 + 21 / 8 * x ^ 1 * (1 - x) ^ 0) (N := 3 / 2 * x ^ 0 * (1 - x) ^ 1 + 27 / 8 * x ^ 1 * (1 - x) ^ 0) (by positivity) (by positivity) (by ring) (by ring)

theorem axisCert_1_2 {x : ℝ} (h0 : 0 ≤ x) (h1 : x ≤ 1) : |((-15 / 8) * x ^ 1 + (35 / 16) * x ^ 2 : ℝ)| ≤ 3 := by
  have h : 0 ≤ 1 - x := by linarith
  refine abs_le_of_cert (P := 3 * x ^ 0 * (1 - x) ^ 2 + 63 / 8 * x ^ 1 * (1 - x) ^ 1 + 43 / 16 * x ^ 2 * (1 - x) ^ 0) (N := 3 * x ^ 0 * (1 - x) ^ 2 + 33 / 8 * x ^ 1 * (1 - x) ^ 1 + 53 / 16 * x ^ 2 * (1 - x) ^ 0) (by positivity) (by positivity) (by ring) (by ring)

theorem axisCert_1_3 {x : ℝ} (h0 : 0 ≤ x) (h1 : x ≤ 1) : |((-35 / 16) * x ^ 1 + (315 / 128) * x ^ 2 : ℝ)| ≤ 3 := by
  have h : 0 ≤ 1 - x := by linarith
  refine abs_le_of_cert (P := 3 * x ^ 0 * (1 - x) ^ 2 + 131 / 16 * x ^ 1 * (1 - x) ^ 1 + 349 / 128 * x ^ 2 * (1 - x) ^ 0) (N := 3 * x ^ 0 * (1 - x) ^ 2 + 61 / 16 * x ^ 1 * (1 - x) ^ 1 + 419 / 128 * x ^ 2 * (1 - x) ^ 0) (by positivity) (by positivity) (by ring) (by ring)

theorem axisCert_1_4 {x : ℝ} (h0 : 0 ≤ x) (h1 : x ≤ 1) : |((-315 / 128) * x ^ 2 + (693 / 256) * x ^ 3 : ℝ)| ≤ 3 := by
  have h : 0 ≤ 1 - x := by linarith
  refine abs_le_of_cert (P := 3 * x ^ 0 * (1 - x) ^ 3 + 9 * x ^ 1 * (1 - x) ^ 2 + 1467 / 128 * x ^ 2 * (1 - x) ^ 1 + 705 / 256 * x ^ 3 * (1 - x) ^ 0) (N := 3 * x ^ 0 * (1 - x) ^ 3 + 9 * x ^ 1 * (1 - x) ^ 2 + 837 / 128 * x ^ 2 * (1 - x) ^ 1 + 831 / 256 * x ^ 3 * (1 - x) ^ 0) (by positivity) (by positivity) (by ring) (by ring)

theorem axisCert_1_5 {x : ℝ} (h0 : 0 ≤ x) (h1 : x ≤ 1) : |((-693 / 256) * x ^ 2 + (3003 / 1024) * x ^ 3 : ℝ)| ≤ 3 := by
  have h : 0 ≤ 1 - x := by linarith
  refine abs_le_of_cert (P := 3 * x ^ 0 * (1 - x) ^ 3 + 9 * x ^ 1 * (1 - x) ^ 2 + 2997 / 256 * x ^ 2 * (1 - x) ^ 1 + 2841 / 1024 * x ^ 3 * (1 - x) ^ 0) (N := 3 * x ^ 0 * (1 - x) ^ 3 + 9 * x ^ 1 * (1 - x) ^ 2 + 1611 / 256 * x ^ 2 * (1 - x) ^ 1 + 3303 / 1024 * x ^ 3 * (1 - x) ^ 0) (by positivity) (by positivity) (by ring) (by ring)

theorem axisCert_1_6 {x : ℝ} (h0 : 0 ≤ x) (h1 : x ≤ 1) : |((-3003 / 1024) * x ^ 3 + (6435 / 2048) * x ^ 4 : ℝ)| ≤ 1 := by
  have h : 0 ≤ 1 - x := by linarith
  refine abs_le_of_cert (P := 1 * x ^ 0 * (1 - x) ^ 4 + 4 * x ^ 1 * (1 - x) ^ 3 + 6 * x ^ 2 * (1 - x) ^ 2 + 7099 / 1024 * x ^ 3 * (1 - x) ^ 1 + 1619 / 2048 * x ^ 4 * (1 - x) ^ 0) (N := 1 * x ^ 0 * (1 - x) ^ 4 + 4 * x ^ 1 * (1 - x) ^ 3 + 6 * x ^ 2 * (1 - x) ^ 2 + 1093 / 1024 * x ^ 3 * (1 - x) ^ 1 + 2477 / 2048 * x ^ 4 * (1 - x) ^ 0) (by positivity) (by positivity) (by ring) (by ring)

theorem axisCert_1_7 {x : ℝ} (h0 : 0 ≤ x) (h1 : x ≤ 1) : |((-6435 / 2048) * x ^ 3 + (109395 / 32768) * x ^ 4 : ℝ)| ≤ 1 := by
  have h : 0 ≤ 1 - x := by linarith
  refine abs_le_of_cert (P := 1 * x ^ 0 * (1 - x) ^ 4 + 4 * x ^ 1 * (1 - x) ^ 3 + 6 * x ^ 2 * (1 - x) ^ 2 + 14627 / 2048 * x ^ 3 * (1 - x) ^ 1 + 26333 / 32768 * x ^ 4 * (1 - x) ^ 0) (N := 1 * x ^ 0 * (1 - x) ^ 4 + 4 * x ^ 1 * (1 - x) ^ 3 + 6 * x ^ 2 * (1 - x) ^ 2 + 1757 / 2048 * x ^ 3 * (1 - x) ^ 1 + 39203 / 32768 * x ^ 4 * (1 - x) ^ 0) (by positivity) (by positivity) (by ring) (by ring)

theorem axisCert_2_0 {x : ℝ} (h0 : 0 ≤ x) (h1 : x ≤ 1) : |((3 / 8) + (-15 / 8) * x ^ 1 + (105 / 64) * x ^ 2 : ℝ)| ≤ 3 := by
  have h : 0 ≤ 1 - x := by linarith
  refine abs_le_of_cert (P := 21 / 8 * x ^ 0 * (1 - x) ^ 2 + 57 / 8 * x ^ 1 * (1 - x) ^ 1 + 183 / 64 * x ^ 2 * (1 - x) ^ 0) (N := 27 / 8 * x ^ 0 * (1 - x) ^ 2 + 39 / 8 * x ^ 1 * (1 - x) ^ 1 + 201 / 64 * x ^ 2 * (1 - x) ^ 0) (by positivity) (by positivity) (by ring) (by ring)

theorem axisCert_2_1 {x : ℝ} (h0 : 0 ≤ x) (h1 : x ≤ 1) : |((15 / 8) + (-105 / 16) * x ^ 1 + (315 / 64) * x ^ 2 : ℝ)| ≤ 3 := by
  have h : 0 ≤ 1 - x := by linarith
  refine abs_le_of_cert (P := 9 / 8 * x ^ 0 * (1 - x) ^ 2 + 141 / 16 * x ^ 1 * (1 - x) ^ 1 + 177 / 64 * x ^ 2 * (1 - x) ^ 0) (N := 39 / 8 * x ^ 0 * (1 - x) ^ 2 + 51 / 16 * x ^ 1 * (1 - x) ^ 1 + 207 / 64 * x ^ 2 * (1 - x) ^ 0) (by positivity) (by positivity) (by ring) (by ring)

theorem axisCert_2_2 {x : ℝ} (h0 : 0 ≤ x) (h1 : x ≤ 1) : |((105 / 32) * x ^ 1 + (-315 / 32) * x ^ 2 + (3465 / 512) * x ^ 3 : ℝ)| ≤ 3 := by
  have h : 0 ≤ 1 - x := by linarith
  refine abs_le_of_cert (P := 3 * x ^ 0 * (1 - x) ^ 3 + 183 / 32 * x ^ 1 * (1 - x) ^ 2 + 393 / 32 * x ^ 2 * (1 - x) ^ 1 + 1431 / 512 * x ^ 3 * (1 - x) ^ 0) (N := 3 * x ^ 0 * (1 - x) ^ 3 + 393 / 32 * x ^ 1 * (1 - x) ^ 2 + 183 / 32 * x ^ 2 * (1 - x) ^ 1 + 1641 / 512 * x ^ 3 * (1 - x) ^ 0) (by positivity) (by positivity) (by ring) (by ring)

theorem axisCert_2_3 {x : ℝ} (h0 : 0 ≤ x) (h1 : x ≤ 1) : |((315 / 64) * x ^ 1 + (-3465 / 256) * x ^ 2 + (9009 / 1024) * x ^ 3 : ℝ)| ≤ 3 := by
  have h : 0 ≤ 1 - x := by linarith
  refine abs_le_of_cert (P := 3 * x ^ 0 * (1 - x) ^ 3 + 261 / 64 * x ^ 1 * (1 - x) ^ 2 + 3249 / 256 * x ^ 2 * (1 - x) ^ 1 + 2883 / 1024 * x ^ 3 * (1 - x) ^ 0) (N := 3 * x ^ 0 * (1 - x) ^ 3 + 891 / 64 * x ^ 1 * (1 - x) ^ 2 + 1359 / 256 * x ^ 2 * (1 - x) ^ 1 + 3261 / 1024 * x ^ 3 * (1 - x) ^ 0) (by positivity) (by positivity) (by ring) (by ring)

theorem axisCert_2_4 {x : ℝ} (h0 : 0 ≤ x) (h1 : x ≤ 1) : |((3465 / 512) * x ^ 2 + (-9009 / 512) * x ^ 3 + (45045 / 4096) * x ^ 4 : ℝ)| ≤ 1 := by
  have h : 0 ≤ 1 - x := by linarith
  refine abs_le_of_cert (P := 1 * x ^ 0 * (1 - x) ^ 5 + 5 * x ^ 1 * (1 - x) ^ 4 + 1655 / 512 * x ^ 2 * (1 - x) ^ 3 + 1867 / 256 * x ^ 3 * (1 - x) ^ 2 + 36419 / 4096 * x ^ 4 * (1 - x) ^ 1 + 3403 / 4096 * x ^ 5 * (1 - x) ^ 0) (N := 1 * x ^ 0 * (1 - x) ^ 5 + 5 * x ^ 1 * (1 - x) ^ 4 + 8585 / 512 * x ^ 2 * (1 - x) ^ 3 + 3253 / 256 * x ^ 3 * (1 - x) ^ 2 + 4541 / 4096 * x ^ 4 * (1 - x) ^ 1 + 4789 / 4096 * x ^ 5 * (1 - x) ^ 0) (by positivity) (by positivity) (by ring) (by ring)

theorem axisCert_2_5 {x : ℝ} (h0 : 0 ≤ x) (h1 : x ≤ 1) : |((9009 / 1024) * x ^ 2 + (-45045 / 2048) * x ^ 3 + (109395 / 8192) * x ^ 4 : ℝ)| ≤ 1 := by
  have h : 0 ≤ 1 - x := by linarith
  refine abs_le_of_cert (P := 1 * x ^ 0 * (1 - x) ^ 5 + 5 * x ^ 1 * (1 - x) ^ 4 + 1231 / 1024 * x ^ 2 * (1 - x) ^ 3 + 11471 / 2048 * x ^ 3 * (1 - x) ^ 2 + 75709 / 8192 * x ^ 4 * (1 - x) ^ 1 + 6905 / 8192 * x ^ 5 * (1 - x) ^ 0) (N := 1 * x ^ 0 * (1 - x) ^ 5 + 5 * x ^ 1 * (1 - x) ^ 4 + 19249 / 1024 * x ^ 2 * (1 - x) ^ 3 + 29489 / 2048 * x ^ 3 * (1 - x) ^ 2 + 6211 / 8192 * x ^ 4 * (1 - x) ^ 1 + 9479 / 8192 * x ^ 5 * (1 - x) ^ 0) (by positivity) (by positivity) (by ring) (by ring)

theorem axisCert_2_6 {x : ℝ} (h0 : 0 ≤ x) (h1 : x ≤ 1) : |((45045 / 4096) * x ^ 3 + (-109395 / 4096) * x ^ 4 + (2078505 / 131072) * x ^ 5 : ℝ)| ≤ 1 := by
  have h : 0 ≤ 1 - x := by linarith
  refine abs_le_of_cert (P := 1 * x ^ 0 * (1 - x) ^ 6 + 6 * x ^ 1 * (1 - x) ^ 5 + 15 * x ^ 2 * (1 - x) ^ 4 + 36875 / 4096 * x ^ 3 * (1 - x) ^ 3 + 8925 / 1024 * x ^ 4 * (1 - x) ^ 2 + 1384887 / 131072 * x ^ 5 * (1 - x) ^ 1 + 111767 / 131072 * x ^ 6 * (1 - x) ^ 0) (N := 1 * x ^ 0 * (1 - x) ^ 6 + 6 * x ^ 1 * (1 - x) ^ 5 + 15 * x ^ 2 * (1 - x) ^ 4 + 126965 / 4096 * x ^ 3 * (1 - x) ^ 3 + 21795 / 1024 * x ^ 4 * (1 - x) ^ 2 + 187977 / 131072 * x ^ 5 * (1 - x) ^ 1 + 150377 / 131072 * x ^ 6 * (1 - x) ^ 0) (by positivity) (by positivity) (by ring) (by ring)

theorem axisCert_2_7 {x : ℝ} (h0 : 0 ≤ x) (h1 : x ≤ 1) : |((109395 / 8192) * x ^ 3 + (-2078505 / 65536) * x ^ 4 + (4849845 / 262144) * x ^ 5 : ℝ)| ≤ 1 := by
  have h : 0 ≤ 1 - x := by linarith
  refine abs_le_of_cert (P := 1 * x ^ 0 * (1 - x) ^ 6 + 6 * x ^ 1 * (1 - x) ^ 5 + 15 * x ^ 2 * (1 - x) ^ 4 + 54445 / 8192 * x ^ 3 * (1 - x) ^ 3 + 436065 / 65536 * x ^ 4 * (1 - x) ^ 2 + 2849139 / 262144 * x ^ 5 * (1 - x) ^ 1 + 225679 / 262144 * x ^ 6 * (1 - x) ^ 0) (N := 1 * x ^ 0 * (1 - x) ^ 6 + 6 * x ^ 1 * (1 - x) ^ 5 + 15 * x ^ 2 * (1 - x) ^ 4 + 273235 / 8192 * x ^ 3 * (1 - x) ^ 3 + 1530015 / 65536 * x ^ 4 * (1 - x) ^ 2 + 296589 / 262144 * x ^ 5 * (1 - x) ^ 1 + 298609 / 262144 * x ^ 6 * (1 - x) ^ 0) (by positivity) (by positivity) (by ring) (by ring)

theorem axisCert_3_0 {x : ℝ} (h0 : 0 ≤ x) (h1 : x ≤ 1) : |((-5 / 16) + (105 / 32) * x ^ 1 + (-945 / 128) * x ^ 2 + (1155 / 256) * x ^ 3 : ℝ)| ≤ 3 := by
  have h : 0 ≤ 1 - x := by linarith
  refine abs_le_of_cert (P := 53 / 16 * x ^ 0 * (1 - x) ^ 3 + 213 / 32 * x ^ 1 * (1 - x) ^ 2 + 1377 / 128 * x ^ 2 * (1 - x) ^ 1 + 743 / 256 * x ^ 3 * (1 - x) ^ 0) (N := 43 / 16 * x ^ 0 * (1 - x) ^ 3 + 363 / 32 * x ^ 1 * (1 - x) ^ 2 + 927 / 128 * x ^ 2 * (1 - x) ^ 1 + 793 / 256 * x ^ 3 * (1 - x) ^ 0) (by positivity) (by positivity) (by ring) (by ring)

theorem axisCert_3_1 {x : ℝ} (h0 : 0 ≤ x) (h1 : x ≤ 1) : |((-35 / 16) + (945 / 64) * x ^ 1 + (-3465 / 128) * x ^ 2 + (15015 / 1024) * x ^ 3 : ℝ)| ≤ 3 := by
  have h : 0 ≤ 1 - x := by linarith
  refine abs_le_of_cert (P := 83 / 16 * x ^ 0 * (1 - x) ^ 3 + 51 / 64 * x ^ 1 * (1 - x) ^ 2 + 1677 / 128 * x ^ 2 * (1 - x) ^ 1 + 2897 / 1024 * x ^ 3 * (1 - x) ^ 0) (N := 13 / 16 * x ^ 0 * (1 - x) ^ 3 + 1101 / 64 * x ^ 1 * (1 - x) ^ 2 + 627 / 128 * x ^ 2 * (1 - x) ^ 1 + 3247 / 1024 * x ^ 3 * (1 - x) ^ 0) (by positivity) (by positivity) (by ring) (by ring)

theorem axisCert_3_2 {x : ℝ} (h0 : 0 ≤ x) (h1 : x ≤ 1) : |((-315 / 64) * x ^ 1 + (3465 / 128) * x ^ 2 + (-45045 / 1024) * x ^ 3 + (45045 / 2048) * x ^ 4 : ℝ)| ≤ 1 := by
  have h : 0 ≤ 1 - x := by linarith
  refine abs_le_of_cert (P := 1 * x ^ 0 * (1 - x) ^ 5 + 635 / 64 * x ^ 1 * (1 - x) ^ 4 + 335 / 128 * x ^ 2 * (1 - x) ^ 3 + 2365 / 1024 * x ^ 3 * (1 - x) ^ 2 + 19375 / 2048 * x ^ 4 * (1 - x) ^ 1 + 1733 / 2048 * x ^ 5 * (1 - x) ^ 0) (N := 1 * x ^ 0 * (1 - x) ^ 5 + 5 / 64 * x ^ 1 * (1 - x) ^ 4 + 2225 / 128 * x ^ 2 * (1 - x) ^ 3 + 18115 / 1024 * x ^ 3 * (1 - x) ^ 2 + 1105 / 2048 * x ^ 4 * (1 - x) ^ 1 + 2363 / 2048 * x ^ 5 * (1 - x) ^ 0) (by positivity) (by positivity) (by ring) (by ring)

theorem axisCert_3_3 {x : ℝ} (h0 : 0 ≤ x) (h1 : x ≤ 1) : |((-1155 / 128) * x ^ 1 + (45045 / 1024) * x ^ 2 + (-135135 / 2048) * x ^ 3 + (255255 / 8192) * x ^ 4 : ℝ)| ≤ 1 := by
  have h : 0 ≤ 1 - x := by linarith
  refine abs_le_of_cert (P := 1 * x ^ 0 * (1 - x) ^ 10 + 2435 / 128 * x ^ 1 * (1 - x) ^ 9 + 84195 / 1024 * x ^ 2 * (1 - x) ^ 8 + 325455 / 2048 * x ^ 3 * (1 - x) ^ 7 + 1368045 / 8192 * x ^ 4 * (1 - x) ^ 6 + 508977 / 4096 * x ^ 5 * (1 - x) ^ 5 + 899115 / 8192 * x ^ 6 * (1 - x) ^ 4 + 103245 / 1024 * x ^ 7 * (1 - x) ^ 3 + 462195 / 8192 * x ^ 8 * (1 - x) ^ 2 + 58285 / 4096 * x ^ 9 * (1 - x) ^ 1 + 7037 / 8192 * x ^ 10 * (1 - x) ^ 0) (N := 1 * x ^ 0 * (1 - x) ^ 10 + 125 / 128 * x ^ 1 * (1 - x) ^ 9 + 7965 / 1024 * x ^ 2 * (1 - x) ^ 8 + 166065 / 2048 * x ^ 3 * (1 - x) ^ 7 + 2072595 / 8192 * x ^ 4 * (1 - x) ^ 6 + 1555407 / 4096 * x ^ 5 * (1 - x) ^ 5 + 2541525 / 8192 * x ^ 6 * (1 - x) ^ 4 + 142515 / 1024 * x ^ 7 * (1 - x) ^ 3 + 275085 / 8192 * x ^ 8 * (1 - x) ^ 2 + 23635 / 4096 * x ^ 9 * (1 - x) ^ 1 + 9347 / 8192 * x ^ 10 * (1 - x) ^ 0) (by positivity) (by positivity) (by ring) (by ring)

theorem axisCert_3_4 {x : ℝ} (h0 : 0 ≤ x) (h1 : x ≤ 1) : |((-15015 / 1024) * x ^ 2 + (135135 / 2048) * x ^ 3 + (-765765 / 8192) * x ^ 4 + (692835 / 16384) * x ^ 5 : ℝ)| ≤ 1 := by
  have h : 0 ≤ 1 - x := by linarith
  refine abs_le_of_cert (P := 1 * x ^ 0 * (1 - x) ^ 7 + 7 * x ^ 1 * (1 - x) ^ 6 + 36519 / 1024 * x ^ 2 * (1 - x) ^ 5 + 86695 / 2048 * x ^ 3 * (1 - x) ^ 4 + 91525 / 8192 * x ^ 4 * (1 - x) ^ 3 + 161739 / 16384 * x ^ 5 * (1 - x) ^ 2 + 25061 / 2048 * x ^ 6 * (1 - x) ^ 1 + 14239 / 16384 * x ^ 7 * (1 - x) ^ 0) (N := 1 * x ^ 0 * (1 - x) ^ 7 + 7 * x ^ 1 * (1 - x) ^ 6 + 6489 / 1024 * x ^ 2 * (1 - x) ^ 5 + 56665 / 2048 * x ^ 3 * (1 - x) ^ 4 + 481915 / 8192 * x ^ 4 * (1 - x) ^ 3 + 526389 / 16384 * x ^ 5 * (1 - x) ^ 2 + 3611 / 2048 * x ^ 6 * (1 - x) ^ 1 + 18529 / 16384 * x ^ 7 * (1 - x) ^ 0) (by positivity) (by positivity) (by ring) (by ring)

theorem axisCert_3_5 {x : ℝ} (h0 : 0 ≤ x) (h1 : x ≤ 1) : |((-45045 / 2048) * x ^ 2 + (765765 / 8192) * x ^ 3 + (-2078505 / 16384) * x ^ 4 + (14549535 / 262144) * x ^ 5 : ℝ)| ≤ 1 := by
  have h : 0 ≤ 1 - x := by linarith
  refine abs_le_of_cert (P := 1 * x ^ 0 * (1 - x) ^ 8 + 8 * x ^ 1 * (1 - x) ^ 7 + 102389 / 2048 * x ^ 2 * (1 - x) ^ 6 + 774067 / 8192 * x ^ 3 * (1 - x) ^ 5 + 973135 / 16384 * x ^ 4 * (1 - x) ^ 4 + 3425249 / 262144 * x ^ 5 * (1 - x) ^ 3 + 4669507 / 262144 * x ^ 6 * (1 - x) ^ 2 + 3545027 / 262144 * x ^ 7 * (1 - x) ^ 1 + 229969 / 262144 * x ^ 8 * (1 - x) ^ 0) (N := 1 * x ^ 0 * (1 - x) ^ 8 + 8 * x ^ 1 * (1 - x) ^ 7 + 12299 / 2048 * x ^ 2 * (1 - x) ^ 6 + 143437 / 8192 * x ^ 3 * (1 - x) ^ 5 + 1320625 / 16384 * x ^ 4 * (1 - x) ^ 4 + 25934879 / 262144 * x ^ 5 * (1 - x) ^ 3 + 10010557 / 262144 * x ^ 6 * (1 - x) ^ 2 + 649277 / 262144 * x ^ 7 * (1 - x) ^ 1 + 294319 / 262144 * x ^ 8 * (1 - x) ^ 0) (by positivity) (by positivity) (by ring) (by ring)

theorem axisCert_3_6 {x : ℝ} (h0 : 0 ≤ x) (h1 : x ≤ 1) : |((-255255 / 8192) * x ^ 3 + (2078505 / 16384) * x ^ 4 + (-43648605 / 262144) * x ^ 5 + (37182145 / 524288) * x ^ 6 : ℝ)| ≤ 1 := by
  have h : 0 ≤ 1 - x := by linarith
  refine abs_le_of_cert (P := 1 * x ^ 0 * (1 - x) ^ 8 + 8 * x ^ 1 * (1 - x) ^ 7 + 28 * x ^ 2 * (1 - x) ^ 6 + 714007 / 8192 * x ^ 3 * (1 - x) ^ 5 + 1620925 / 16384 * x ^ 4 * (1 - x) ^ 4 + 6985949 / 262144 * x ^ 5 * (1 - x) ^ 3 + 3679789 / 524288 * x ^ 6 * (1 - x) ^ 2 + 1838651 / 131072 * x ^ 7 * (1 - x) ^ 1 + 463513 / 524288 * x ^ 8 * (1 - x) ^ 0) (N := 1 * x ^ 0 * (1 - x) ^ 8 + 8 * x ^ 1 * (1 - x) ^ 7 + 28 * x ^ 2 * (1 - x) ^ 6 + 203497 / 8192 * x ^ 3 * (1 - x) ^ 5 + 672835 / 16384 * x ^ 4 * (1 - x) ^ 4 + 22374179 / 262144 * x ^ 5 * (1 - x) ^ 3 + 25680339 / 524288 * x ^ 6 * (1 - x) ^ 2 + 258501 / 131072 * x ^ 7 * (1 - x) ^ 1 + 585063 / 524288 * x ^ 8 * (1 - x) ^ 0) (by positivity) (by positivity) (by ring) (by ring)

theorem axisCert_3_7 {x : ℝ} (h0 : 0 ≤ x) (h1 : x ≤ 1) : |((-692835 / 16384) * x ^ 3 + (43648605 / 262144) * x ^ 4 + (-111546435 / 524288) * x ^ 5 + (185910725 / 2097152) * x ^ 6 : ℝ)| ≤ 1 := by
  have h : 0 ≤ 1 - x := by linarith
  refine abs_le_of_cert (P := 1 * x ^ 0 * (1 - x) ^ 8 + 8 * x ^ 1 * (1 - x) ^ 7 + 28 * x ^ 2 * (1 - x) ^ 6 + 1610339 / 16384 * x ^ 3 * (1 - x) ^ 5 + 30128275 / 262144 * x ^ 4 * (1 - x) ^ 4 + 13424923 / 524288 * x ^ 5 * (1 - x) ^ 3 + 3062511 / 2097152 * x ^ 6 * (1 - x) ^ 2 + 15086013 / 1048576 * x ^ 7 * (1 - x) ^ 1 + 1866207 / 2097152 * x ^ 8 * (1 - x) ^ 0) (N := 1 * x ^ 0 * (1 - x) ^ 8 + 8 * x ^ 1 * (1 - x) ^ 7 + 28 * x ^ 2 * (1 - x) ^ 6 + 224669 / 16384 * x ^ 3 * (1 - x) ^ 5 + 6571885 / 262144 * x ^ 4 * (1 - x) ^ 4 + 45295333 / 524288 * x ^ 5 * (1 - x) ^ 3 + 114378001 / 2097152 * x ^ 6 * (1 - x) ^ 2 + 1691203 / 1048576 * x ^ 7 * (1 - x) ^ 1 + 2328097 / 2097152 * x ^ 8 * (1 - x) ^ 0) (by positivity) (by positivity) (by ring) (by ring)

theorem axisPoly_le (nu m : Nat) {s : ℝ} (h0 : 0 ≤ s) (h1 : s ≤ 1) : |axisPoly nu m s| ≤ if 8 ≤ 2 * nu + m then 1 else 3 := by
  have x0 : 0 ≤ s ^ 2 := by positivity
  have x1 : s ^ 2 ≤ 1 := by nlinarith
  have lift : ∀ {Q B : ℝ}, |Q| ≤ B → |s * Q| ≤ B := fun h => by
    rw [abs_mul, abs_of_nonneg h0]; exact (mul_le_of_le_one_left (abs_nonneg _) h1).trans h
  unfold axisPoly
  split
  · refine le_trans (le_of_eq ?_) ((axisCert_0_0 x0 x1).trans (by norm_num))
    congr 1
  · refine le_trans (le_of_eq ?_) ((lift (axisCert_0_1 x0 x1)).trans (by norm_num))
    congr 1; ring
  · refine le_trans (le_of_eq ?_) ((axisCert_0_2 x0 x1).trans (by norm_num))
    congr 1; ring
  · refine le_trans (le_of_eq ?_) ((lift (axisCert_0_3 x0 x1)).trans (by norm_num))
    congr 1; ring
  · refine le_trans (le_of_eq ?_) ((axisCert_0_4 x0 x1).trans (by norm_num))
    congr 1; ring
  · refine le_trans (le_of_eq ?_) ((lift (axisCert_0_5 x0 x1)).trans (by norm_num))
    congr 1; ring
  · refine le_trans (le_of_eq ?_) ((axisCert_0_6 x0 x1).trans (by norm_num))
    congr 1; ring
  · refine le_trans (le_of_eq ?_) ((lift (axisCert_0_7 x0 x1)).trans (by norm_num))
    congr 1; ring
  · refine le_trans (le_of_eq ?_) ((axisCert_1_0 x0 x1).trans (by norm_num))
    congr 1; ring
  · refine le_trans (le_of_eq ?_) ((lift (axisCert_1_1 x0 x1)).trans (by norm_num))
    congr 1; ring
  · refine le_trans (le_of_eq ?_) ((axisCert_1_2 x0 x1).trans (by norm_num))
    congr 1; ring
  · refine le_trans (le_of_eq ?_) ((lift (axisCert_1_3 x0 x1)).trans (by norm_num))
    congr 1; ring
  · refine le_trans (le_of_eq ?_) ((axisCert_1_4 x0 x1).trans (by norm_num))
    congr 1; ring
  · refine le_trans (le_of_eq ?_) ((lift (axisCert_1_5 x0 x1)).trans (by norm_num))
    congr 1; ring
  · refine le_trans (le_of_eq ?_) ((axisCert_1_6 x0 x1).trans (by norm_num))
    congr 1; ring
  · refine le_trans (le_of_eq ?_) ((lift (axisCert_1_7 x0 x1)).trans (by norm_num))
    congr 1; ring
  · refine le_trans (le_of_eq ?_) ((axisCert_2_0 x0 x1).trans (by norm_num))
    congr 1; ring
  · refine le_trans (le_of_eq ?_) ((lift (axisCert_2_1 x0 x1)).trans (by norm_num))
    congr 1; ring
  · refine le_trans (le_of_eq ?_) ((axisCert_2_2 x0 x1).trans (by norm_num))
    congr 1; ring
  · refine le_trans (le_of_eq ?_) ((lift (axisCert_2_3 x0 x1)).trans (by norm_num))
    congr 1; ring
  · refine le_trans (le_of_eq ?_) ((axisCert_2_4 x0 x1).trans (by norm_num))
    congr 1; ring
  · refine le_trans (le_of_eq ?_) ((lift (axisCert_2_5 x0 x1)).trans (by norm_num))
    congr 1; ring
  · refine le_trans (le_of_eq ?_) ((axisCert_2_6 x0 x1).trans (by norm_num))
    congr 1; ring
  · refine le_trans (le_of_eq ?_) ((lift (axisCert_2_7 x0 x1)).trans (by norm_num))
    congr 1; ring
  · refine le_trans (le_of_eq ?_) ((axisCert_3_0 x0 x1).trans (by norm_num))
    congr 1; ring
  · refine le_trans (le_of_eq ?_) ((lift (axisCert_3_1 x0 x1)).trans (by norm_num))
    congr 1; ring
  · refine le_trans (le_of_eq ?_) ((axisCert_3_2 x0 x1).trans (by norm_num))
    congr 1; ring
  · refine le_trans (le_of_eq ?_) ((lift (axisCert_3_3 x0 x1)).trans (by norm_num))
    congr 1; ring
  · refine le_trans (le_of_eq ?_) ((axisCert_3_4 x0 x1).trans (by norm_num))
    congr 1; ring
  · refine le_trans (le_of_eq ?_) ((lift (axisCert_3_5 x0 x1)).trans (by norm_num))
    congr 1; ring
  · refine le_trans (le_of_eq ?_) ((axisCert_3_6 x0 x1).trans (by norm_num))
    congr 1; ring
  · refine le_trans (le_of_eq ?_) ((lift (axisCert_3_7 x0 x1)).trans (by norm_num))
    congr 1; ring
  · rw [abs_zero]; split <;> norm_num

theorem factorialTable_eq (nu m : Nat) (hn : nu < 4) (hm : m < 8) : |factorialTable nu m * ((2 * nu + m).factorial : ℝ) - 1| ≤ 1e-15 := by
  interval_cases nu <;> interval_cases m <;> simp only [factorialTable, Nat.factorial] <;> norm_num [abs_le]

section
variable {p y : ℝ} (hy : 0 < y) (hp : p ^ 2 = y ^ 2 - 1)
include hy hp

theorem sqrt_axis : Real.sqrt (p ^ 2 + 1) = y := by
  rw [hp, sub_add_cancel, Real.sqrt_sq hy.le]

omit hy hp in
theorem outputBase_0_0 : outputBase p 0 0 = 1 / 2 * ((1)) := by
  simp only [outputBase]
  norm_num

theorem outputBase_0_1 : outputBase p 0 1 = 1 / 4 * ((1) * (1 / y) ^ 1) := by
  have hw := sqrt_axis hy hp
  simp only [outputBase, hw]
  field_simp

theorem outputBase_0_2 : outputBase p 0 2 = 1 / 2 * ((3 / 4) * (1 / y) ^ 2) := by
  simp only [outputBase]
  have hd : 8 * p ^ 2 + 8 = 8 * y ^ 2 := by
    have e2 : y ^ 2 = p ^ 2 + 1 := by linarith
    rw [show y ^ 2 = (y ^ 2) ^ 1 by ring, e2]; ring
  rw [hd]
  field_simp
  ring

theorem outputBase_0_3 : outputBase p 0 3 = 3 / 2 * ((5 / 8) * (1 / y) ^ 3) := by
  have hw := sqrt_axis hy hp
  simp only [outputBase, hw]
  have hd : 16 * p ^ 2 + 16 = 16 * y ^ 2 := by
    have e2 : y ^ 2 = p ^ 2 + 1 := by linarith
    rw [show y ^ 2 = (y ^ 2) ^ 1 by ring, e2]; ring
  rw [hd]
  field_simp
  ring

theorem outputBase_0_4 : outputBase p 0 4 = 6 * ((35 / 64) * (1 / y) ^ 4) := by
  simp only [outputBase]
  have hd : 32 * p ^ 4 + 64 * p ^ 2 + 32 = 32 * y ^ 4 := by
    have e2 : y ^ 2 = p ^ 2 + 1 := by linarith
    rw [show y ^ 4 = (y ^ 2) ^ 2 by ring, e2]; ring
  rw [hd]
  field_simp
  ring

theorem outputBase_0_5 : outputBase p 0 5 = 30 * ((63 / 128) * (1 / y) ^ 5) := by
  have hw := sqrt_axis hy hp
  simp only [outputBase, hw]
  have hd : 64 * p ^ 6 + 192 * p ^ 4 + 192 * p ^ 2 + 64 = 64 * y ^ 6 := by
    have e2 : y ^ 2 = p ^ 2 + 1 := by linarith
    rw [show y ^ 6 = (y ^ 2) ^ 3 by ring, e2]; ring
  rw [hd]
  field_simp
  ring

theorem outputBase_0_6 : outputBase p 0 6 = 180 * ((231 / 512) * (1 / y) ^ 6) := by
  simp only [outputBase]
  have hd : 128 * p ^ 6 + 384 * p ^ 4 + 384 * p ^ 2 + 128 = 128 * y ^ 6 := by
    have e2 : y ^ 2 = p ^ 2 + 1 := by linarith
    rw [show y ^ 6 = (y ^ 2) ^ 3 by ring, e2]; ring
  rw [hd]
  field_simp
  ring

theorem outputBase_0_7 : outputBase p 0 7 = 1260 * ((429 / 1024) * (1 / y) ^ 7) := by
  have hw := sqrt_axis hy hp
  simp only [outputBase, hw]
  have hd : 256 * p ^ 8 + 1024 * p ^ 6 + 1536 * p ^ 4 + 1024 * p ^ 2 + 256 = 256 * y ^ 8 := by
    have e2 : y ^ 2 = p ^ 2 + 1 := by linarith
    rw [show y ^ 8 = (y ^ 2) ^ 4 by ring, e2]; ring
  rw [hd]
  field_simp
  ring

theorem outputBase_1_0 : outputBase p 1 0 = 1 * ((-1 / 2) + (3 / 4) * (1 / y) ^ 2) := by
  simp only [outputBase]
  have hd : 4 * p ^ 2 + 4 = 4 * y ^ 2 := by
    have e2 : y ^ 2 = p ^ 2 + 1 := by linarith
    rw [show y ^ 2 = (y ^ 2) ^ 1 by ring, e2]; ring
  rw [hd]
  rw [hp]
  field_simp
  ring

theorem outputBase_1_1 : outputBase p 1 1 = 3 / 2 * ((-3 / 2) * (1 / y) ^ 1 + (15 / 8) * (1 / y) ^ 3) := by
  have hw := sqrt_axis hy hp
  simp only [outputBase, hw]
  have hd : 16 * p ^ 2 + 16 = 16 * y ^ 2 := by
    have e2 : y ^ 2 = p ^ 2 + 1 := by linarith
    rw [show y ^ 2 = (y ^ 2) ^ 1 by ring, e2]; ring
  rw [hd]
  rw [hp]
  field_simp
  ring

theorem outputBase_1_2 : outputBase p 1 2 = 6 * ((-15 / 8) * (1 / y) ^ 2 + (35 / 16) * (1 / y) ^ 4) := by
  simp only [outputBase]
  have hd : 8 * p ^ 4 + 16 * p ^ 2 + 8 = 8 * y ^ 4 := by
    have e2 : y ^ 2 = p ^ 2 + 1 := by linarith
    rw [show y ^ 4 = (y ^ 2) ^ 2 by ring, e2]; ring
  rw [hd]
  rw [hp]
  field_simp
  ring

theorem outputBase_1_3 : outputBase p 1 3 = 30 * ((-35 / 16) * (1 / y) ^ 3 + (315 / 128) * (1 / y) ^ 5) := by
  have hw := sqrt_axis hy hp
  simp only [outputBase, hw]
  have hd : 64 * p ^ 6 + 192 * p ^ 4 + 192 * p ^ 2 + 64 = 64 * y ^ 6 := by
    have e2 : y ^ 2 = p ^ 2 + 1 := by linarith
    rw [show y ^ 6 = (y ^ 2) ^ 3 by ring, e2]; ring
  rw [hd]
  rw [hp]
  field_simp
  ring

theorem outputBase_1_4 : outputBase p 1 4 = 180 * ((-315 / 128) * (1 / y) ^ 4 + (693 / 256) * (1 / y) ^ 6) := by
  simp only [outputBase]
  have hd : 64 * p ^ 6 + 192 * p ^ 4 + 192 * p ^ 2 + 64 = 64 * y ^ 6 := by
    have e2 : y ^ 2 = p ^ 2 + 1 := by linarith
    rw [show y ^ 6 = (y ^ 2) ^ 3 by ring, e2]; ring
  rw [hd]
  rw [hp]
  field_simp
  ring

theorem outputBase_1_5 : outputBase p 1 5 = 1260 * ((-693 / 256) * (1 / y) ^ 5 + (3003 / 1024) * (1 / y) ^ 7) := by
  have hw := sqrt_axis hy hp
  simp only [outputBase, hw]
  have hd : 256 * p ^ 8 + 1024 * p ^ 6 + 1536 * p ^ 4 + 1024 * p ^ 2 + 256 = 256 * y ^ 8 := by
    have e2 : y ^ 2 = p ^ 2 + 1 := by linarith
    rw [show y ^ 8 = (y ^ 2) ^ 4 by ring, e2]; ring
  rw [hd]
  rw [hp]
  field_simp
  ring

theorem outputBase_1_6 : outputBase p 1 6 = 10080 * ((-3003 / 1024) * (1 / y) ^ 6 + (6435 / 2048) * (1 / y) ^ 8) := by
  simp only [outputBase]
  have hd : 64 * p ^ 8 + 256 * p ^ 6 + 384 * p ^ 4 + 256 * p ^ 2 + 64 = 64 * y ^ 8 := by
    have e2 : y ^ 2 = p ^ 2 + 1 := by linarith
    rw [show y ^ 8 = (y ^ 2) ^ 4 by ring, e2]; ring
  rw [hd]
  rw [hp]
  field_simp
  ring

theorem outputBase_1_7 : outputBase p 1 7 = 90720 * ((-6435 / 2048) * (1 / y) ^ 7 + (109395 / 32768) * (1 / y) ^ 9) := by
  have hw := sqrt_axis hy hp
  simp only [outputBase, hw]
  have hd : 1024 * p ^ 8 + 4096 * p ^ 6 + 6144 * p ^ 4 + 4096 * p ^ 2 + 1024 = 1024 * y ^ 8 := by
    have e2 : y ^ 2 = p ^ 2 + 1 := by linarith
    rw [show y ^ 8 = (y ^ 2) ^ 4 by ring, e2]; ring
  rw [hd]
  rw [hp]
  field_simp
  ring

theorem outputBase_2_0 : outputBase p 2 0 = 12 * ((3 / 8) + (-15 / 8) * (1 / y) ^ 2 + (105 / 64) * (1 / y) ^ 4) := by
  simp only [outputBase]
  have hd : 16 * p ^ 4 + 32 * p ^ 2 + 16 = 16 * y ^ 4 := by
    have e2 : y ^ 2 = p ^ 2 + 1 := by linarith
    rw [show y ^ 4 = (y ^ 2) ^ 2 by ring, e2]; ring
  rw [hd]
  have h4 : p ^ 4 = (y ^ 2 - 1) ^ 2 := by rw [← hp]; ring
  rw [h4, hp]
  field_simp
  ring

theorem outputBase_2_1 : outputBase p 2 1 = 30 * ((15 / 8) * (1 / y) ^ 1 + (-105 / 16) * (1 / y) ^ 3 + (315 / 64) * (1 / y) ^ 5) := by
  have hw := sqrt_axis hy hp
  simp only [outputBase, hw]
  have hd : 32 * p ^ 6 + 96 * p ^ 4 + 96 * p ^ 2 + 32 = 32 * y ^ 6 := by
    have e2 : y ^ 2 = p ^ 2 + 1 := by linarith
    rw [show y ^ 6 = (y ^ 2) ^ 3 by ring, e2]; ring
  rw [hd]
  have h4 : p ^ 4 = (y ^ 2 - 1) ^ 2 := by rw [← hp]; ring
  rw [h4, hp]
  field_simp
  ring

theorem outputBase_2_2 : outputBase p 2 2 = 180 * ((105 / 32) * (1 / y) ^ 2 + (-315 / 32) * (1 / y) ^ 4 + (3465 / 512) * (1 / y) ^ 6) := by
  simp only [outputBase]
  have hd : 128 * p ^ 6 + 384 * p ^ 4 + 384 * p ^ 2 + 128 = 128 * y ^ 6 := by
    have e2 : y ^ 2 = p ^ 2 + 1 := by linarith
    rw [show y ^ 6 = (y ^ 2) ^ 3 by ring, e2]; ring
  rw [hd]
  have h4 : p ^ 4 = (y ^ 2 - 1) ^ 2 := by rw [← hp]; ring
  rw [h4, hp]
  field_simp
  ring

theorem outputBase_2_3 : outputBase p 2 3 = 1260 * ((315 / 64) * (1 / y) ^ 3 + (-3465 / 256) * (1 / y) ^ 5 + (9009 / 1024) * (1 / y) ^ 7) := by
  have hw := sqrt_axis hy hp
  simp only [outputBase, hw]
  have hd : 256 * p ^ 8 + 1024 * p ^ 6 + 1536 * p ^ 4 + 1024 * p ^ 2 + 256 = 256 * y ^ 8 := by
    have e2 : y ^ 2 = p ^ 2 + 1 := by linarith
    rw [show y ^ 8 = (y ^ 2) ^ 4 by ring, e2]; ring
  rw [hd]
  have h4 : p ^ 4 = (y ^ 2 - 1) ^ 2 := by rw [← hp]; ring
  rw [h4, hp]
  field_simp
  ring

theorem outputBase_2_4 : outputBase p 2 4 = 10080 * ((3465 / 512) * (1 / y) ^ 4 + (-9009 / 512) * (1 / y) ^ 6 + (45045 / 4096) * (1 / y) ^ 8) := by
  simp only [outputBase]
  have hd : 128 * p ^ 8 + 512 * p ^ 6 + 768 * p ^ 4 + 512 * p ^ 2 + 128 = 128 * y ^ 8 := by
    have e2 : y ^ 2 = p ^ 2 + 1 := by linarith
    rw [show y ^ 8 = (y ^ 2) ^ 4 by ring, e2]; ring
  rw [hd]
  have h4 : p ^ 4 = (y ^ 2 - 1) ^ 2 := by rw [← hp]; ring
  rw [h4, hp]
  field_simp
  ring

theorem outputBase_2_5 : outputBase p 2 5 = 90720 * ((9009 / 1024) * (1 / y) ^ 5 + (-45045 / 2048) * (1 / y) ^ 7 + (109395 / 8192) * (1 / y) ^ 9) := by
  have hw := sqrt_axis hy hp
  simp only [outputBase, hw]
  have hd : 256 * p ^ 8 + 1024 * p ^ 6 + 1536 * p ^ 4 + 1024 * p ^ 2 + 256 = 256 * y ^ 8 := by
    have e2 : y ^ 2 = p ^ 2 + 1 := by linarith
    rw [show y ^ 8 = (y ^ 2) ^ 4 by ring, e2]; ring
  rw [hd]
  have h4 : p ^ 4 = (y ^ 2 - 1) ^ 2 := by rw [← hp]; ring
  rw [h4, hp]
  field_simp
  ring

theorem outputBase_2_6 : outputBase p 2 6 = 907200 * ((45045 / 4096) * (1 / y) ^ 6 + (-109395 / 4096) * (1 / y) ^ 8 + (2078505 / 131072) * (1 / y) ^ 10) := by
  simp only [outputBase]
  have hd : 2048 * p ^ 10 + 10240 * p ^ 8 + 20480 * p ^ 6 + 20480 * p ^ 4 + 10240 * p ^ 2 + 2048 = 2048 * y ^ 10 := by
    have e2 : y ^ 2 = p ^ 2 + 1 := by linarith
    rw [show y ^ 10 = (y ^ 2) ^ 5 by ring, e2]; ring
  rw [hd]
  have h4 : p ^ 4 = (y ^ 2 - 1) ^ 2 := by rw [← hp]; ring
  rw [h4, hp]
  field_simp
  ring

theorem outputBase_2_7 : outputBase p 2 7 = 9979200 * ((109395 / 8192) * (1 / y) ^ 7 + (-2078505 / 65536) * (1 / y) ^ 9 + (4849845 / 262144) * (1 / y) ^ 11) := by
  have hw := sqrt_axis hy hp
  simp only [outputBase, hw]
  have hd : 4096 * p ^ 10 + 20480 * p ^ 8 + 40960 * p ^ 6 + 40960 * p ^ 4 + 20480 * p ^ 2 + 4096 = 4096 * y ^ 10 := by
    have e2 : y ^ 2 = p ^ 2 + 1 := by linarith
    rw [show y ^ 10 = (y ^ 2) ^ 5 by ring, e2]; ring
  rw [hd]
  have h4 : p ^ 4 = (y ^ 2 - 1) ^ 2 := by rw [← hp]; ring
  rw [h4, hp]
  field_simp
  ring

theorem outputBase_3_0 : outputBase p 3 0 = 360 * ((-5 / 16) + (105 / 32) * (1 / y) ^ 2 + (-945 / 128) * (1 / y) ^ 4 + (1155 / 256) * (1 / y) ^ 6) := by
  simp only [outputBase]
  have hd : 32 * p ^ 6 + 96 * p ^ 4 + 96 * p ^ 2 + 32 = 32 * y ^ 6 := by
    have e2 : y ^ 2 = p ^ 2 + 1 := by linarith
    rw [show y ^ 6 = (y ^ 2) ^ 3 by ring, e2]; ring
  rw [hd]
  have h4 : p ^ 4 = (y ^ 2 - 1) ^ 2 := by rw [← hp]; ring
  have h6 : p ^ 6 = (y ^ 2 - 1) ^ 3 := by rw [← hp]; ring
  rw [h6, h4, hp]
  field_simp
  ring

theorem outputBase_3_1 : outputBase p 3 1 = 1260 * ((-35 / 16) * (1 / y) ^ 1 + (945 / 64) * (1 / y) ^ 3 + (-3465 / 128) * (1 / y) ^ 5 + (15015 / 1024) * (1 / y) ^ 7) := by
  have hw := sqrt_axis hy hp
  simp only [outputBase, hw]
  have hd : 256 * p ^ 8 + 1024 * p ^ 6 + 1536 * p ^ 4 + 1024 * p ^ 2 + 256 = 256 * y ^ 8 := by
    have e2 : y ^ 2 = p ^ 2 + 1 := by linarith
    rw [show y ^ 8 = (y ^ 2) ^ 4 by ring, e2]; ring
  rw [hd]
  have h4 : p ^ 4 = (y ^ 2 - 1) ^ 2 := by rw [← hp]; ring
  have h6 : p ^ 6 = (y ^ 2 - 1) ^ 3 := by rw [← hp]; ring
  rw [h6, h4, hp]
  field_simp
  ring

theorem outputBase_3_2 : outputBase p 3 2 = 10080 * ((-315 / 64) * (1 / y) ^ 2 + (3465 / 128) * (1 / y) ^ 4 + (-45045 / 1024) * (1 / y) ^ 6 + (45045 / 2048) * (1 / y) ^ 8) := by
  simp only [outputBase]
  have hd : 64 * p ^ 8 + 256 * p ^ 6 + 384 * p ^ 4 + 256 * p ^ 2 + 64 = 64 * y ^ 8 := by
    have e2 : y ^ 2 = p ^ 2 + 1 := by linarith
    rw [show y ^ 8 = (y ^ 2) ^ 4 by ring, e2]; ring
  rw [hd]
  have h4 : p ^ 4 = (y ^ 2 - 1) ^ 2 := by rw [← hp]; ring
  have h6 : p ^ 6 = (y ^ 2 - 1) ^ 3 := by rw [← hp]; ring
  rw [h6, h4, hp]
  field_simp
  ring

theorem outputBase_3_3 : outputBase p 3 3 = 90720 * ((-1155 / 128) * (1 / y) ^ 3 + (45045 / 1024) * (1 / y) ^ 5 + (-135135 / 2048) * (1 / y) ^ 7 + (255255 / 8192) * (1 / y) ^ 9) := by
  have hw := sqrt_axis hy hp
  simp only [outputBase, hw]
  have hd : 256 * p ^ 8 + 1024 * p ^ 6 + 1536 * p ^ 4 + 1024 * p ^ 2 + 256 = 256 * y ^ 8 := by
    have e2 : y ^ 2 = p ^ 2 + 1 := by linarith
    rw [show y ^ 8 = (y ^ 2) ^ 4 by ring, e2]; ring
  rw [hd]
  have h4 : p ^ 4 = (y ^ 2 - 1) ^ 2 := by rw [← hp]; ring
  have h6 : p ^ 6 = (y ^ 2 - 1) ^ 3 := by rw [← hp]; ring
  rw [h6, h4, hp]
  field_simp
  ring

theorem outputBase_3_4 : outputBase p 3 4 = 907200 * ((-15015 / 1024) * (1 / y) ^ 4 + (135135 / 2048) * (1 / y) ^ 6 + (-765765 / 8192) * (1 / y) ^ 8 + (692835 / 16384) * (1 / y) ^ 10) := by
  simp only [outputBase]
  have hd : 256 * p ^ 10 + 1280 * p ^ 8 + 2560 * p ^ 6 + 2560 * p ^ 4 + 1280 * p ^ 2 + 256 = 256 * y ^ 10 := by
    have e2 : y ^ 2 = p ^ 2 + 1 := by linarith
    rw [show y ^ 10 = (y ^ 2) ^ 5 by ring, e2]; ring
  rw [hd]
  have h4 : p ^ 4 = (y ^ 2 - 1) ^ 2 := by rw [← hp]; ring
  have h6 : p ^ 6 = (y ^ 2 - 1) ^ 3 := by rw [← hp]; ring
  rw [h6, h4, hp]
  field_simp
  ring

theorem outputBase_3_5 : outputBase p 3 5 = 9979200 * ((-45045 / 2048) * (1 / y) ^ 5 + (765765 / 8192) * (1 / y) ^ 7 + (-2078505 / 16384) * (1 / y) ^ 9 + (14549535 / 262144) * (1 / y) ^ 11) := by
  have hw := sqrt_axis hy hp
  simp only [outputBase, hw]
  have hd : 4096 * p ^ 10 + 20480 * p ^ 8 + 40960 * p ^ 6 + 40960 * p ^ 4 + 20480 * p ^ 2 + 4096 = 4096 * y ^ 10 := by
    have e2 : y ^ 2 = p ^ 2 + 1 := by linarith
    rw [show y ^ 10 = (y ^ 2) ^ 5 by ring, e2]; ring
  rw [hd]
  have h4 : p ^ 4 = (y ^ 2 - 1) ^ 2 := by rw [← hp]; ring
  have h6 : p ^ 6 = (y ^ 2 - 1) ^ 3 := by rw [← hp]; ring
  rw [h6, h4, hp]
  field_simp
  ring

theorem outputBase_3_6 : outputBase p 3 6 = 119750400 * ((-255255 / 8192) * (1 / y) ^ 6 + (2078505 / 16384) * (1 / y) ^ 8 + (-43648605 / 262144) * (1 / y) ^ 10 + (37182145 / 524288) * (1 / y) ^ 12) := by
  simp only [outputBase]
  have hd : 2048 * p ^ 12 + 12288 * p ^ 10 + 30720 * p ^ 8 + 40960 * p ^ 6 + 30720 * p ^ 4 + 12288 * p ^ 2 + 2048 = 2048 * y ^ 12 := by
    have e2 : y ^ 2 = p ^ 2 + 1 := by linarith
    rw [show y ^ 12 = (y ^ 2) ^ 6 by ring, e2]; ring
  rw [hd]
  have h4 : p ^ 4 = (y ^ 2 - 1) ^ 2 := by rw [← hp]; ring
  have h6 : p ^ 6 = (y ^ 2 - 1) ^ 3 := by rw [← hp]; ring
  rw [h6, h4, hp]
  field_simp
  ring

theorem outputBase_3_7 : outputBase p 3 7 = 1556755200 * ((-692835 / 16384) * (1 / y) ^ 7 + (43648605 / 262144) * (1 / y) ^ 9 + (-111546435 / 524288) * (1 / y) ^ 11 + (185910725 / 2097152) * (1 / y) ^ 13) := by
  have hw := sqrt_axis hy hp
  simp only [outputBase, hw]
  have hd : 8192 * p ^ 14 + 57344 * p ^ 12 + 172032 * p ^ 10 + 286720 * p ^ 8 + 286720 * p ^ 6 + 172032 * p ^ 4 + 57344 * p ^ 2 + 8192 = 8192 * y ^ 14 := by
    have e2 : y ^ 2 = p ^ 2 + 1 := by linarith
    rw [show y ^ 14 = (y ^ 2) ^ 7 by ring, e2]; ring
  rw [hd]
  have h4 : p ^ 4 = (y ^ 2 - 1) ^ 2 := by rw [← hp]; ring
  have h6 : p ^ 6 = (y ^ 2 - 1) ^ 3 := by rw [← hp]; ring
  rw [h6, h4, hp]
  field_simp
  ring

theorem outputBase_poly (nu m : Nat) (hn : nu < 4) (hm : m < 8) :
    outputBase p nu m = ((2 * nu + m).factorial : ℝ) / (4 * (if m = 0 then 1 / 2 else 1)) * axisPoly nu m (1 / y) := by
  interval_cases nu <;> interval_cases m
  · rw [outputBase_0_0]; simp only [axisPoly, Nat.factorial]; norm_num
  · rw [outputBase_0_1 hy hp]; simp only [axisPoly, Nat.factorial]; norm_num
  · rw [outputBase_0_2 hy hp]; simp only [axisPoly, Nat.factorial]; norm_num
  · rw [outputBase_0_3 hy hp]; simp only [axisPoly, Nat.factorial]; norm_num
  · rw [outputBase_0_4 hy hp]; simp only [axisPoly, Nat.factorial]; norm_num
  · rw [outputBase_0_5 hy hp]; simp only [axisPoly, Nat.factorial]; norm_num
  · rw [outputBase_0_6 hy hp]; simp only [axisPoly, Nat.factorial]; norm_num
  · rw [outputBase_0_7 hy hp]; simp only [axisPoly, Nat.factorial]; norm_num
  · rw [outputBase_1_0 hy hp]; simp only [axisPoly, Nat.factorial]; norm_num
  · rw [outputBase_1_1 hy hp]; simp only [axisPoly, Nat.factorial]; norm_num
  · rw [outputBase_1_2 hy hp]; simp only [axisPoly, Nat.factorial]; norm_num
  · rw [outputBase_1_3 hy hp]; simp only [axisPoly, Nat.factorial]; norm_num
  · rw [outputBase_1_4 hy hp]; simp only [axisPoly, Nat.factorial]; norm_num
  · rw [outputBase_1_5 hy hp]; simp only [axisPoly, Nat.factorial]; norm_num
  · rw [outputBase_1_6 hy hp]; simp only [axisPoly, Nat.factorial]; norm_num
  · rw [outputBase_1_7 hy hp]; simp only [axisPoly, Nat.factorial]; norm_num
  · rw [outputBase_2_0 hy hp]; simp only [axisPoly, Nat.factorial]; norm_num
  · rw [outputBase_2_1 hy hp]; simp only [axisPoly, Nat.factorial]; norm_num
  · rw [outputBase_2_2 hy hp]; simp only [axisPoly, Nat.factorial]; norm_num
  · rw [outputBase_2_3 hy hp]; simp only [axisPoly, Nat.factorial]; norm_num
  · rw [outputBase_2_4 hy hp]; simp only [axisPoly, Nat.factorial]; norm_num
  · rw [outputBase_2_5 hy hp]; simp only [axisPoly, Nat.factorial]; norm_num
  · rw [outputBase_2_6 hy hp]; simp only [axisPoly, Nat.factorial]; norm_num
  · rw [outputBase_2_7 hy hp]; simp only [axisPoly, Nat.factorial]; norm_num
  · rw [outputBase_3_0 hy hp]; simp only [axisPoly, Nat.factorial]; norm_num
  · rw [outputBase_3_1 hy hp]; simp only [axisPoly, Nat.factorial]; norm_num
  · rw [outputBase_3_2 hy hp]; simp only [axisPoly, Nat.factorial]; norm_num
  · rw [outputBase_3_3 hy hp]; simp only [axisPoly, Nat.factorial]; norm_num
  · rw [outputBase_3_4 hy hp]; simp only [axisPoly, Nat.factorial]; norm_num
  · rw [outputBase_3_5 hy hp]; simp only [axisPoly, Nat.factorial]; norm_num
  · rw [outputBase_3_6 hy hp]; simp only [axisPoly, Nat.factorial]; norm_num
  · rw [outputBase_3_7 hy hp]; simp only [axisPoly, Nat.factorial]; norm_num

end
end Traceon
