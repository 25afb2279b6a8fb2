import Verif.Lemmas.EllipticCert2

/-!
# Certificate: bound for the code's E and the reference approximation

Every theorem is a computation with integers that the kernel carries out.
-/
namespace Traceon.Cert
set_option maxRecDepth 100000

theorem topE0 : topOk difEA difEB 50000000 0 = true := by decide +kernel
theorem topE1 : topOk difEA difEB 50000000 1 = true := by decide +kernel
theorem topE2 : topOk difEA difEB 50000000 2 = true := by decide +kernel
theorem topE3 : topOk difEA difEB 50000000 3 = true := by decide +kernel
theorem rowE0 : rowOk difEA difEB 50000000 0 = true := by decide +kernel
theorem rowE1 : rowOk difEA difEB 50000000 1 = true := by decide +kernel
theorem rowE2 : rowOk difEA difEB 50000000 2 = true := by decide +kernel
theorem rowE3 : rowOk difEA difEB 50000000 3 = true := by decide +kernel
theorem rowE4 : rowOk difEA difEB 50000000 4 = true := by decide +kernel
theorem rowE5 : rowOk difEA difEB 50000000 5 = true := by decide +kernel
theorem rowE6 : rowOk difEA difEB 50000000 6 = true := by decide +kernel
theorem rowE7 : rowOk difEA difEB 50000000 7 = true := by decide +kernel
theorem rowE8 : rowOk difEA difEB 50000000 8 = true := by decide +kernel
theorem rowE9 : rowOk difEA difEB 50000000 9 = true := by decide +kernel
theorem rowE10 : rowOk difEA difEB 50000000 10 = true := by decide +kernel
theorem rowE11 : rowOk difEA difEB 50000000 11 = true := by decide +kernel
theorem rowE12 : rowOk difEA difEB 50000000 12 = true := by decide +kernel
theorem rowE13 : rowOk difEA difEB 50000000 13 = true := by decide +kernel
theorem rowE14 : rowOk difEA difEB 50000000 14 = true := by decide +kernel
theorem rowE15 : rowOk difEA difEB 50000000 15 = true := by decide +kernel
theorem rowE16 : rowOk difEA difEB 50000000 16 = true := by decide +kernel
theorem rowE17 : rowOk difEA difEB 50000000 17 = true := by decide +kernel
theorem rowE18 : rowOk difEA difEB 50000000 18 = true := by decide +kernel
theorem rowE19 : rowOk difEA difEB 50000000 19 = true := by decide +kernel
theorem rowE20 : rowOk difEA difEB 50000000 20 = true := by decide +kernel
theorem rowE21 : rowOk difEA difEB 50000000 21 = true := by decide +kernel
theorem rowE22 : rowOk difEA difEB 50000000 22 = true := by decide +kernel
theorem rowE23 : rowOk difEA difEB 50000000 23 = true := by decide +kernel
theorem rowE24 : rowOk difEA difEB 50000000 24 = true := by decide +kernel
theorem rowE25 : rowOk difEA difEB 50000000 25 = true := by decide +kernel
theorem rowE26 : rowOk difEA difEB 50000000 26 = true := by decide +kernel
theorem rowE27 : rowOk difEA difEB 50000000 27 = true := by decide +kernel
theorem rowE28 : rowOk difEA difEB 50000000 28 = true := by decide +kernel
theorem tailE : tailOkL difEA difEB 50000000 15 = true := by decide +kernel
theorem lenE : difEA.length = difEB.length := by decide +kernel

/-- The bound on the whole of (0, 1]. -/
theorem boundE {p : ℝ} (hp : 0 < p) (hp1 : p ≤ 1) :
    |pe difEA p + Real.log (1 / p) * pe difEB p| ≤ ((50000000 : ℤ) : ℝ) / 10 ^ 20 * den := by
  refine checks_sound (n := 15) (by norm_num) (by norm_num) lenE ?_ ?_ tailE hp hp1
  · intro j hj
    match j, hj with
    | 0, _ => exact topE0
    | 1, _ => exact topE1
    | 2, _ => exact topE2
    | 3, _ => exact topE3
  · intro i hi
    have hi' : i < 29 := hi
    clear hi
    match i, hi' with
    | 0, _ => exact rowE0
    | 1, _ => exact rowE1
    | 2, _ => exact rowE2
    | 3, _ => exact rowE3
    | 4, _ => exact rowE4
    | 5, _ => exact rowE5
    | 6, _ => exact rowE6
    | 7, _ => exact rowE7
    | 8, _ => exact rowE8
    | 9, _ => exact rowE9
    | 10, _ => exact rowE10
    | 11, _ => exact rowE11
    | 12, _ => exact rowE12
    | 13, _ => exact rowE13
    | 14, _ => exact rowE14
    | 15, _ => exact rowE15
    | 16, _ => exact rowE16
    | 17, _ => exact rowE17
    | 18, _ => exact rowE18
    | 19, _ => exact rowE19
    | 20, _ => exact rowE20
    | 21, _ => exact rowE21
    | 22, _ => exact rowE22
    | 23, _ => exact rowE23
    | 24, _ => exact rowE24
    | 25, _ => exact rowE25
    | 26, _ => exact rowE26
    | 27, _ => exact rowE27
    | 28, _ => exact rowE28
    | k + 29, h => exact absurd h (by omega)

end Traceon.Cert
