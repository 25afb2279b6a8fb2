import Verif.Lemmas.EllipticCert2

/-!
# Certificate: bound for the residual of the reference approximation

Every theorem is a computation with integers that the kernel carries out.
-/
namespace Traceon.Cert
set_option maxRecDepth 100000

theorem topR0 : topOk resA resB 1000000 0 = true := by decide +kernel
theorem topR1 : topOk resA resB 1000000 1 = true := by decide +kernel
theorem topR2 : topOk resA resB 1000000 2 = true := by decide +kernel
theorem topR3 : topOk resA resB 1000000 3 = true := by decide +kernel
theorem rowR0 : rowOk resA resB 1000000 0 = true := by decide +kernel
theorem rowR1 : rowOk resA resB 1000000 1 = true := by decide +kernel
theorem rowR2 : rowOk resA resB 1000000 2 = true := by decide +kernel
theorem rowR3 : rowOk resA resB 1000000 3 = true := by decide +kernel
theorem rowR4 : rowOk resA resB 1000000 4 = true := by decide +kernel
theorem rowR5 : rowOk resA resB 1000000 5 = true := by decide +kernel
theorem rowR6 : rowOk resA resB 1000000 6 = true := by decide +kernel
theorem rowR7 : rowOk resA resB 1000000 7 = true := by decide +kernel
theorem rowR8 : rowOk resA resB 1000000 8 = true := by decide +kernel
theorem rowR9 : rowOk resA resB 1000000 9 = true := by decide +kernel
theorem rowR10 : rowOk resA resB 1000000 10 = true := by decide +kernel
theorem rowR11 : rowOk resA resB 1000000 11 = true := by decide +kernel
theorem rowR12 : rowOk resA resB 1000000 12 = true := by decide +kernel
theorem rowR13 : rowOk resA resB 1000000 13 = true := by decide +kernel
theorem rowR14 : rowOk resA resB 1000000 14 = true := by decide +kernel
theorem rowR15 : rowOk resA resB 1000000 15 = true := by decide +kernel
theorem rowR16 : rowOk resA resB 1000000 16 = true := by decide +kernel
theorem rowR17 : rowOk resA resB 1000000 17 = true := by decide +kernel
theorem rowR18 : rowOk resA resB 1000000 18 = true := by decide +kernel
theorem rowR19 : rowOk resA resB 1000000 19 = true := by decide +kernel
theorem rowR20 : rowOk resA resB 1000000 20 = true := by decide +kernel
theorem rowR21 : rowOk resA resB 1000000 21 = true := by decide +kernel
theorem rowR22 : rowOk resA resB 1000000 22 = true := by decide +kernel
theorem rowR23 : rowOk resA resB 1000000 23 = true := by decide +kernel
theorem rowR24 : rowOk resA resB 1000000 24 = true := by decide +kernel
theorem rowR25 : rowOk resA resB 1000000 25 = true := by decide +kernel
theorem rowR26 : rowOk resA resB 1000000 26 = true := by decide +kernel
theorem rowR27 : rowOk resA resB 1000000 27 = true := by decide +kernel
theorem rowR28 : rowOk resA resB 1000000 28 = true := by decide +kernel
theorem rowR29 : rowOk resA resB 1000000 29 = true := by decide +kernel
theorem rowR30 : rowOk resA resB 1000000 30 = true := by decide +kernel
theorem rowR31 : rowOk resA resB 1000000 31 = true := by decide +kernel
theorem rowR32 : rowOk resA resB 1000000 32 = true := by decide +kernel
theorem rowR33 : rowOk resA resB 1000000 33 = true := by decide +kernel
theorem rowR34 : rowOk resA resB 1000000 34 = true := by decide +kernel
theorem tailR : tailOkL resA resB 1000000 18 = true := by decide +kernel
theorem lenR : resA.length = resB.length := by decide +kernel

/-- The bound on the whole of (0, 1]. -/
theorem boundR {p : ℝ} (hp : 0 < p) (hp1 : p ≤ 1) :
    |pe resA p + Real.log (1 / p) * pe resB p| ≤ ((1000000 : ℤ) : ℝ) / 10 ^ 20 * den := by
  refine checks_sound (n := 18) (by norm_num) (by norm_num) lenR ?_ ?_ tailR hp hp1
  · intro j hj
    match j, hj with
    | 0, _ => exact topR0
    | 1, _ => exact topR1
    | 2, _ => exact topR2
    | 3, _ => exact topR3
  · intro i hi
    have hi' : i < 35 := hi
    clear hi
    match i, hi' with
    | 0, _ => exact rowR0
    | 1, _ => exact rowR1
    | 2, _ => exact rowR2
    | 3, _ => exact rowR3
    | 4, _ => exact rowR4
    | 5, _ => exact rowR5
    | 6, _ => exact rowR6
    | 7, _ => exact rowR7
    | 8, _ => exact rowR8
    | 9, _ => exact rowR9
    | 10, _ => exact rowR10
    | 11, _ => exact rowR11
    | 12, _ => exact rowR12
    | 13, _ => exact rowR13
    | 14, _ => exact rowR14
    | 15, _ => exact rowR15
    | 16, _ => exact rowR16
    | 17, _ => exact rowR17
    | 18, _ => exact rowR18
    | 19, _ => exact rowR19
    | 20, _ => exact rowR20
    | 21, _ => exact rowR21
    | 22, _ => exact rowR22
    | 23, _ => exact rowR23
    | 24, _ => exact rowR24
    | 25, _ => exact rowR25
    | 26, _ => exact rowR26
    | 27, _ => exact rowR27
    | 28, _ => exact rowR28
    | 29, _ => exact rowR29
    | 30, _ => exact rowR30
    | 31, _ => exact rowR31
    | 32, _ => exact rowR32
    | 33, _ => exact rowR33
    | 34, _ => exact rowR34
    | k + 35, h => exact absurd h (by omega)

end Traceon.Cert
