import Verif.Lemmas.EllipticCert2

/-!
# Certificate: bound for the code's K and the reference approximation

Every theorem is a computation with integers that the kernel carries out.
-/
namespace Traceon.Cert
set_option maxRecDepth 100000

theorem topK0 : topOk difA difB 50000000 0 = true := by decide +kernel
theorem topK1 : topOk difA difB 50000000 1 = true := by decide +kernel
theorem topK2 : topOk difA difB 50000000 2 = true := by decide +kernel
theorem topK3 : topOk difA difB 50000000 3 = true := by decide +kernel
theorem rowK0 : rowOk difA difB 50000000 0 = true := by decide +kernel
theorem rowK1 : rowOk difA difB 50000000 1 = true := by decide +kernel
theorem rowK2 : rowOk difA difB 50000000 2 = true := by decide +kernel
theorem rowK3 : rowOk difA difB 50000000 3 = true := by decide +kernel
theorem rowK4 : rowOk difA difB 50000000 4 = true := by decide +kernel
theorem rowK5 : rowOk difA difB 50000000 5 = true := by decide +kernel
theorem rowK6 : rowOk difA difB 50000000 6 = true := by decide +kernel
theorem rowK7 : rowOk difA difB 50000000 7 = true := by decide +kernel
theorem rowK8 : rowOk difA difB 50000000 8 = true := by decide +kernel
theorem rowK9 : rowOk difA difB 50000000 9 = true := by decide +kernel
theorem rowK10 : rowOk difA difB 50000000 10 = true := by decide +kernel
theorem rowK11 : rowOk difA difB 50000000 11 = true := by decide +kernel
theorem rowK12 : rowOk difA difB 50000000 12 = true := by decide +kernel
theorem rowK13 : rowOk difA difB 50000000 13 = true := by decide +kernel
theorem rowK14 : rowOk difA difB 50000000 14 = true := by decide +kernel
theorem rowK15 : rowOk difA difB 50000000 15 = true := by decide +kernel
theorem rowK16 : rowOk difA difB 50000000 16 = true := by decide +kernel
theorem rowK17 : rowOk difA difB 50000000 17 = true := by decide +kernel
theorem rowK18 : rowOk difA difB 50000000 18 = true := by decide +kernel
theorem rowK19 : rowOk difA difB 50000000 19 = true := by decide +kernel
theorem rowK20 : rowOk difA difB 50000000 20 = true := by decide +kernel
theorem rowK21 : rowOk difA difB 50000000 21 = true := by decide +kernel
theorem rowK22 : rowOk difA difB 50000000 22 = true := by decide +kernel
theorem rowK23 : rowOk difA difB 50000000 23 = true := by decide +kernel
theorem rowK24 : rowOk difA difB 50000000 24 = true := by decide +kernel
theorem rowK25 : rowOk difA difB 50000000 25 = true := by decide +kernel
theorem rowK26 : rowOk difA difB 50000000 26 = true := by decide +kernel
theorem rowK27 : rowOk difA difB 50000000 27 = true := by decide +kernel
theorem rowK28 : rowOk difA difB 50000000 28 = true := by decide +kernel
theorem tailK : tailOkL difA difB 50000000 15 = true := by decide +kernel
theorem lenK : difA.length = difB.length := by decide +kernel

/-- The bound on the whole of (0, 1]. -/
theorem boundK {p : ℝ} (hp : 0 < p) (hp1 : p ≤ 1) :
    |pe difA p + Real.log (1 / p) * pe difB p| ≤ ((50000000 : ℤ) : ℝ) / 10 ^ 20 * den := by
  refine checks_sound (n := 15) (by norm_num) (by norm_num) lenK ?_ ?_ tailK hp hp1
  · intro j hj
    match j, hj with
    | 0, _ => exact topK0
    | 1, _ => exact topK1
    | 2, _ => exact topK2
    | 3, _ => exact topK3
  · intro i hi
    have hi' : i < 29 := hi
    clear hi
    match i, hi' with
    | 0, _ => exact rowK0
    | 1, _ => exact rowK1
    | 2, _ => exact rowK2
    | 3, _ => exact rowK3
    | 4, _ => exact rowK4
    | 5, _ => exact rowK5
    | 6, _ => exact rowK6
    | 7, _ => exact rowK7
    | 8, _ => exact rowK8
    | 9, _ => exact rowK9
    | 10, _ => exact rowK10
    | 11, _ => exact rowK11
    | 12, _ => exact rowK12
    | 13, _ => exact rowK13
    | 14, _ => exact rowK14
    | 15, _ => exact rowK15
    | 16, _ => exact rowK16
    | 17, _ => exact rowK17
    | 18, _ => exact rowK18
    | 19, _ => exact rowK19
    | 20, _ => exact rowK20
    | 21, _ => exact rowK21
    | 22, _ => exact rowK22
    | 23, _ => exact rowK23
    | 24, _ => exact rowK24
    | 25, _ => exact rowK25
    | 26, _ => exact rowK26
    | 27, _ => exact rowK27
    | 28, _ => exact rowK28
    | k + 29, h => exact absurd h (by omega)

end Traceon.Cert
