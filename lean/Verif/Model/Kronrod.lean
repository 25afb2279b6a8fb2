import Verif.Model.Vec

/-!
# Model of `backend/kronrod.c`
-/
namespace Traceon

/-- kronrod.c:7-19, the weights (first) and nodes of the Gauss rule; the first entry belongs to the centre. -/
noncomputable def g7Table : List (ℝ × ℝ) :=
  [(0.417959183673469, 0.000000000000000),
   (0.381830050505119, 0.405845151377397),
   (0.279705391489277, 0.741531185599394),
   (0.129484966168870, 0.949107912342759)]

/-- kronrod.c:21-41, the weights (first) and nodes of the Kronrod rule. -/
noncomputable def k15Table : List (ℝ × ℝ) :=
  [(0.209482141084728, 0.000000000000000),
   (0.204432940075299, 0.207784955007898),
   (0.190350578064785, 0.405845151377397),
   (0.169004726639268, 0.586087235467691),
   (0.140653259715526, 0.741531185599394),
   (0.104790010322250, 0.864864423359769),
   (0.063092092629979, 0.949107912342759),
   (0.022935322010529, 0.991455371120813)]

/-- The value of a rule on the interval from `s` to `e` (kronrod.c:49-63): the entry 0 of the table times the value
at the centre, then the loop from `i = 1`. -/
noncomputable def intervalRule (table : List (ℝ × ℝ)) (f : ℝ → ℝ) (s e : ℝ) : ℝ :=
  let c := (s + e) / 2
  let h := (e - s) / 2
  match table with
  | [] => 0
  | (w0, _) :: rest =>
    rest.foldl (fun acc wx => acc + h * wx.1 * (f (c - h * wx.2) + f (c + h * wx.2))) (h * w0 * f c)

/-- The test for accepting the value on an interval (kronrod.c:65-67). -/
def kronrodAccepts (absTol relTol : ℝ) (g7 k15 : ℝ) : Prop :=
  |k15 - g7| ≤ absTol ∨ |k15 - g7| ≤ relTol * |k15|

open Classical in
/-- The loop `while(current_start < b)` (kronrod.c:48-74); `fuel` bounds the number of iterations, `none` means
that the loop has not finished. -/
noncomputable def kronrodLoop (f : ℝ → ℝ) (b absTol relTol : ℝ) : Nat → ℝ → ℝ → ℝ → Option ℝ
  | 0, _, _, _ => none
  | fuel + 1, start, stop, result =>
    if start < b then
      let g7 := intervalRule g7Table f start stop
      let k15 := intervalRule k15Table f start stop
      if kronrodAccepts absTol relTol g7 k15 then kronrodLoop f b absTol relTol fuel stop b (result + k15)
      else kronrodLoop f b absTol relTol fuel start ((start + stop) / 2) result
    else some result

/-- `kronrod_adaptive` (kronrod.c:43-77): `KronrodReturns f a b absTol relTol r` says that the function returns `r`. -/
def KronrodReturns (f : ℝ → ℝ) (a b absTol relTol r : ℝ) : Prop :=
  ∃ fuel, kronrodLoop f b absTol relTol fuel a b 0 = some r

end Traceon
