import Verif.Model.R2

/-!
# Model of `norm` and `normalize` of `/repo/src/r2/point.rs`

`hypot` is the library function, a parameter with its own error.
-/

namespace Verif.R2.Point
variable {K : Type} [Field K] [LinearOrder K] (fl : K → K) (hypot : K → K → K)

/-- `norm`, point.rs lines 148-150. -/
def norm (p : Point K) : K := hypot p.x p.y

/-- `normalize`, point.rs lines 153-159. -/
def normalize (p : Point K) : Point K :=
  if p.x = 0 ∧ p.y = 0 then p else p.smul fl (fl (1 / p.norm hypot))

end Verif.R2.Point
