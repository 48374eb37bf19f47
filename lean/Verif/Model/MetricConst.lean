import Verif.Model.Metric

/-!
# The one-dimensional constants of `/repo/src/s2/metric.rs`

`fl` is the rounding of the constant expressions, `sqrt2` the constant `SQRT_2`. The decimal literals of the maximal values are given as the doubles nearest
to them. (`MIN_WIDTHMETRIC` is in Model/CapUnion.lean, the areas are in Model/Area.lean; the averages and aspect ratios are not modelled.)
-/

namespace Verif
variable {K : Type} [Field K] [LinearOrder K] (fl : K → K)

/-- `MIN_ANGLE_SPANMETRIC`, metric.rs line 56: `4.0 / 3.`. -/
def minAngleSpanMetric : S2.Metric K := ⟨1, fl (4 / 3)⟩

/-- `MAX_ANGLE_SPANMETRIC`, metric.rs line 58: the double nearest to `1.704_897_179_199_218_5`. -/
def maxAngleSpanMetric : S2.Metric K := ⟨1, 3839087150473305 / 2 ^ 51⟩

/-- `MAX_WIDTHMETRIC`, metric.rs line 78. -/
def maxWidthMetric : S2.Metric K := ⟨1, (maxAngleSpanMetric : S2.Metric K).deriv⟩

/-- `MIN_EDGEMETRIC`, metric.rs line 85: `2. * SQRT_2 / 3.`. -/
def minEdgeMetric (sqrt2 : K) : S2.Metric K := ⟨1, fl (fl (2 * sqrt2) / 3)⟩

/-- `MAX_EDGEMETRIC`, metric.rs line 87. -/
def maxEdgeMetric : S2.Metric K := ⟨1, (maxAngleSpanMetric : S2.Metric K).deriv⟩

/-- `MIN_DIAGMETRIC`, metric.rs line 102: `8. * SQRT_2 / 9.`. -/
def minDiagMetric (sqrt2 : K) : S2.Metric K := ⟨1, fl (fl (8 * sqrt2) / 9)⟩

/-- `MAX_DIAGMETRIC`, metric.rs line 104: the double nearest to `2.438_654_594_434_021`. -/
def maxDiagMetric : S2.Metric K := ⟨1, 5491361961389203 / 2 ^ 51⟩

end Verif
