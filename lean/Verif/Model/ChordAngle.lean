import Verif.Model.Predicates
import Mathlib.Order.WithBot

/-!
# Model of `/repo/src/s1/chordangle.rs`

A chord angle is its squared length. `fl` is the rounding after each arithmetic operation and `sqrt`, `sin`, `asin` are the library
functions, also followed by a rounding. The constructors and predicates that must tell the infinite chord angle apart take values of
`WithTop K` (`⊤` is the positive infinity); the arithmetic is documented for finite values only, and takes values of `K`.
`successor` (behind the feature `float_extras`) is in Model/F64.lean.
-/

namespace Verif.ChordAngle
variable {K : Type} [Field K] [LinearOrder K] (fl sqrt : K → K)

/-- `NEGATIVE`, chordangle.rs lines 50. -/
def negative : K := -1

/-- `RIGHT`, chordangle.rs lines 53. -/
def right : K := 2

/-- `STRAIGHT`, chordangle.rs lines 57-59. -/
def straight : K := 4

/-- The formula for a finite angle, chordangle.rs lines 70-71. -/
def ofRad (sin : K → K) (pi a : K) : K :=
  let l := fl (2 * fl (sin (fl (1 / 2 * min a pi))))
  fl (l * l)

/-- `From<&Angle> for ChordAngle`, chordangle.rs lines 62-74. -/
def fromAngle (sin : K → K) (pi : K) (a : WithTop K) : WithTop K :=
  if a < 0 then ((negative : K) : WithTop K)
  else match a with
    | ⊤ => ⊤
    | (a : K) => ((ofRad fl sin pi a : K) : WithTop K)

/-- The formula for a finite chord angle, chordangle.rs line 101. -/
def toRad (asin : K → K) (c : K) : K := fl (2 * fl (asin (fl (1 / 2 * fl (sqrt c)))))

/-- `From<&ChordAngle> for Angle`, chordangle.rs lines 93-104. -/
def toAngle (asin : K → K) (c : WithTop K) : WithTop K :=
  if c < 0 then ((-1 : K) : WithTop K)
  else match c with
    | ⊤ => ⊤
    | (c : K) => ((toRad fl sqrt asin c : K) : WithTop K)

/-- The factors `x` and `y` of the sum and the difference, chordangle.rs lines 134-135 and 159-160: `chord a b` is `x`, and `chord b a` is `y`. -/
def chord (a b : K) : K := fl (a * fl (1 - fl (1 / 4 * b)))

/-- `Add`, chordangle.rs lines 112-139. -/
def add (a b : K) : K :=
  if b = 0 then a
  else if fl (a + b) ≥ 4 then straight
  else
    let x := chord fl a b
    let y := chord fl b a
    min 4 (fl (fl (x + y) + fl (2 * fl (sqrt (fl (x * y))))))

/-- `Sub`, chordangle.rs lines 148-163. -/
def sub (a b : K) : K :=
  if b = 0 then a
  else if a ≤ b then 0
  else
    let x := chord fl a b
    let y := chord fl b a
    max 0 (fl (fl (x + y) - fl (2 * fl (sqrt (fl (x * y))))))

/-- `from_squared_length`, chordangle.rs lines 180-186. -/
def fromSquaredLength (l : K) : K := if l > 4 then straight else l

/-- `is_special`, chordangle.rs lines 203-205. -/
def isSpecial (c : WithTop K) : Bool := decide (c < 0 ∨ c = ⊤)

/-- `is_valid`, chordangle.rs lines 208-210. -/
def isValid (c : WithTop K) : Bool := decide (c ≥ 0 ∧ c ≤ ((4 : K) : WithTop K)) || isSpecial c

/-- `expanded`, chordangle.rs lines 193-200. -/
def expanded (c : WithTop K) (e : K) : WithTop K :=
  if isSpecial c then c
  else match c with
    | ⊤ => ⊤
    | (c : K) => ((max 0 (min 4 (fl (c + e))) : K) : WithTop K)

/-- `max_point_error`, chordangle.rs lines 220-225. -/
def maxPointError (c : K) : K :=
  fl (fl (fl (fl (5 / 2) * Predicates.dblEpsilon fl) * c) + fl (fl (16 * Predicates.dblEpsilon fl) * Predicates.dblEpsilon fl))

/-- `max_angle_error`, chordangle.rs lines 229-231. -/
def maxAngleError (c : K) : K := fl (Predicates.dblEpsilon fl * c)

/-- `sin2`, chordangle.rs lines 241-248. -/
def sin2 (c : K) : K := fl (c * fl (1 - fl (1 / 4 * c)))

/-- `sin`, chordangle.rs lines 235-237. -/
def sin (c : K) : K := fl (sqrt (sin2 fl c))

/-- `cos`, chordangle.rs lines 252-255. -/
def cos (c : K) : K := fl (1 - fl (1 / 2 * c))

/-- `tan`, chordangle.rs lines 258-260. -/
def tan (c : K) : K := fl (sin fl sqrt c / cos fl c)

end Verif.ChordAngle
