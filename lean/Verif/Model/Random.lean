import Verif.Model.CellID
import Verif.Model.Cap

/-!
# Model of `/repo/src/s2/random.rs`

The numbers drawn from the generator are parameters. `cap`, `latlng` and `rect` (compositions of other functions) are not modelled.
-/

namespace Verif.Random
open Rust

/-- `skewed_int`, random.rs lines 17-23: `base` is drawn from `0..maxLog+1` and `r` from `0..1 << 31`. -/
def skewedInt (base r : Nat) : Option Nat := do
  let b ← shl 1#64 base
  let m ← sub b 1#64
  some (BitVec.ofNat 64 r &&& m).toNat

/-- `cellid_for_level`, random.rs lines 75-86: `face` is drawn from `0..6` and `r` is any `u64`. -/
def cellidForLevel (face r : U64) (level : Nat) : Option CellID := do
  let b ← shl 1#64 posBits
  let m ← sub b 1#64
  let c ← CellID.fromFacePosLevel face (r &&& m) level
  assert (face.toNat == c.face)
  let l ← c.level
  assert (level == l)
  some c

variable {K : Type} [Field K] [LinearOrder K] (fl sqrt : K → K)

/-- `frame_at_point`, random.rs lines 59-65: `p` is the random point. -/
def frameAtPoint (z p : Vec K) : Vec.Frame K :=
  let x := Vec.normalize fl sqrt (Vec.pointCross fl sqrt z p)
  let y := Vec.normalize fl sqrt (Vec.pointCross fl sqrt z x)
  ⟨x, y, z⟩

/-- `sample_point_from_cap`, random.rs lines 97-119: `u` and `v` are drawn from `0.0..1.0`. -/
def samplePointFromCap (sin cos : K → K) (pi : K) (c : Cap K) (u v : K) : Vec K :=
  let m := Vec.frame fl sqrt c.center
  let h := fl (u * c.height fl)
  let theta := fl (fl (2 * pi) * v)
  let r := fl (sqrt (fl (h * fl (2 - h))))
  Vec.fromFrame fl m (Vec.normalize fl sqrt (Vec.fromCoords fl sqrt (fl (fl (cos theta) * r)) (fl (fl (sin theta) * r)) (fl (1 - h))))

end Verif.Random
