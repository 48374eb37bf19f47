import Verif.Model.Float

/-!
# Model of `src/s2/stuv.rs`: the cube projection

Line numbers refer to `/repo/src/s2/stuv.rs`. The functions are over an ordered field `K`; divisions
are followed by the rounding function `fl` (`id` for exact arithmetic). `none` is the panic of
`unimplemented!()`.
-/

namespace Verif

/-- `r3::vector::Vector`. -/
structure Vec (K : Type) where
  x : K
  y : K
  z : K
deriving DecidableEq

variable {K : Type} [Field K] [LinearOrder K]

/-- `face`, lines 40-56. -/
def vecFace (r : Vec K) : Nat :=
  let s : Nat × K := (0, r.x)
  let s := if |r.y| > |r.x| then (1, r.y) else s
  let s := if |r.z| > |s.2| then (2, r.z) else s
  if s.2 < 0 then s.1 + 3 else s.1

/-- `valid_face_xyz_to_uv`, lines 58-68. -/
def validFaceXYZtoUV (fl : K → K) (face : Nat) (r : Vec K) : Option (K × K) :=
  match face with
  | 0 => some (fl (r.y / r.x), fl (r.z / r.x))
  | 1 => some (fl (-r.x / r.y), fl (r.z / r.y))
  | 2 => some (fl (-r.x / r.z), fl (-r.y / r.z))
  | 3 => some (fl (r.z / r.x), fl (r.y / r.x))
  | 4 => some (fl (r.z / r.y), fl (-r.x / r.y))
  | 5 => some (fl (-r.y / r.z), fl (-r.x / r.z))
  | _ => none

/-- `xyz_to_face_uv`, lines 70-74. -/
def xyzToFaceUV (fl : K → K) (r : Vec K) : Option (Nat × K × K) := do
  let f := vecFace r
  let (u, v) ← validFaceXYZtoUV fl f r
  some (f, u, v)

/-- `face_uv_to_xyz`, lines 76-86. -/
def faceUVtoXYZ (face : Nat) (u v : K) : Option (Vec K) :=
  match face with
  | 0 => some ⟨1, u, v⟩
  | 1 => some ⟨-u, 1, v⟩
  | 2 => some ⟨-u, -v, 1⟩
  | 3 => some ⟨-1, -v, -u⟩
  | 4 => some ⟨v, -1, -u⟩
  | 5 => some ⟨v, u, -1⟩
  | _ => none

/-- `siti_to_st`, lines 7-13 (`MAX_SITI` is `2^31`, line 5). -/
def sitiToST (fl : K → K) (si : Nat) : K := if si > 2 ^ 31 then 1 else fl ((si : K) / 2 ^ 31)

/-- `st_to_uv`, lines 24-30; `(1. / 3.)` is the constant `fl (1 / 3)`. -/
def stToUV (fl : K → K) (s : K) : K :=
  if s ≥ 1 / 2 then fl (fl (1 / 3) * fl (fl (fl (4 * s) * s) - 1))
  else fl (fl (1 / 3) * fl (1 - fl (fl (4 * fl (1 - s)) * fl (1 - s))))

/-- `uv_to_st`, lines 32-38; `sqrt` is the exact square root, followed by a rounding. -/
def uvToST (fl sqrt : K → K) (u : K) : K :=
  if u ≥ 0 then fl (1 / 2 * fl (sqrt (fl (1 + fl (3 * u)))))
  else fl (1 - fl (1 / 2 * fl (sqrt (fl (1 - fl (3 * u))))))

/-- `face_xyz_to_uv`, lines 88-103; the inner `none` is `None`. -/
def faceXYZtoUV (fl : K → K) (face : Nat) (p : Vec K) : Option (Option (K × K)) := do
  let invalid ← match face with
    | 0 => some (decide (p.x ≤ 0))
    | 1 => some (decide (p.y ≤ 0))
    | 2 => some (decide (p.z ≤ 0))
    | 3 => some (decide (p.x ≥ 0))
    | 4 => some (decide (p.y ≥ 0))
    | 5 => some (decide (p.z ≥ 0))
    | _ => none
  if invalid then some none
  else do
    let r ← validFaceXYZtoUV fl face p
    some (some r)

/-- `face_xyz_to_uvw`, lines 106-117. -/
def faceXYZtoUVW (face : Nat) (v : Vec K) : Option (Vec K) :=
  match face with
  | 0 => some ⟨v.y, v.z, v.x⟩
  | 1 => some ⟨-v.x, v.z, v.y⟩
  | 2 => some ⟨-v.x, -v.y, v.z⟩
  | 3 => some ⟨-v.z, -v.y, -v.x⟩
  | 4 => some ⟨-v.z, v.x, -v.y⟩
  | 5 => some ⟨v.y, v.x, -v.z⟩
  | _ => none

/-- `unorm`, lines 163-173. -/
def unorm (face : Nat) (u : K) : Option (Vec K) :=
  match face with
  | 0 => some ⟨u, -1, 0⟩
  | 1 => some ⟨1, u, 0⟩
  | 2 => some ⟨1, 0, u⟩
  | 3 => some ⟨-u, 0, 1⟩
  | 4 => some ⟨0, -u, 1⟩
  | 5 => some ⟨0, -1, -u⟩
  | _ => none

/-- `vnorm`, lines 175-185. -/
def vnorm (face : Nat) (v : K) : Option (Vec K) :=
  match face with
  | 0 => some ⟨-v, 0, 1⟩
  | 1 => some ⟨0, -v, 1⟩
  | 2 => some ⟨0, -1, -v⟩
  | 3 => some ⟨v, -1, 0⟩
  | 4 => some ⟨1, v, 0⟩
  | 5 => some ⟨1, 0, v⟩
  | _ => none

/-- `FACE_UVW_AXES`, lines 202-209. -/
def faceUVWAxes : List (List (Vec K)) :=
  [[⟨0, 1, 0⟩, ⟨0, 0, 1⟩, ⟨1, 0, 0⟩],
   [⟨-1, 0, 0⟩, ⟨0, 0, 1⟩, ⟨0, 1, 0⟩],
   [⟨-1, 0, 0⟩, ⟨0, -1, 0⟩, ⟨0, 0, 1⟩],
   [⟨0, 0, -1⟩, ⟨0, -1, 0⟩, ⟨-1, 0, 0⟩],
   [⟨0, 0, -1⟩, ⟨1, 0, 0⟩, ⟨0, -1, 0⟩],
   [⟨0, 1, 0⟩, ⟨1, 0, 0⟩, ⟨0, 0, -1⟩]]

/-- `FACE_UVW_FACES`, lines 211-218. -/
def faceUVWFaces : List (List (List Nat)) :=
  [[[4, 1], [5, 2], [3, 0]],
   [[0, 3], [5, 2], [4, 1]],
   [[0, 3], [1, 4], [5, 2]],
   [[2, 5], [1, 4], [0, 3]],
   [[2, 5], [3, 0], [1, 4]],
   [[4, 1], [3, 0], [2, 5]]]

/-- `uvw_axis`, lines 220-222 (`u_axis` and `v_axis`, lines 228-234, are axes 0 and 1; `unit_norm` is axis 2). -/
def uvwAxis (face axis : Nat) : Option (Vec K) := do
  let row ← faceUVWAxes[face]?
  row[axis]?

/-- `uvw_face`, lines 224-226. -/
def uvwFace (face axis direction : Nat) : Option Nat := do
  let row ← faceUVWFaces[face]?
  let pair ← row[axis]?
  pair[direction]?

end Verif
