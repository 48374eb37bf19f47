# Formal model of rust-s2: design

The source is `/repo` (rust-s2, read as text only). The model is Lean 4 under `lean/Verif`:

* `Rust.lean`, `Model/*.lean`: the model, function by function, with file and line references;
* `Spec*.lean` and the `namespace Spec` blocks: specifications that use no modelled function;
* `Proofs/*.lean`: lemmas; `Properties/*.lean`: the theorems named in `MANIFEST.json`
  (`cNN_...` belongs to property `CNN` of `properties.jsonl`);
* `Audit.lean`: prints the axioms of every theorem named in the manifest.

`tools/` generates `properties.jsonl`, `MANIFEST.json` and `Audit.lean`, and runs the mutants
recorded in `seeded/LOG.jsonl`.

## 1. How code is modelled

* **u64** is `BitVec 64` (`Verif.U64`). Bit operations (`&`, `|`, `^`, `!`, `<<`, `>>`), wrapping
  arithmetic, comparison and `trailing_zeros`/`leading_zeros` are the exact bit-vector operations.
* **Panics** are `none` in `Option`. Plain `+`, `-`, `*`, unary `-` on integers are *checked*:
  they give `none` on overflow, as in a debug build. `assert!`, `debug_assert!` and
  out-of-range indexing also give `none`. A theorem `f x = some y` therefore says that neither
  build panics and both return `y` (a release build wraps only where a debug build panics).
* **i32, i64** are `Int` with explicit range checks; bit operations on i32 go through `BitVec 32`.
  Levels and shift amounts are `Nat` with checked subtraction.
* **Loops** become structural recursion where the bound is in the code, and otherwise
  `partial_fixpoint` in `Option` (least fixed point: a run that never returns is `none`). A theorem
  `f x = some y` is then also a proof of termination.
* **`&mut self`** functions return the new value. `Vec` is `List`.
* **The Hilbert lookup tables** are computed by the model of `init_lookup_cell`; their contents are
  proved by induction, not evaluated.
* **RegionCoverer**: a region is two arbitrary Boolean functions and an arbitrary vector (the answer
  of `cell_union_bound`). The heap is an arbitrary choice of the next candidate, so the theorems hold
  for every priority order.

### Floating point

A finite `f64` is an element of an ordered field `K` (any such field, or `ℚ`, or `ℝ` where angles occur). Every
arithmetic operation is the exact operation followed by a function `fl`. Negation, `abs`,
comparisons, `min`, `max`, `floor`, conversions from i32, and multiplication by powers of two where
said so are exact. The theorems make one of these assumptions on `fl`, visible in their statement:

1. none at all (`c68_from`, `c61_total`, `c22_real`, ...);
2. `Monotone fl`, with some constants unchanged (`fl 0 = 0`, `fl 1 = 1`), or `OddFl fl`;
3. `Rounding fl`: `|fl x - x| ≤ |x|/2^53 + 2^-1075` for `|x| ≤ 2^1023`, the error bound of IEEE 754
   binary64 with rounding to nearest. `rounding_id` and `rounding_f64` show that it is not vacuous;
4. `fl = rne` (`Proofs/RNE.lean`): the rounding to nearest, ties to even, defined on the field
   with integer parts. It is proved to satisfy 2 and 3, and compared with the doubles as IEEE 754
   encodes them in 64 bits (`Properties/RNEBits.lean`): it keeps them, gives one of them below `2^1024`, none is nearer, and in a tie the
   last bit is 0. Used for the counter-examples and for exact claims;
5. `fl = id`: exact arithmetic; the manifest note says so.

`sqrt` is a parameter specified by `IsSqrt` (non-negative square root), `%` by `IsFmod`, IEEE `remainder`
by `IsRem`; the reals have such functions (`isSqrt_real`, `isFmod_exists`). `sin`, `cos`, `asin` of the library are
parameters, or the functions of `ℝ` followed by `fl`. `PI` is a parameter, or `π`, or the double `884279719003555/2^48`.
Infinity is `⊤` in `WithTop K` where the code distinguishes it (chord angles).

Consequences to keep in mind: NaN is not modelled; `-0` is identified with `0`; overflow to infinity is not
modelled (hypotheses bound the inputs); `x / 0 = 0` in a field while Rust gives infinity or NaN (the theorems
exclude zero divisors where the quotient matters).

## 2. Independent specification

`Spec.lean` defines, without mentioning any model function, a cell as a pair (level k, index p)
with `k ≤ 30`, `p < 6·4^k`, its id `(2p+1)·4^(30-k)`, and its leaf set: the leaves
`q < 6·4^30` with `q / 4^(30-k) = p`. `SpecUnion.lean`: unions of cells as sets of leaves, normal
form. `SpecCube.lean`: leaf squares and the gluing of the six faces on a cube; adjacency of cells is
sharing lattice points of the cube. Intervals, rectangles, caps are sets of points; orientation is the sign of a
determinant; angles on the sphere are `arccos` of the scalar product (`Proofs/Sphere.lean`); the area of a set of directions is three times the Lebesgue
measure of its cone inside the unit ball (`Spec.sphereArea`; 4π for the sphere).

## 3. What is modelled, and what is not

| source | modelled | not modelled |
|---|---|---|
| `consts.rs` | `clamp`, `search_lower_by`, constants | `remainder` (parameter), `f64_eq` macros |
| `r1/interval.rs` | all but `Debug` | |
| `r2/point.rs`, `r2/rect.rs` | all; `hypot` is a parameter with a stated accuracy | |
| `r3/vector.rs` | all (`angle` is in Model/EdgeUtil.lean, with `atan2` a parameter) | `approx_eq`'s tolerance is a parameter |
| `r3/precisevector.rs` | all (Model/Precise.lean); a `BigDecimal` of the crate `bigdecimal` is its digits and its scale, unbounded; `f64`s by their bits | `to_f64` (the conversion back), `prec_str` |
| `s1/interval.rs` | all but `Debug`, conversions to `r1` (the approximate comparisons of all intervals and rectangles are in Model/Approx.lean) | |
| `s1/angle.rs` | conversions, `normalized`, E5/E6/E7 | infinite and NaN angles, text |
| `s1/chordangle.rs` | all; `successor` on the bits of doubles (Model/F64.lean) | `nextafter` is modelled from the C library |
| `s2/cellid.rs` | identifiers, tree, curve, tokens, text, Hilbert curve, (face,i,j), neighbours, points; conversions to and from `LatLng` (Model/CellLatLng.lean) | serde |
| `s2/cellunion.rs` | all (regions and areas in Model/UnionRegion.lean) | serde |
| `s2/region.rs` | `RegionCoverer` completely | |
| `s2/stuv.rs` | projections, frames, norms | |
| `s2/cell.rs` | construction, children, vertices, edges, `contains_point`, `rect_bound`, `cap_bound` (Model/CellBound.lean; `cap_bound` with rounding C123), areas (Model/Area.lean), as a region (Model/UnionRegion.lean) | — |
| `s2/point.rs` | vector part, `ordered_ccw`, frames, `chordangle`, `point_area` (Model/Area.lean), centroids, `regular_points` (Model/Centroid.lean), as a region (Model/UnionRegion.lean) | — |
| `s2/predicates.rs` | `sign`, `triage_sign`, `stable_sign`, `robust_sign` (its `exact_sign` is a stub in the code too) | |
| `s2/latlng.rs` | all but text (Model/LatLng.lean) | `sin`, `cos`, `atan2` are parameters; in C115 and C116 they have relative errors (absolute for `atan2`) of at most `2^-52` (`2^-51`) |
| `s2/rect.rs` | all (Model/S2Rect.lean, Model/RectRegion.lean) | text, `approx_eq` |
| `s2/metric.rs` | level selection; the minimal and maximal constants of angle span, width, edge and diagonal (Model/MetricConst.lean, Model/CapUnion.lean), the area constants (Model/Area.lean) | the averages and aspect ratios |
| `s2/cap.rs` | all (Model/Cap.lean, Model/CapUnion.lean) | `atan2` distances are parameters |
| `s2/edge_clipping.rs` | all; `face_segments` as a loop that may diverge (C113: in exact arithmetic it ends, at most six segments; C114: with rounding it ends if the line meets both faces, and not always otherwise) | overflow to infinity |
| `s2/edgeutil.rs` | all (Model/EdgeUtil.lean); with rounding C118 (`interpolate`), C120, C122 (distances), C121 (`project`) | `sin`, `cos`, `asin`, `atan2`, `sqrt` are parameters |
| `s2/shape.rs` | `ShapeEdgeID` and `Edge` orders, `is_empty`, `is_full` (Model/Shape.lean) | the `Shape` trait's implementations (there are none in the crate) |
| `s2/random.rs` | `skewed_int`, `cellid_for_level`, `frame_at_point`, `sample_point_from_cap` (Model/Random.lean) | the generator; its draws are arguments |
| `s2/rect_bounder.rs` | all (Model/RectBounder.lean) | the literals for error margins are parameters (`Margins`, `t1`..`t3`) |

Standard-library functions (`from_str_radix`, `format!`, `trim_end_matches`, sorting, `BinaryHeap`) are modelled from their
documentation. Simplifications are stated at the definitions.

## 4. Trusted base

Lean's kernel; the axioms `propext`, `Classical.choice`, `Quot.sound` (printed per theorem by
`lean/Verif/Audit.lean`; no theorem uses others); the reading of the Rust code into the model; the
semantics of Rust integer operations and `std` functions in `lean/Verif/Rust.lean`; the float assumptions of section 1.
No axioms are added; no `sorry`, `native_decide`, `bv_decide`.

## 5. Disagreements found between documentation and code

Each is a theorem (a witness, or a general statement) unless marked "noted".

| code | what happens | theorem |
|---|---|---|
| `CellID::is_valid`, `lsb` | overflow panic for `1<<63` (debug build) | `c01_isValid_panics_iff` |
| `Debug` of `CellID(0)` | panic | `c13_debug_zero_panics` |
| `from_token` | accepts a leading `+` | `c14_plus_accepted` |
| `vertex_neighbors(30)` | panic | `c24_leaf_level_panics` |
| `CellUnion::denormalize` | level rule broken for a `level_mod` that does not divide 30 | `c37_rule_fails_for_mod4` |
| `RegionCoverer`, `level_mod = 0` | cells above `max_level` | `c43_levelMod_zero` |
| `r2::Rect::from_points` of nothing | contains the origin | `R2.c55_fromPoints_nil` |
| `r2::Point * r2::Point` | y component is wrong | `R2.c66_mul_wrong` |
| `s2::Rect::from(LatLng)` at longitude -180 | invalid, does not contain the point | `S2.c57_from_fails` |
| `MAX_AREAMETRIC` | one leaf cell is larger, by less than one part in 2^53 | `c102_max_exceeded` |
| `Metric::min_level` for areas | one level too coarse for some values | `S2.Metric.c58_minLevel_area_wrong` |
| `robust_sign`, `ordered_ccw` | laws fail for points of one great circle (`exact_sign` is a stub) | `c62_exact_degenerate`, `c62_equator`, `c62_ordered_defect` |
| `Angle::normalized` | can return 2π | `c65_seam` |
| `ChordAngle::max_point_error` | too small | `c77_maxPointError_defect` |
| `Cap::intersects` | full cap intersects nothing; empty cap intersects full cap | `c64_intersects_defect` |
| `Cap::interior_intersects` | false for overlapping caps with antipodal centres | `c64_interior_defect` |
| `Cap::rect_bound` | south pole; longitudes (sine of the squared chord length) | `c64_southPole_defect`, `c64_longitude_defect` |
| `Cap::union` | radius is an angle stored as a squared length | `c64_union_defect` |
| `Cap::approx_eq` | full cap ≈ hemisphere | `c64_approxEq_defect` |
| `clip_to_face` | passes the negated normal to both `clip_destination` calls: misses edges, returns points outside the face | `c80_missed`, `c80_missed_f64`, `c80_outside` |
| `face_segments` | never returns for some nearly opposite unit vectors (the computed normal misses the face of b) | `c114_diverges` |
| `Vector::normalize`, `Point::from_coords` | the norm of a tiny non-zero vector underflows to 0 and the code divides by it | `c117_underflow` |
| `Point::cross` | not orthogonal to its arguments for some nearly opposite vectors that `is_unit` accepts | `c117_cross_defect` |
| `clip_edge_bound` | when the second axis fails it returns the half-clipped bound, not the original | `c79_clipEdgeBound_defect` |
| `edge_clipping::interpolate` | "x == b gives b1" fails when a == b | `c79_interpolate_defect` |
| `s1::Interval::approx_eq_by`, `s2::Rect::approx_eq_by` | `%` where `remainder` is meant: ends on both sides of the direction π are never approximately equal | `S1.c112_circle_defect`, `S2.c112_rect_defect` |
| `s2::Rect::is_valid` | `abs` missing on `lat.hi` (harmless for `lo ≤ hi`) | noted |
| `shape::Edge` `Ord` | compares `v0` with `other.v1` | `c84_edge_defect` |
| `simple_crossing` | the second documented symmetry fails when a product underflows; a crossing is missed | `c81_underflow` |
| `s2::Rect::intersects_cell` | longitudes of an edge are `Interval::new(lng0, lng1)`, not the shorter arc (`from_point_pair`): a westward edge becomes the complementary arc; intersecting rectangles are missed | `c94_missed` |
| `RegionCoverer::covering` of an `s2::Rect` | relies on `Rect::intersects_cell`: with level 0 only, a point of the interior of the rectangle is in no cell of the covering (`fast_covering` does not use `intersects_cell` and does cover) | `c108_missed` |
| `Cell::contains_point` | the margin `DBL_EPSILON` is too small for coordinates in (-1/2, -1/3): `Cell::from(p).contains_point(p)` is false for some points; `5/4 DBL_EPSILON` is enough | `c96_missed`, `c96_margin` |
