#!/usr/bin/env python3
"""Writes ../properties.jsonl from the table below (one JSON object per line)."""
import json, os
P = []
def p(title, statement, quantifier, why, anchors):
    P.append(dict(id=f"C{len(P)+1:02d}", title=title, statement=statement,
                  quantifier=quantifier, why_tests_cant=why, anchors=anchors))
CID = "src/s2/cellid.rs"; CU = "src/s2/cellunion.rs"; RG = "src/s2/region.rs"

# ---- cell ids -------------------------------------------------------------
p("Validity and level of a cell id",
  "CellID::is_valid answers true exactly for the numbers (2p+1)*4^(30-k) with k<=30 and p<6*4^k, answers false for every other u64 except 1<<63, and for 1<<63 it panics when overflow checks are on; for these level() is k, face() is p/4^k and is_leaf() holds iff k=30.",
  "every 64-bit number", "2^64 inputs; the interesting ones (bit patterns near a face boundary, 0, 1<<63) are a vanishing fraction.",
  [f"{CID}:CellID::is_valid", f"{CID}:CellID::level", f"{CID}:CellID::face", f"{CID}:CellID::lsb", f"{CID}:CellID::is_leaf"])
p("A cell is an interval of leaves",
  "For a valid cell, range_min() and range_max() are valid leaf cells, and a leaf cell l lies between them (inclusive, in id order) iff the cell is the ancestor of l at its level.",
  "every valid cell id and every leaf cell id", "all pairs of 61-bit positions; sampling cannot establish an iff at every boundary.",
  [f"{CID}:CellID::range_min", f"{CID}:CellID::range_max", f"{CID}:CellID::parent"])
p("contains is region inclusion",
  "a.contains(b) is true iff every leaf cell below b is below a; equivalently iff level(a)<=level(b) and b.parent(level(a)) == a. contains is reflexive, antisymmetric and transitive.",
  "every pair (triple) of valid cell ids", "quadratic/cubic in 2^62 ids.", [f"{CID}:CellID::contains", f"{CID}:CellID::parent"])
p("Two cells are nested or disjoint",
  "a.intersects(b) is true iff a and b have a common leaf, and that happens iff a.contains(b) or b.contains(a).",
  "every pair of valid cell ids", "the laminar-family property is a statement about all pairs.", [f"{CID}:CellID::intersects", f"{CID}:CellID::contains"])
p("parent gives the unique ancestor",
  "For a valid id and any level<=id.level(), id.parent(level) is valid, has that level, contains id and is the only cell with that level containing id; parent(l1).parent(l2) == parent(l2) for l2<=l1; parent(level()) == id; a child's immediate_parent() equals parent(level-1).",
  "every valid id and every level not above its own", "all ids times all levels.", [f"{CID}:CellID::parent", f"{CID}:CellID::immediate_parent"])
p("children partition their parent",
  "For every valid non-leaf cell, children() are four valid cells one level deeper, in strictly increasing order, pairwise disjoint, whose leaves are together exactly the leaves of the cell; each has the cell as immediate_parent(); every cell one level deeper inside the cell is one of them.",
  "every valid non-leaf cell", "2^60 cells; partition is a statement about all leaves.", [f"{CID}:CellID::children", f"{CID}:CellID::immediate_parent"])
p("child_iter_at_level enumerates the descendants",
  "child_iter_at_level(L) of a valid cell of level k<=L terminates and yields exactly the 4^(L-k) cells of level L inside the cell, each once, in increasing id order; child_iter() yields the same as children() for a non-leaf cell.",
  "every valid cell and every level from its own up to 30", "up to 4^30 items; the loop ends on equality with a possibly invalid end marker, so one wrong increment runs forever.",
  [f"{CID}:CellID::child_iter_at_level", f"{CID}:CellID::child_iter", f"{CID}:Iter::next", f"{CID}:CellID::child_begin_at_level", f"{CID}:CellID::child_end_at_level"])
p("next and prev are inverse steps along the curve",
  "For every valid cell, prev(next(c)) == c and next(prev(c)) == c (also past both ends of the curve); if c is not the last cell of its level then next(c) is the valid cell of the same level whose range starts right after c's range ends.",
  "every valid cell id", "every id at every level.", [f"{CID}:CellID::next", f"{CID}:CellID::prev"])
p("next_wrap and prev_wrap are mutually inverse and cyclic",
  "On valid cells next_wrap and prev_wrap stay valid, keep the level, are inverse to each other, and applying next_wrap 6*4^k times to a level-k cell is the identity while no smaller positive number of steps is.",
  "every valid cell, any number of steps", "cycles of length up to 6*4^30.", [f"{CID}:CellID::next_wrap", f"{CID}:CellID::prev_wrap"])
p("advance_wrap is iterated next_wrap/prev_wrap",
  "For every valid cell and every i64 n, advance_wrap(n) does not panic and equals n applications of next_wrap (n>=0) or -n applications of prev_wrap (n<0); hence advance_wrap(m) after advance_wrap(n) equals the wrap by m+n.",
  "every valid cell and every 64-bit signed step count", "2^64 step counts including i64::MIN; the modular reduction has two boundary branches on each side.",
  [f"{CID}:CellID::advance_wrap"])
p("advance saturates at the ends of the curve",
  "For every valid cell c and every i64 n, advance(n) does not panic, and the curve position (distance_from_begin) of the result is max(0, min(6*4^k, d+n)) where d is c's own; if d+n is in range the result is the valid level-k cell there.",
  "every valid cell and every 64-bit signed step count", "clamping boundaries at 2^64 step counts per cell.", [f"{CID}:CellID::advance", f"{CID}:CellID::distance_from_begin"])
p("common_ancestor_level is the deepest shared ancestor",
  "For valid a, b: common_ancestor_level returns None iff their faces differ; otherwise Some(l) where l is the largest level <= both levels with a.parent(l) == b.parent(l), and every level up to l has that property too. The function is symmetric and never panics on valid cells.",
  "every pair of valid cells", "pairs of 62-bit ids.", [f"{CID}:CellID::common_ancestor_level"])
p("Face and child positions name a cell",
  "For valid cells of the same level, equality of face() and of child_position(l) for all l in 1..=level implies equality; child_position(l) is the index of the level-l ancestor among its parent's children(); the Debug text face/d1d2.. determines a valid cell.",
  "every valid cell, every level, every pair of cells", "paths of depth up to 30 over 4 children.", [f"{CID}:CellID::child_position", f"{CID}:CellID::face", f"{CID}:impl Debug for CellID"])
p("Tokens round-trip",
  "from_token(id.to_token()) == id for every u64 id (including 0 and invalid ids); to_token is injective, returns 1..16 characters, lower-case hex without trailing zeros for id != 0; from_token never panics and returns CellID(0) for text that is not a hexadecimal number fitting in 64 bits.",
  "every 64-bit id and every string", "all ids and all strings.", [f"{CID}:CellID::to_token", f"{CID}:CellID::from_token"])
p("from_face_pos_level truncates to the containing cell",
  "For face<6, pos<2^61, level<=30, from_face_pos_level(face,pos,level) is the valid cell of that level containing the leaf at (face, pos|1); from_face_pos_level(id.face(), id.pos(), id.level()) == id for every valid id; from_face(f) is the level-0 cell of face f.",
  "every face, 61-bit position and level", "2^61*6*31 inputs.", [f"{CID}:CellID::from_face_pos_level", f"{CID}:CellID::from_face", f"{CID}:CellID::pos"])
p("max_tile returns the largest fitting cell",
  "For a valid cell c and a valid cell limit (or the end of the curve), c.max_tile(limit) terminates; if c.range_min() < limit.range_min() it returns a cell with the same range_min, range_max < limit.range_min, such that no strictly larger cell has both properties; otherwise it returns limit.",
  "every pair of valid cells", "pairs of ids; the grow and shrink loops each have their own exit condition.", [f"{CID}:CellID::max_tile"])
p("from_range tiles a leaf range exactly",
  "For leaf cells begin<=end (end may be one past the last leaf), CellUnion::from_range(begin,end) terminates and returns a sorted, non-overlapping, normalized union whose leaves are exactly those in [begin,end).",
  "every pair of leaf positions in order", "2^122 ranges; loop exits only on exact equality with end.", [f"{CU}:CellUnion::from_range", f"{CID}:CellID::max_tile"])
p("(face,i,j) and leaf ids correspond one to one",
  "For face<6 and 0<=i,j<2^30, from_face_ij is a valid leaf cell and face_ij_orientation of it gives back face,i,j; conversely from_face_ij(face_ij_orientation(l)) == l for every leaf cell l. The lookup tables are never indexed out of range.",
  "every face and every pair of 30-bit coordinates; every leaf", "6*2^60 leaves; composed from 8 table lookups chained by orientation bits.",
  [f"{CID}:CellID::from_face_ij", f"{CID}:CellID::face_ij_orientation", f"{CID}:init_lookup_cell", f"{CID}:LOOKUP_TBL"])
p("A cell is an aligned square of leaves",
  "For a valid cell c of level k, the leaves below c are exactly the leaves of the same face whose (i,j) lie in an axis-aligned square of side 2^(30-k) with corner at multiples of 2^(30-k).",
  "every valid cell and every leaf", "relates the 1-D id order to the 2-D geometry at all 31 levels.", [f"{CID}:CellID::from_face_ij", f"{CID}:CellID::face_ij_orientation", f"{CID}:CellID::parent"])
p("The curve is continuous inside a face",
  "Consecutive leaf cells of one face have (i,j) coordinates that differ by exactly 1 in exactly one coordinate; the same holds for consecutive cells of any level in units of the cell size.",
  "every leaf (every cell) that is not last on its face", "6*2^60 adjacent pairs.", [f"{CID}:CellID::next", f"{CID}:CellID::face_ij_orientation", f"{CID}:POS_TO_IJ", f"{CID}:POS_TO_ORIENTATION"])
p("The curve is continuous across faces",
  "The last leaf of each face and the first leaf of the next face (cyclically, 5 to 0) touch: they share a cube edge segment on the sphere; so the whole curve is a closed space-filling curve.",
  "all consecutive leaves of the sphere, including face changes", "follows only if orientation bits at every depth agree with the face layout.", [f"{CID}:CellID::next_wrap", f"{CID}:CellID::face_ij_orientation", "src/s2/stuv.rs:face_uv_to_xyz"])
p("Cell centre coordinates",
  "For a valid cell, center_face_siti() is the exact centre, in half-leaf units, of the cell's (i,j) square; both coordinates lie in [1, 2^31-1]; raw_point() and center_uv() use the same centre.",
  "every valid cell", "the parity trick in the code uses one id bit to recover the corner.", [f"{CID}:CellID::center_face_siti", f"{CID}:CellID::face_siti"])
p("edge_neighbors are the four edge-adjacent cells",
  "For every valid cell, edge_neighbors() returns four distinct valid cells of the same level, none equal to the cell, each sharing an edge with the cell in the stated direction; and being an edge neighbour is symmetric.",
  "every valid cell", "the wrap across a cube edge goes through floating-point (u,v) values just outside the face.", [f"{CID}:CellID::edge_neighbors", f"{CID}:CellID::from_face_ij_wrap", "src/s2/stuv.rs:xyz_to_face_uv"])
p("vertex_neighbors meet at the closest vertex",
  "For a valid cell and level < its level (level < 30), vertex_neighbors(level) returns distinct valid cells of that level, the first being the ancestor, that share the ancestor's vertex closest to the cell; four of them, or three if the vertex is a cube corner.",
  "every valid cell and every level below its own", "all cells times levels; same-face flags interact with the wrap.", [f"{CID}:CellID::vertex_neighbors"])
p("all_neighbors is complete and sound",
  "For a valid cell and level >= its level, all_neighbors(level) contains only valid cells of that level that touch but do not overlap the cell, and contains every such cell.",
  "every valid cell and every level from its own up to 30", "up to 4*2^30+4 results per call.", [f"{CID}:CellID::all_neighbors"])
# ---- cell unions ----------------------------------------------------------
p("normalize preserves the region",
  "For every vector of valid cell ids, normalize() does not panic and the resulting vector covers exactly the same leaf cells.",
  "every finite list of valid cells in any order with any repetition", "lists of unbounded length.", [f"{CU}:CellUnion::normalize"])
p("normalize yields a normalized union",
  "After normalize() the ids are strictly increasing, pairwise disjoint, and no four of them are the four children of one cell; is_normalized() then returns true.",
  "every finite list of valid cells", "cascading merges through up to 30 levels, unbounded lists.", [f"{CU}:CellUnion::normalize", f"{CU}:CellUnion::is_normalized"])
p("Normal forms are canonical",
  "Two lists of valid cells that cover the same leaves normalize to the identical vector; normalize is idempotent and insensitive to order and duplicates; a normalized union has the smallest number of cells among all lists covering the same leaves.",
  "every pair of finite lists of valid cells", "extensionality over all lists.", [f"{CU}:CellUnion::normalize"])
p("contains_cellid is leaf-set inclusion",
  "For a normalized union u and a valid cell c, u.contains_cellid(c) is true iff every leaf of c is covered by u.",
  "every normalized union and every valid cell", "binary search over unbounded lists; also a statement about covers by several smaller cells.", [f"{CU}:CellUnion::contains_cellid"])
p("intersects_cellid is leaf-set overlap",
  "For a sorted non-overlapping union u of valid cells and a valid cell c, u.intersects_cellid(c) is true iff some leaf of c is covered by u.",
  "every valid union and every valid cell", "as above.", [f"{CU}:CellUnion::intersects_cellid"])
p("Binary search returns the partition point",
  "For a predicate that is false then true on 0..len, search_lower_by(len,f) returns the number of false positions; it terminates for every predicate, calls it only on indices < len and returns a value <= len.",
  "every length and every predicate", "unbounded lengths; arbitrary callbacks.", ["src/consts.rs:search_lower_by"])
p("union and merge are set union",
  "merge(list of unions) covers exactly the leaves covered by any of them and is normalized; union(a,b) is commutative, associative, idempotent as a vector, and has the empty union as identity on normalized input.",
  "every finite list of unions of valid cells", "unbounded lists of lists.", [f"{CU}:CellUnion::merge", f"{CU}:CellUnion::union"])
p("intersection is set intersection",
  "For two sorted non-overlapping unions, intersection(a,b) terminates, never indexes out of range, covers exactly the common leaves, is sorted and non-overlapping, and is normalized if both inputs are.",
  "every pair of valid unions", "two-pointer loop with skips; termination and correctness over unbounded inputs.", [f"{CU}:CellUnion::intersection", f"{CU}:lower_bound_cellids"])
p("intersection_with_cell_id is set intersection",
  "For a normalized union x and valid id, intersection_with_cell_id(x,id) covers exactly the leaves common to both, is normalized, and equals intersection(x,[id]) as a set of leaves.",
  "every normalized union and valid id", "unbounded lists.", [f"{CU}:CellUnion::intersection_with_cell_id"])
p("difference is set difference",
  "For two valid (sorted, non-overlapping) unions, difference(x,y) terminates and covers exactly the leaves of x not covered by y; the result is sorted and non-overlapping and is normalized if x is.",
  "every pair of unions as described", "recursion to leaf level guided by two queries.", [f"{CU}:CellUnion::difference", f"{CU}:cell_union_difference_internal"])
p("Union-level containment and intersection tests",
  "For normalized unions, a.contains_cell_union(b) iff b's leaves are a subset of a's; a.intersects_cell_union(b) iff they share a leaf.",
  "every pair of normalized unions", "unbounded lists.", [f"{CU}:CellUnion::contains_cell_union", f"{CU}:CellUnion::intersects_cell_union"])
p("denormalize keeps the region and meets the level rule",
  "denormalize(min_level, level_mod) covers the same leaves for every level_mod; for every level_mod that divides 30 (in particular the documented 1, 2, 3; 0 acts as 1) every output cell has level >= min_level and (level-min_level) a multiple of level_mod, or level 30; cells already satisfying the rule are unchanged, and every replaced cell is replaced by descendants at the first level that satisfies the rule.",
  "every list of valid cells, every min_level<=30 and every level_mod as described", "all parameter pairs; the formula in the code is only right for divisors of 30.", [f"{CU}:CellUnion::denormalize"])
p("leaf_cell_covered counts leaves",
  "For a sorted non-overlapping union, leaf_cell_covered() is the exact number of leaf cells covered, at most 6*2^60, with no overflow.",
  "every valid union", "sums over unbounded lists.", [f"{CU}:CellUnion::leaf_cell_covered"])
p("is_valid and is_normalized decide what they claim",
  "CellUnion::is_valid returns true iff all ids are valid and the ranges are strictly increasing and disjoint; is_normalized returns true iff in addition no four cells of the union are the four children of one cell.",
  "every vector of 64-bit ids", "only four consecutive cells are compared, the claim is about any four.", [f"{CU}:CellUnion::is_valid", f"{CU}:CellUnion::is_normalized", f"{CU}:are_siblings"])
p("Cell unions form a Boolean algebra",
  "On normalized unions: union/intersection/difference obey the Boolean set laws up to normalize: x = intersection(x,y) + difference(x,y), disjointness of those two, De Morgan against whole_sphere(), absorption; contains_cell_union is the associated order.",
  "every tuple of normalized unions", "algebraic laws over all unions.", [f"{CU}:CellUnion::union", f"{CU}:CellUnion::intersection", f"{CU}:CellUnion::difference", f"{CU}:CellUnion::whole_sphere"])
p("expand_at_level grows the region by a rim",
  "After expand_at_level(L) the union is normalized, covers everything it covered before, and covers every level-L cell that touches a cell of the original union (taken at level min(L, own)).",
  "every normalized union and every level", "unbounded unions; depends on all_neighbors across faces.", [f"{CU}:CellUnion::expand_at_level", f"{CID}:CellID::all_neighbors"])
# ---- region coverer ---------------------------------------------------------
p("A covering covers",
  "For a region whose intersects_cell never answers false for a cell that meets it and whose cell_union_bound covers it, RegionCoverer::covering returns a valid union that covers every leaf whose cell meets the region, for any min_level and max_level up to 30, level_mod in 1..3, any max_cells; every cell of the result contains a cell for which intersects_cell answered true.",
  "every region (as an oracle), every parameter setting, every priority-queue order", "regions are arbitrary callbacks; the search explores unbounded many cells.", [f"{RG}:RegionCoverer::covering", f"{RG}:Coverer::covering_internal", f"{RG}:Coverer::add_candidate", f"{RG}:Coverer::expand_children"])
p("Coverings respect the level limits",
  "Every cell of covering() and interior_covering() has min_level <= level <= max_level and (level-min_level) a multiple of level_mod.",
  "every region, every min_level <= max_level <= 30, every level_mod in 1..3, every max_cells (the documentation also allows level_mod = 0, for which the limit is violated)", "depends on every path through candidate expansion, normalization and denormalization.", [f"{RG}:RegionCoverer::covering", f"{RG}:RegionCoverer::interior_covering", f"{CU}:CellUnion::denormalize"])
p("Interior coverings stay inside",
  "Every cell of interior_covering(region) is inside a cell for which region.contains_cell answered true, so for a region with a sound contains_cell the result is contained in the region; there are at most max(max_cells, 6) cells, whatever min_level is.",
  "every region and parameter setting", "arbitrary regions.", [f"{RG}:RegionCoverer::interior_covering", f"{RG}:RegionCoverer::interior_cellunion"])
p("The coverer terminates",
  "covering and interior_covering terminate for every region and every admissible parameter setting.",
  "every region oracle (even inconsistent ones)", "termination is not testable.", [f"{RG}:Coverer::covering_internal", f"{RG}:RegionCoverer::normalize_covering"])
p("fast_covering / normalize_covering keep coverage and limits",
  "fast_covering terminates, its result is a valid union covering every leaf of region.cell_union_bound(), and all its cells obey min_level, max_level and level_mod (0 meaning 1). With min_level = 0 and level_mod <= 1 the result is normalized and has at most max_cells cells, unless all its cells are on different faces.",
  "every list of valid cells and every parameter setting", "loop merges neighbours until a bound is met.", [f"{RG}:RegionCoverer::fast_covering", f"{RG}:RegionCoverer::normalize_covering", f"{RG}:RegionCoverer::adjust_level"])
p("Number of cells in a covering",
  "With min_level = 0, covering() has at most max(max_cells, 6) cells, for every level_mod in 1..3 and every region.",
  "every region and parameter setting with min_level=0", "priority-queue driven; bounds on intermediate states.", [f"{RG}:Coverer::covering_internal"])
# ---- intervals, rectangles ---------------------------------------------------
R1 = "src/r1/interval.rs"; S1 = "src/s1/interval.rs"
p("r1 intervals are point sets",
  "contains_interval, interior_contains_interval, intersects, interior_intersects, ==, intersection agree with the sets of points {x | lo<=x<=hi} (and their interiors); union is the smallest interval containing both; adding a point gives the smallest interval containing it; clamp_point is the nearest point.",
  "every pair of intervals (NaN-free) and every point", "the real line / all doubles.", [f"{R1}:Interval"])
p("r1 expanded and Hausdorff distance",
  "expanded(m) for m>=0 contains exactly the points within m of the interval (exact arithmetic); empty stays empty; directed_hausdorff_distance is max over points of x of the distance to y.",
  "every interval, margin", "suprema over infinitely many points.", [f"{R1}:Interval::expanded", f"{R1}:Interval::directed_hausdorff_distance"])
p("s1 intervals are arcs: membership tests",
  "For valid circle intervals, contains_interval / interior_contains_interval / intersects / interior_intersects agree with inclusion and overlap of the point sets given by contains / interior_contains (closed arcs and their interiors).",
  "every pair of valid intervals", "case analysis over inverted/empty/full/singleton and the doubled point pi.", [f"{S1}:Interval::contains_interval", f"{S1}:Interval::interior_contains_interval", f"{S1}:Interval::intersects", f"{S1}:Interval::interior_intersects"])
p("s1 union and intersection",
  "union(a,b) is a valid interval containing a and b, and no shorter valid interval does; intersection(a,b) is a valid interval containing every common point and contained in a or b; with exact arithmetic it is the exact set unless the two arcs together cover the circle, it is the exact set whenever that set is an arc, and it is never longer than an arc containing the common points; the length of a union does not depend on the order of the arguments.",
  "every pair of valid intervals", "minimality quantifies over all arcs.", [f"{S1}:Interval::union", f"{S1}:Interval::intersection"])
p("s1 complement",
  "the points of complement() are exactly the points that are not in the interior of the interval; complement of complement is the interval unless it is a singleton; the centre of a non-empty interval is in it, half the length from both ends.",
  "every valid interval", "circle points.", [f"{S1}:Interval::complement"])
p("s1 constructors normalise",
  "Interval::new and from_point_pair give valid intervals for all arguments in [-pi,pi]; new describes the same arc as its arguments; from_point_pair contains both points and has length <= pi; interval + angle is valid, contains the interval and the angle, and no shorter interval does.",
  "every pair of angles", "the -pi/pi identification.", [f"{S1}:Interval::new", f"{S1}:Interval::from_point_pair", f"{S1}:Interval::is_valid"])
p("s1 expanded",
  "For a valid interval and margin m>=0, expanded(m) is valid and contains every point within angular distance m of the interval, and no others unless it is full; for m<0 each of its points has all points within -m inside the original, and every such point is in it unless the result is cut to empty; full and empty are fixed.",
  "every valid interval and margin", "wraps around pi.", [f"{S1}:Interval::expanded"])
p("r2 rectangles are point sets",
  "For valid plane rectangles contains, interior_contains, intersects, interior_intersects, union, intersection, add_point, from_points agree with sets of points of the plane; the empty rectangle is handled.",
  "every pair of valid rectangles and every point", "all rectangles.", ["src/r2/rect.rs:Rect"])
p("lat-lng rectangles are products of intervals",
  "For valid s2 Rects: is_empty, is_full, contains_latlng, contains, interior_contains and intersects agree with the set of (lat,lng) pairs of the rectangle; union is valid, contains both and is the least such rectangle in latitude and longitude; intersection is valid, contains the common set, and equals it unless the longitudes meet in two arcs; polar_closure adds exactly the rows of the poles touched.",
  "every pair of valid rectangles and every LatLng", "all rectangles including those crossing the 180 degree meridian.", ["src/s2/rect.rs:Rect"])
p("LatLng rectangle from a point contains the point",
  "Rect::from(ll) is valid and is exactly the point ll for every valid ll with longitude other than -180 degrees; at -180 degrees it is an invalid rectangle that does not contain ll (defect). Rect + LatLng and from_point_pair yield valid rectangles that contain their arguments, also at -180 degrees.",
  "every valid LatLng", "the -180 degree longitude.", ["src/s2/rect.rs:Rect"])
# ---- metrics ------------------------------------------------------------------
p("Metric level selection",
  "For positive v (exact quotient): max_level(v) is the largest level whose metric value is at least v (0 if none); for length metrics min_level(v) is the smallest level whose metric value is at most v (30 if none) and closest_level(v) is within a factor sqrt 2 of v unless clamped. For area metrics min_level(v) is that level or one less, and really is one less for some v (defect); min_level(0.0) overflows (defect). No other value leaves the range 0..=30.",
  "every metric (dim 1 or 2), every positive value", "all doubles; off-by-one at exact powers of two.", ["src/s2/metric.rs:Metric::min_level", "src/s2/metric.rs:Metric::max_level"])
# ---- projections ----------------------------------------------------------------
p("st/uv transform",
  "st_to_uv maps [0,1] increasing onto [-1,1], is odd around 1/2, and uv_to_st is its exact inverse (exact arithmetic); the transforms fix the end points and the midpoint; with rounding both stay monotone.",
  "every s in [0,1], u in [-1,1]", "continuum.", ["src/s2/stuv.rs:st_to_uv", "src/s2/stuv.rs:uv_to_st"])
p("Face projection round trip",
  "For every face and u,v in [-1,1], face_uv_to_xyz gives a vector whose face() is that face (strictly inside) and valid_face_xyz_to_uv returns u,v; every non-zero vector has a face with |u|,|v|<=1 and is a positive multiple of face_uv_to_xyz of its coordinates.",
  "every vector and every (face,u,v)", "continuum; ties on cube edges.", ["src/s2/stuv.rs:face_uv_to_xyz", "src/s2/stuv.rs:xyz_to_face_uv", "src/s2/stuv.rs:face"])
p("Point to leaf cell is total and contains the point",
  "CellID::from(&Point) is a valid leaf for every finite non-zero vector, and the leaf's (u,v) square contains the projection of the point; CellID::from(&Point::from(leaf)) == leaf.",
  "every point, every leaf", "all leaves and all points.", [f"{CID}:impl From<&Point> for CellID", f"{CID}:CellID::raw_point"])
# ---- predicates / geometry ---------------------------------------------------------
p("Orientation predicates are never wrong and never contradict each other",
  "Whenever triage_sign, stable_sign or robust_sign answers Clockwise or CounterClockwise, the exact determinant of the three points has that sign, in spite of rounding; hence robust_sign(b,c,a) never has the opposite direction of robust_sign(a,b,c) and robust_sign(c,b,a) never the same. Equal points give Indeterminate; every triple with |det| >= 2^-50 is decided and satisfies the three documented laws. sign(a,b,c) and sign(c,b,a) are never both true. ordered_ccw(a,b,c,o) says that b is met between a and c sweeping counterclockwise around o, and has the documented properties (1)-(5) in general position. Because exact_sign is not implemented, law (1) and property (5) fail for points on one great circle.",
  "every triple (quadruple) of points at most unit length up to 2^-40; for the stable stage equal or at least 2^-200 apart", "the claim is about the worst-case rounding error of a determinant over a continuum of inputs.", ["src/s2/predicates.rs:robust_sign", "src/s2/predicates.rs:triage_sign", "src/s2/predicates.rs:stable_sign", "src/s2/predicates.rs:sign", "src/s2/predicates.rs:exact_sign", "src/s2/point.rs:ordered_ccw"])
p("Chord angles behave like clamped squared lengths",
  "With rounding: the sum of two chord angles stays in [0,4] and does not depend on the order of the operands, 0 is neutral and 4 absorbing; the difference is non-negative, and zero if the second is larger; the sum has a relative error of at most 10*2^-53 and the difference an absolute error of at most 39*2^-53; conversions keep the order and the special values (negative, infinite); expanded and from_squared_length clamp. In exact arithmetic the sum, difference, sine, cosine and tangent are those of the angles (the sum clamped at pi, the difference at 0), and converting to an angle and back is the identity.",
  "every pair of chord angles", "continuum.", ["src/s1/chordangle.rs:ChordAngle"])
p("Caps are sets of points: membership, inclusion, overlap, complement, growth",
  "With a cap read as the set of unit vectors within its chord radius: contains_point and interior_contains_point are membership (with rounding up to a relative error of 5.1/2^53 of the distance); contains is inclusion; intersects is overlap when the first cap is neither empty nor full; interior_intersects is overlap with the interior when the centres are not antipodal; complement is the complement of the interior; expanded by a distance is the set of points within that distance of the cap; add-point and add-cap contain both arguments, with rounding too; == is an equivalence that respects membership; area and height are those of geometry, and the constructors from them invert them. The documented behaviour fails, and is proved to fail, for: intersects on the full cap (always false) and on the empty cap (true against the full cap); interior_intersects of overlapping caps with antipodal centres; rect_bound of a cap over the south pole (no latitudes) and of small caps on the equator (longitudes too narrow); union of two hemispheres (not full); approx_eq of the full cap and a hemisphere.",
  "every cap, point and pair of caps", "the continuum of caps and points; the failures sit at special caps that the unit tests do not visit.", ["src/s2/cap.rs:Cap", "src/s1/chordangle.rs:ChordAngle"])
p("Angle normalization",
  "In exact arithmetic Angle::normalized gives the equivalent angle in [0,2pi). In floating point a non-negative angle is reduced without error into [0,2pi), an angle already in range is unchanged, and a negative angle is reduced with the error of one addition into the closed interval [0,2pi]; the documented half-open interval is not respected: tiny negative angles give 2pi.",
  "every finite angle", "rounding at the seam.", ["src/s1/angle.rs:Angle::normalized"])
p("r2 point arithmetic",
  "The order of plane points is the lexicographic order of the coordinates; +, -, scaling, dot, cross and ortho obey the vector laws (in exact arithmetic); the product of two points is NOT component-wise: there are points p, q with (p*q).y different from p.y*q.y.",
  "every pair of points", "a swapped operand is invisible when the sample has equal operands.", ["src/r2/point.rs:Point", "src/r2/point.rs:impl Mul for Point"])
p("clamp returns a value in range",
  "clamp(v,lo,hi) with lo<=hi is the nearest value in [lo,hi].", "every triple", "all values of all ordered types.", ["src/consts.rs:clamp"])
p("Cells agree with their ids",
  "Cell::from(id) has the id's face, level and orientation; children() of a cell equals Cell::from of the children ids, with the same (u,v) bounds; a cell's (u,v) rectangle is the union of its children's.",
  "every valid id", "orientation bits must match at each level.", ["src/s2/cell.rs:Cell::from", "src/s2/cell.rs:Cell::children"])
p("Token order is identifier order",
  "For nonzero ids a and b, a.to_token() sorts before b.to_token() as text exactly when a < b.",
  "every pair of nonzero ids", "trailing zeros are stripped, so tokens have different lengths; all pairs of 64-bit ids.", ["src/s2/cellid.rs:CellID::to_token"])
p("Directed Hausdorff distance of circle intervals",
  "For valid circle intervals with the second non-empty, directed_hausdorff_distance is (in exact arithmetic) the least angle D such that every point of the first is within D of a point of the second; it is pi to the empty interval and 0 from it.",
  "every pair of valid intervals", "four end points in general position around the circle, and the seam at pi.", ["src/s1/interval.rs:Interval::directed_hausdorff_distance", "src/s1/interval.rs:Interval::complement_center"])

p("LatLng::normalized",
  "ll.normalized() is valid for every ll, has the latitude clamped to [-90,90] degrees and a longitude equivalent modulo 360 degrees; a valid ll (longitude other than +-180 degrees) is unchanged.",
  "every LatLng with finite coordinates", "continuum; any number of turns.", ["src/s2/latlng.rs:LatLng::normalized"])
p("Rect::expanded, center and vertices",
  "For a valid rectangle and non-negative margins, expanded(margin) is valid, contains every point whose latitude and longitude are within the margins of those of the rectangle, and, unless the longitudes become the full circle, contains only such points; the centre and the four vertices of a non-empty rectangle are points of it.",
  "every valid rectangle and non-negative margin", "continuum; wrap-around and poles.", ["src/s2/rect.rs:Rect::expanded", "src/s2/rect.rs:Rect::center", "src/s2/rect.rs:Rect::vertex"])

p("Frames of the cube faces",
  "For every face, uvw_axis gives a right-handed orthonormal frame whose third axis is the face normal; face_uv_to_xyz(face,u,v) is u*U + v*V + N and face_xyz_to_uvw gives the three scalar products; uvw_face names the face each axis points to, in both directions; unorm and vnorm are normals of the lines of constant u and v, with the sign of the difference of coordinates.",
  "every face, every vector and every (u,v)",
  "The laws are about all real coordinates; tests check a few vectors per face.",
  ["src/s2/stuv.rs:uvw_axis", "src/s2/stuv.rs:uvw_face", "src/s2/stuv.rs:face_xyz_to_uvw", "src/s2/stuv.rs:unorm", "src/s2/stuv.rs:vnorm"])

p("Vector laws",
  "Vectors are totally ordered lexicographically; dot is commutative, cross antisymmetric, ortho(-v) == -ortho(v) and chordangle symmetric and at most 4, exactly, in floating point; Point::cross obeys its documented laws (2) to (4) exactly in floating point whenever the product it computes first is not zero; largest_component and smallest_component name a component of extreme absolute value; and (in exact arithmetic) ortho of a non-zero vector is a unit vector orthogonal to it, Point::cross of points of equal length is non-zero and orthogonal to both, and the frame of a unit vector is a right-handed orthonormal frame in which to_frame and from_frame are inverse isometries.",
  "every pair of vectors", "the documented laws are exact equalities of floats, for all vectors including nearly parallel ones.",
  ["src/r3/vector.rs:Vector", "src/r3/vector.rs:Vector::ortho", "src/s2/point.rs:Point::cross", "src/s2/point.rs:Point::chordangle", "src/s2/point.rs:Point::frame", "src/s2/point.rs:from_frame", "src/s2/point.rs:to_frame"])
p("Vertices, edges and points of a cell",
  "For every cell (in exact arithmetic), vertex(k) is the unit vector towards corner k of the cell's (u,v) rectangle, edge(k) is the unit normal of the great circle from vertex k to vertex k+1, with the whole cell on its non-negative side, and contains_point(p) is true exactly when p projects to the cell's face within the margin of the cell's rectangle.",
  "every valid cell, k = 0..3, every point", "six faces times four edges with different sign conventions; all points.",
  ["src/s2/cell.rs:Cell::vertex", "src/s2/cell.rs:Cell::edge", "src/s2/cell.rs:Cell::contains_point"])

p("E5, E6 and E7 survive the conversion to floating point and back",
  "For every i32 n, converting E5(n), E6(n) or E7(n) to an Angle or to Deg and back gives n again, with rounding in every step; the conversion back of any angle in range is off by at most half a unit plus rounding, and never leaves the i32 range.",
  "every i32, each of the three units, both targets", "2^32 values times six conversions; the scale factors are not exactly representable.", ["src/s1/angle.rs:convert_i32", "src/s1/angle.rs:E5", "src/s1/angle.rs:E6", "src/s1/angle.rs:E7"])

p("Error of the distance between points",
  "The chord angle between two points is computed with a relative error of at most 2.55*2^-52 of their squared distance. The documented max_point_error does not bound the error for points whose lengths differ from 1 by up to 2*DBL_EPSILON: there are two such points for which the true squared distance of the projections lies outside the interval.",
  "every pair of points with coordinates differing by at most 4", "worst case over all roundings; the counter-example is off by a few units in the last place.", ["src/s2/point.rs:Point::chordangle", "src/s1/chordangle.rs:ChordAngle::max_point_error"])

p("Exact comparisons in edge clipping",
  "sum_equal(u,v,w) is true exactly when u + v = w as real numbers; intersects_face(n) exactly when the plane with normal n meets the square [-1,1]x[-1,1] at w = 1; intersects_opposite_edges(n) exactly when it meets two opposite sides of the square. When the face is met, the axis chosen by exit_axis is one on which the directed line leaves the square, the coordinates returned by exit_point lie in [-1,1] with one of them exactly -1 or 1, and the point is within 2^-52 in each coordinate of the true last point of the line in the square.",
  "all finite doubles whose sums do not overflow, IEEE rounding to nearest even", "the claim is exactness of floating-point comparisons over all triples of doubles; wrong answers would occur for a tiny fraction of inputs.",
  ["src/s2/edge_clipping.rs:sum_equal", "src/s2/edge_clipping.rs:intersects_face", "src/s2/edge_clipping.rs:intersects_opposite_edges", "src/s2/edge_clipping.rs:exit_axis", "src/s2/edge_clipping.rs:exit_point"])

p("Clipping plane segments to rectangles",
  "In exact arithmetic, clip_edge is true exactly when the closed segment meets the rectangle, and then it returns the ends, in order, of exactly the part of the segment in the rectangle; clip_edge_bound keeps the bounding box of a part of a segment tight under successive clips; clipped_edge_bound covers the part inside; edge_intersects_rect is true exactly when the closed segment meets the closed rectangle. With rounding, the points returned by clip_edge lie in the rectangle and, for segments in [-1,1]x[-1,1], within the documented 2.25 DBL_EPSILON (plus 2^-100) per coordinate of a point of the segment; interpolate has this error, returns a1 at a and b1 at b (for a != b) exactly, and stays between a1 and b1. Defects: with the result false, clip_edge_bound does not always return the original bound; interpolate returns a1 at b if a = b.",
  "every segment and rectangle; with rounding, every segment of doubles in the square whose coordinate differences are zero or at least 2^-900", "continuum of segments; error bounds over all roundings.",
  ["src/s2/edge_clipping.rs:clip_edge", "src/s2/edge_clipping.rs:clip_edge_bound", "src/s2/edge_clipping.rs:clipped_edge_bound", "src/s2/edge_clipping.rs:edge_intersects_rect", "src/s2/edge_clipping.rs:interpolate", "src/s2/edge_clipping.rs:clip_bound_axis"])

p("clip_to_face looks for the exit point at the wrong end",
  "clip_to_face does not meet its contract: it answers false for the edge from (1,0,0) to (0,1,0) and face 0, whose centre is an end of the edge (in exact arithmetic and with IEEE rounding), and for the edge from (1,0,0) to (3/5,4/5,0) it returns the point (4/3,0), outside the square [-1,1]x[-1,1].",
  "every square root function, every treatment of the sign of zero", "the unit tests skip edges that are reported not to intersect.",
  ["src/s2/edge_clipping.rs:clip_to_face", "src/s2/edge_clipping.rs:clip_to_padded_face", "src/s2/edge_clipping.rs:clip_destination"])

p("simple_crossing",
  "simple_crossing(a,b,c,d) is true exactly when the interiors of the edges AB and CD (each less than 180 degrees) cross at a point interior to both, in exact arithmetic; it is right with rounding whenever every one of the four volumes involved is at least 2^-50 in absolute value. The documented symmetry simple_crossing(b,a,c,d) == simple_crossing(a,b,c,d) holds exactly in floating point for all points; the second, simple_crossing(c,d,a,b) == simple_crossing(a,b,c,d), holds when no product underflows, and fails when one does: with IEEE rounding a crossing is found in one order of the edges and missed in the other.",
  "all quadruples of points", "symmetries are exact equalities over all floats; the failing input needs coordinates near 2^-600.",
  ["src/s2/edgeutil.rs:simple_crossing"])

p("Distance from a point to an edge",
  "In exact arithmetic, for points x, a, b of the unit sphere with b not the antipode of a: distance_from_segment is the least angle between x and a point of the edge ab; update_min_distance returns the smaller of the given limit and the least squared chord distance (or always the latter when always_update is set) and says whether it was updated; project returns a point of the edge at the least distance; update_max_distance likewise for the greatest distance.",
  "all points x, all non-antipodal edges, all limits", "a minimum over the continuum of points of the edge.",
  ["src/s2/edgeutil.rs:distance_from_segment", "src/s2/edgeutil.rs:update_min_distance", "src/s2/edgeutil.rs:interior_dist", "src/s2/edgeutil.rs:project", "src/s2/edgeutil.rs:update_max_distance"])

p("Interpolation along an edge",
  "In exact arithmetic, interpolate_at_distance(ax, a, b) is the unit vector at angle ax from a and |angle(a,b) - ax| from b; interpolate(t, a, b) is at angle t*angle(a,b) from a and |1-t|*angle(a,b) from b; for 0 <= t <= 1 it is a point of the edge.",
  "all unit a, b; all ax in [0,pi]; all t >= 0 with t*angle(a,b) <= pi", "continuum of positions; nearly equal and antipodal ends take other branches of Point::cross.",
  ["src/s2/edgeutil.rs:interpolate_at_distance", "src/s2/edgeutil.rs:interpolate"])

p("Orders of shape edges",
  "Shape edge identifiers are totally ordered by shape, then edge. No shape is both empty and full; one with edges is neither; one without edges is one of them. The order of shape::Edge is wrong: an edge equals itself only if its ends coincide, two edges with the same first end are each less than the other when their second ends are greater, and equality is not symmetric.",
  "every pair of identifiers, every pair of edges", "the laws of an order quantify over all pairs and triples.",
  ["src/s2/shape.rs:ShapeEdgeID", "src/s2/shape.rs:Edge", "src/s2/shape.rs:Shape::is_empty", "src/s2/shape.rs:Shape::is_full"])

p("Random objects satisfy their contracts for every draw",
  "Whatever the generator returns, skewed_int(max_log) is less than 2^max_log; cellid_for_level gives a valid cell of the drawn face and the given level and never fails its assertions; in exact arithmetic frame_at_point(z) is a right-handed orthonormal frame with third axis z, and sample_point_from_cap(cap) is a unit vector in the cap whose height is uniform in the draw.",
  "every value the generator may return", "tests see only the values drawn in one run.",
  ["src/s2/random.rs:skewed_int", "src/s2/random.rs:cellid_for_level", "src/s2/random.rs:frame_at_point", "src/s2/random.rs:sample_point_from_cap"])

p("Points and their latitudes and longitudes",
  "With IEEE rounding, LatLng::from of any vector is a valid LatLng (|lat| <= FRAC_PI_2 and |lng| <= PI for the doubles of these names). In exact arithmetic, Point::from(LatLng) is the unit vector of that latitude and longitude, the round trip from a LatLng through its point gives the same LatLng (the longitude away from the poles, for -pi < lng <= pi) and from a unit vector through its LatLng gives the same vector, and distance is the angle between the two points.",
  "every vector; every pair of valid LatLngs", "continuum of points; the validity claim is about the greatest values that rounded atan2 can take.",
  ["src/s2/latlng.rs:LatLng::from", "src/s2/latlng.rs:Point::from", "src/s2/latlng.rs:LatLng::distance", "src/s2/latlng.rs:Point::latitude", "src/s2/latlng.rs:Point::longitude"])

p("Bounding rectangle of a cell",
  "In exact arithmetic, for every valid cell rect_bound is a valid rectangle that contains the latitude and longitude of every point of the cell (faces and cells that contain a pole included). It is tight: for a cell other than a face every latitude of the rectangle is within 2*DBL_EPSILON of the range of the latitudes of the cell, and every longitude is within 2*DBL_EPSILON of an arc of less than 180 degrees between the longitudes of two points of the cell, unless the cell comes that close to a pole.",
  "every valid cell, every point of it", "continuum of points; the choice of the extreme corners depends on the face and the quadrant of the cell.",
  ["src/s2/cell.rs:Cell::rect_bound", "src/s2/rect.rs:Rect::expanded", "src/s2/rect.rs:Rect::polar_closure"])

p("Bounding cap of a cell",
  "In exact arithmetic, for every valid cell cap_bound contains every point of the cell, is less than a hemisphere, is centred at a point of the cell and has a vertex of the cell on its boundary (no smaller cap about that centre contains the cell).",
  "every valid cell, every point of it", "continuum of points; only the four vertices are added by the code, that the rest is inside is a convexity argument.",
  ["src/s2/cell.rs:Cell::cap_bound", "src/s2/cap.rs:Cap::add"])

p("Bounding cap of a latitude-longitude rectangle",
  "In exact arithmetic, for every valid rectangle cap_bound contains every point of the rectangle, its centre is a unit vector, some point of the rectangle lies on its boundary, and it is empty for the empty rectangle.",
  "every valid rectangle (inverted, full and polar ones included), every point of it", "continuum of points; the code looks at three points or a pole only.",
  ["src/s2/rect.rs:Rect::cap_bound"])

p("Distance from a point to a latitude-longitude rectangle",
  "In exact arithmetic, distance_to_latlng of a nonempty valid rectangle is the least angle between the point and a point of the rectangle (when the longitude is not in the rectangle, for rectangles of less than 180 degrees of latitude).",
  "every nonempty valid rectangle, every valid LatLng", "a minimum over the continuum of points; which side is nearest is decided by the middle of the complement.",
  ["src/s2/rect.rs:Rect::distance_to_latlng", "src/s1/interval.rs:complement_center", "src/s2/edgeutil.rs:distance_from_segment"])

p("A rectangle that contains a cell contains its points",
  "In exact arithmetic, if contains_cell answers true every point of the cell has its latitude and longitude in the rectangle, for every valid rectangle and every valid cell.",
  "every valid rectangle, every valid cell, every point of the cell", "continuum of points.",
  ["src/s2/rect.rs:Rect::contains_cell", "src/s2/cell.rs:Cell::rect_bound"])

p("Area and centroid of a latitude-longitude rectangle",
  "In exact arithmetic, area is the integral of the element of area over the rectangle, and centroid is the integral of the points over the area; both are zero for the empty rectangle.",
  "every valid rectangle", "integrals over all rectangles.",
  ["src/s2/rect.rs:Rect::area", "src/s2/rect.rs:Rect::centroid"])

p("Crossings of an edge with the boundary of a latitude-longitude rectangle",
  "In exact arithmetic, for unit vectors a, b that are not collinear: the test of an edge against a parallel (intersects_lat_edge) is true exactly if the great circle of the edge crosses the parallel and some point of the edge has that latitude and a longitude in the interval; if boundary_intersects is true, the edge and the boundary of the rectangle have a common point.",
  "every valid rectangle, every edge with non-collinear ends", "continuum of edges and points; parallels are curved.",
  ["src/s2/rect.rs:Rect::boundary_intersects", "src/s2/rect.rs:intersects_lat_edge", "src/s2/rect.rs:intersects_lng_edge"])

p("Intersection of a latitude-longitude rectangle with a cell",
  "In exact arithmetic, if intersects_cell is true the rectangle and the cell (with the margin of Cell::contains_point) have a common point. The converse, which the documentation claims (an exact test), fails: for the cell of face 0 and the rectangle of latitudes [atan 0.9, 90 degrees] and longitudes [-30, 30] degrees the answer is false though interior points of the rectangle are points of the cell.",
  "every valid rectangle, every valid cell", "continuum of points; a test sees only the rectangles it lists.",
  ["src/s2/rect.rs:Rect::intersects_cell", "src/s1/interval.rs:Interval::new"])

p("Bounding rectangle of a chain of edges",
  "In exact arithmetic, after add_point has been called with the unit vectors of a list in turn, get_bound is a valid rectangle that contains the latitude and longitude of every point of every edge of the chain: extreme latitudes inside an edge, edges over a pole and edges between antipodal vertices included (except for edges that are longer than 4*DBL_EPSILON but short enough for the code to take them for degenerate). With the error margins set to zero the bound is tight: its least and greatest latitude are those of points of the chain. expand_for_subregions contains the bound it is given and is the full rectangle if that bound contains two antipodal points.",
  "every list of unit vectors, every point of an edge", "continuum of points and histories of every length; extreme latitudes are inside an edge.",
  ["src/s2/rect_bounder.rs:RectBounder::add_point", "src/s2/rect_bounder.rs:RectBounder::get_bound", "src/s2/rect_bounder.rs:expand_for_subregions"])

p("A leaf cell made from a point contains the point, in f64 arithmetic",
  "With every f64 operation rounded to nearest (ties to even), Cell::from(p).contains_point(p) is true for every non-zero p neither of whose computed (u, v) coordinates is strictly between -1/2 and -1/3. The comment in contains_point claims it for all points; it is false for Point::from_coords(1, y, 0) with y = -8356872692090119 / 2^54. With a margin of 5/4 DBL_EPSILON or more it is true for all points.",
  "every non-zero vector of f64 coordinates on every face", "2^64 values per coordinate; the failures are single f64 numbers beside grid lines and depend on the last bit of every operation.",
  ["src/s2/cell.rs:Cell::contains_point", "src/s2/cellid.rs:From<&Point> for CellID", "src/s2/stuv.rs:st_to_uv", "src/s2/stuv.rs:uv_to_st"])

p("Which cells a cap intersects and contains",
  "In exact arithmetic: intersects_cell is true for every cell that has a point in the cap, whichever way they meet (a vertex in the cap, the centre in the cell, or the cap reaching over one edge), and true only if some point of the cap is accepted by Cell::contains_point. contains_cell is true only if every point of the cell is in the cap, and false only if a point accepted by Cell::contains_point is not in the interior of the cap.",
  "every valid cell, every cap (empty, full and larger than a hemisphere included)", "continuum of caps and points; the cap may reach a cell through any part of an edge.",
  ["src/s2/cap.rs:Cap::intersects_cell", "src/s2/cap.rs:Cap::contains_cell", "src/s2/cap.rs:Cap::intersects_cell_vertices"])

p("cell_union_bound of a cap covers the cap",
  "In exact arithmetic, cell_union_bound of a cap returns, without panic, at most six valid cells (at most four if the angle of the cap is at most sqrt(2)/3), and for every point of the cap one of them contains CellID::from(point): in particular when the cap reaches over edges or corners of the cube.",
  "every cap with a unit centre, every point of it", "continuum of caps and points; the choice of the level depends on the least width of all cells of a level, and the choice of the vertex on the nearest corner.",
  ["src/s2/cap.rs:Cap::cell_union_bound", "src/s2/metric.rs:MIN_WIDTHMETRIC", "src/s2/cellid.rs:CellID::vertex_neighbors"])

p("Coverings of caps",
  "In exact arithmetic, for a RegionCoverer with levels at most 30 and level_mod from 1 to 3: covering and fast_covering of a cap return valid unions that contain CellID::from(p) for every point p of the cap; every cell of covering contains a cell that accepts a point of the cap; and every point whose leaf is in interior_covering is in the cap.",
  "every cap with a unit centre, every parameter, every order of the priority queue, every point", "continuum of caps and points, and every search history of the coverer.",
  ["src/s2/region.rs:RegionCoverer::covering", "src/s2/region.rs:RegionCoverer::interior_covering", "src/s2/region.rs:RegionCoverer::fast_covering", "src/s2/cap.rs:Cap::cell_union_bound", "src/s2/cap.rs:Cap::intersects_cell", "src/s2/cap.rs:Cap::contains_cell"])

p("point_area is the area of the triangle",
  "In exact arithmetic, point_area(a, b, c) of three unit vectors that are not on one great circle is the area on the sphere of the triangle with these corners (the measure of the directions that are non-negative combinations of a, b and c), whether the code takes Girard's or l'Huilier's formula. It is 0 if two of the points coincide, or if one of them is on the edge between the other two, and 2*pi if the three points go around a great circle.",
  "all triples of unit vectors", "continuum of triangles; the two formulas must agree where the code switches, and the area is an integral, not a formula of the code.",
  ["src/s2/point.rs:point_area"])

p("exact_area of a cell is the area of the cell",
  "In exact arithmetic, exact_area of the Cell of every valid CellID is the area on the sphere of the set of points of the cell.",
  "every valid cell on every level and face", "2^62 cells; the area is the measure of a continuum of points.",
  ["src/s2/cell.rs:Cell::exact_area", "src/s2/cell.rs:Cell::vertices", "src/s2/point.rs:point_area"])

p("Areas of the cells of a level",
  "In exact arithmetic, exact_area of every cell of level k is at least MIN_AREAMETRIC.value(k) and at most MAX_AREAMETRIC.value(k) * (1 + 2^-53) (the f64 constant MAX_AREAMETRIC itself is exceeded by a leaf cell); average_area is within a factor of 1.7 of it; the area of a cell is the sum of the areas of its four children; and at levels 0 and 1 exact_area, approx_area and average_area agree.",
  "every valid cell on every level and face", "2^62 cells; the extreme densities are inside a face, and the bounds need the integral of the projection over every cell.",
  ["src/s2/metric.rs:MIN_AREAMETRIC", "src/s2/metric.rs:MAX_AREAMETRIC", "src/s2/metric.rs:AVG_AREAMETRIC", "src/s2/cell.rs:Cell::exact_area", "src/s2/cell.rs:Cell::average_area", "src/s2/cell.rs:Cell::approx_area", "src/s2/cell.rs:Cell::children"])
p("Centroids of a triangle",
  "In exact arithmetic, true_centroid(a, b, c) of three unit vectors that are not on one great circle is the integral of the position over the spherical triangle, with the sign of the orientation of a, b, c. A cyclic exchange of the corners does not change it and an exchange of two changes its sign; if a triangle is cut from a corner to a point of the opposite side, the results of the parts add up to that of the whole; it is zero for a triangle with a corner on the opposite side. The normalized planar_centroid is on the medians of the triangle.",
  "all triples of unit vectors", "continuum of triangles; the centroid is an integral over the triangle, not a formula of the code.",
  ["src/s2/point.rs:true_centroid", "src/s2/point.rs:planar_centroid"])

p("Regular polygons",
  "In exact arithmetic, regular_points returns num_vertices unit vectors at the distance radius from center, and the angle at the center from the i-th to the j-th is (j - i) / num_vertices of a full turn. For three or more vertices and a radius strictly between 0 and pi they are distinct and each follows its predecessor counterclockwise around the center (also the first after the last).",
  "every center, radius from 0 to pi and number of vertices", "continuum of centers and radii, any number of vertices.",
  ["src/s2/point.rs:regular_points", "src/s2/point.rs:regular_points_for_frame", "src/s2/point.rs:from_frame"])

p("expand_by_radius covers the neighbourhood",
  "In exact arithmetic, expand_by_radius(r, d) of a list of valid cells gives a normalized union, and if CellID::from(p) is in one of the given cells and q is within r of p, CellID::from(q) is in a cell of the result, for every radius (also beyond the width of a face) and every level difference whose sum with the least level does not overflow u64. For radii up to the least width of a face the result is exactly the expansion at the smaller of two levels: the finest level whose cells are at least r wide, and the least level of the given cells plus d. If the sum overflows the call panics.",
  "all lists of valid cells, all radii, all level differences, all pairs of points", "all unions of 2^62 cells, a continuum of radii and of points near the boundaries of cells, on six faces.",
  ["src/s2/cellunion.rs:CellUnion::expand_by_radius", "src/s2/cellunion.rs:CellUnion::expand_at_level", "src/s2/metric.rs:MIN_WIDTHMETRIC"])

p("Cell unions, cells and points as regions",
  "In exact arithmetic, cap_bound and rect_bound of a list of valid cells contain every point of every one of the cells, and cap_bound is the empty cap only for the empty list; cell_union_bound gives at most six valid cells that cover the union. For every permitted setting of a RegionCoverer and every order of its queue: covering of a valid union (or of a single cell) covers all leaves of it and has no cell without such a leaf, interior_covering lies inside it, and fast_covering covers it. covering and fast_covering of a point have a cell that contains CellID::from(point), every cell of covering contains a cell for which contains_point is true, and interior_covering of a point is empty.",
  "all lists of valid cells, all cells, all points, all permitted coverer parameters, all queue orders", "all unions of 2^62 cells, a continuum of points, and all combinations of four coverer parameters.",
  ["src/s2/cellunion.rs:CellUnion::cap_bound", "src/s2/cellunion.rs:CellUnion::rect_bound", "src/s2/cellunion.rs:CellUnion::cell_union_bound", "src/s2/cell.rs:Cell::intersects_cell", "src/s2/point.rs:Point::cell_union_bound", "src/s2/region.rs:RegionCoverer::covering"])

p("Areas of cell unions",
  "In exact arithmetic, exact_area of a valid (sorted, non-overlapping) union is the area of the set of points in its cells; it depends only on the leaves covered, so normalizing or splitting cells does not change it, and a union that covers everything has area 4 pi. average_area is the fraction of the leaves covered times the area of the sphere, and is within a factor of 1.7 of exact_area.",
  "all valid unions", "an unbounded family of unions; areas are integrals over regions with curved boundaries.",
  ["src/s2/cellunion.rs:CellUnion::exact_area", "src/s2/cellunion.rs:CellUnion::average_area", "src/s2/cell.rs:Cell::exact_area"])

p("Coverings of rectangles",
  "In exact arithmetic, fast_covering of a valid latitude-longitude rectangle has the leaf of every point of the rectangle, interior_covering has only leaves of points of the rectangle, and every cell of covering contains a cell with a point of the rectangle (up to the margin of Cell::contains_point). covering itself can miss points: with levels limited to 0 there is a rectangle with an interior point that is in no cell of the covering.",
  "all valid rectangles, all parameters, all orders of the queue", "an unbounded family of rectangles, and the missed points need a rectangle with an edge of a cell that runs westward.",
  ["src/s2/rect.rs:Rect::intersects_cell", "src/s2/rect.rs:Rect::contains_cell", "src/s2/rect.rs:Rect::cap_bound", "src/s2/region.rs:Region::cell_union_bound", "src/s2/region.rs:RegionCoverer::covering"])

p("Sizes of cells against the metric constants",
  "In exact arithmetic, for every valid cell the angle between opposite edge circles, the lengths of the edges, the widths and the diagonals are between the minimal and maximal constants of metric.rs for the level of the cell, the maximal constants taken as the doubles of the program. Any two points of a cell are at most MAX_DIAG apart, every point is within half of that of the centre, the centres of edge neighbours and of consecutive cells of the curve are at most MAX_EDGE apart, and cells of level MAX_DIAG.min_level(x) or finer have diameters of at most x. For every constant a leaf cell reaches it up to a relative error of 1e-6.",
  "all valid cells of all levels, all points of the cells", "the constants are suprema over 7e18 cells and over continuous families of points; the tests compare ratios of the constants with each other.",
  ["src/s2/metric.rs:MIN_ANGLE_SPANMETRIC", "src/s2/metric.rs:MAX_ANGLE_SPANMETRIC", "src/s2/metric.rs:MIN_WIDTHMETRIC", "src/s2/metric.rs:MAX_WIDTHMETRIC", "src/s2/metric.rs:MIN_EDGEMETRIC", "src/s2/metric.rs:MAX_EDGEMETRIC", "src/s2/metric.rs:MIN_DIAGMETRIC", "src/s2/metric.rs:MAX_DIAGMETRIC"])

p("Hausdorff distance of rectangles",
  "In exact arithmetic, for valid non-empty rectangles A and B (B not reaching from pole to pole, unless its longitudes contain those of A) A.directed_hausdorff_distance(B) is the greatest distance along the sphere of a point of A from B: every point of A has a point of B at most that far away, and some point of A has none nearer. hausdorff_distance is the greater of the two directions and symmetric. From the empty rectangle the distance is 0, to it PI.",
  "all pairs of valid rectangles, all their points", "a max-min over two continua, with case distinctions on the longitude difference and on interior maxima; tests compare some pairs with sampled grids.",
  ["src/s2/rect.rs:directed_hausdorff_distance", "src/s2/rect.rs:hausdorff_distance", "src/s2/rect.rs:hausdorff_distance_helper", "src/s2/rect.rs:bisector_intersection", "src/s2/rect.rs:interior_max_distance"])

p("Vectors of arbitrary precision are exact",
  "Converting a finite f64 with prec_float (or a Vector to a PreciseVector) gives exactly its value, for normal and subnormal numbers and zeros, and panics for infinities and NaNs and nothing else. Sums, differences, multiples, absolute values, scalar and cross products and squared norms of PreciseVectors are exactly those of the rational vectors. a.cross(b).dot(c) compares with zero exactly as the determinant of the three vectors. The cross product is exactly orthogonal to its factors, changes sign when they are exchanged, and is zero iff they are parallel. is_unit holds iff the squared norm is exactly one. largest_component and smallest_component are axes of greatest and least absolute component.",
  "all 64-bit patterns, all decimals of any size and scale", "exactness over unbounded numbers; tests use small integers.",
  ["src/r3/precisevector.rs:prec_float", "src/r3/precisevector.rs:PreciseVector", "src/r3/precisevector.rs:cross", "src/r3/precisevector.rs:dot", "src/r3/precisevector.rs:largest_component", "src/r3/precisevector.rs:smallest_component"])

p("Approximate equality of intervals and rectangles",
  "In exact arithmetic: two non-empty intervals of the line (rectangles of the plane) are approx_eq_by(e) exactly if every point of either is within e of a point of the other (in each coordinate). Two valid intervals of the circle, neither empty nor full, are approx_eq_by(e) with e < PI/2 exactly if one becomes the other by moving each end by at most e without the ends crossing, and no end moves across the direction PI. The empty interval matches itself and the intervals shorter than 2e, the full interval those of length at least 2*PI - 2e; the relation is reflexive and symmetric. Defect: intervals (and so rectangles of the sphere) whose ends lie closely on both sides of the direction PI are never approximately equal, whatever the tolerance.",
  "all pairs of valid intervals and rectangles, all tolerances", "the failures are at the seam of the circle, which the tests do not try; quantifies over the points of continua.",
  ["src/s1/interval.rs:approx_eq_by", "src/r1/interval.rs:approx_eq_by", "src/r2/rect.rs:approx_eq_by", "src/s2/rect.rs:approx_eq_by"])

p("The segments of an edge on the cube faces",
  "In exact arithmetic, face_segments of any two unit vectors (also equal or antipodal ones) terminates. It returns between one and six segments on distinct faces, the first on the face of a and the last on the face of b. All their ends have coordinates in [-1,1]. They follow the shortest great circle from a to b: the first one starts at a, the last one ends at b, each one starts at the same point of the cube at which the previous one ends, every point of the edge is on a segment, and every point of a segment is on the edge. If the line leaves a face through a corner where the face of b is, that face is next.",
  "all pairs of unit vectors; all signs that is_sign_negative may report for zeros", "termination and coverage are for a loop over a continuum of edges, with ties at edges and corners of the cube that have probability zero in random tests.",
  ["src/s2/edge_clipping.rs:face_segments", "src/s2/edge_clipping.rs:next_face", "src/s2/edge_clipping.rs:move_origin_to_valid_face", "src/s2/edge_clipping.rs:exit_axis", "src/s2/edge_clipping.rs:exit_point"])

p("Face segments with floating-point rounding",
  "With IEEE rounding after every operation, face_segments returns whenever the great circle with the computed normal meets the two faces that move_origin_to_valid_face chooses. The result is then a path without gaps from the chosen start to the chosen end: at most six segments on distinct faces, all ends in [-1,1] x [-1,1], inner ends computed where the line leaves the faces, every face met by the line; a step from one face to the next is exact. This applies to all points well inside different faces (margin 2^-49) that are not almost opposite. It does not apply to all unit vectors: for two nearly opposite points, each a unit vector for is_unit and well inside its face, the loop circles around the cube and never returns.",
  "all vectors of doubles (without overflow); all signs that is_sign_negative may report for zeros", "the doc comment claims that the code always reaches B even in the presence of numerical errors; the cases of failure need a normal that misses a face by rounding, and a test that hits one does not return.",
  ["src/s2/edge_clipping.rs:face_segments", "src/s2/edge_clipping.rs:next_face", "src/s2/edge_clipping.rs:move_origin_to_valid_face", "src/s2/edge_clipping.rs:exit_axis", "src/s2/edge_clipping.rs:exit_point", "src/s2/edge_clipping.rs:sum_equal"])

p("Cells, points and latitudes/longitudes with floating-point rounding",
  "With rounding in every operation and library functions with small errors: the LatLng of a valid CellID converts back to a leaf of that cell, for a leaf to the cell itself. CellID::from(LatLng) never panics and is a valid leaf with a point within 2^-43 of the position. A valid LatLng converted to a Point and back keeps its latitude up to 2^-45 and its longitude up to 2^-47 and whole turns, with no turn except next to the antimeridian, also at the poles (a latitude of 90 degrees). A nonzero vector converted to LatLng and back keeps its direction up to 2^-46.",
  "all valid cells; all latitudes and longitudes; all vectors that are not zero", "the round trips are tested for a few cells and positions; the leaf cells are 2^-30 wide and the errors of three conversions add up.",
  ["src/s2/cellid.rs:From<&CellID> for LatLng", "src/s2/cellid.rs:From<&LatLng> for CellID", "src/s2/latlng.rs:From<&LatLng> for Point", "src/s2/latlng.rs:From<&Point> for LatLng", "src/s2/latlng.rs:latitude", "src/s2/latlng.rs:longitude"])

p("Distances with floating-point rounding",
  "With rounding in every operation and library functions with small errors: the distance of two points with squared lengths between 1/2 and 2 (Point::distance, Vector::angle) is within 2^-45 of the true angle, near zero and near pi as well; it is symmetric and zero for equal points. LatLng::distance of valid positions is within 2^-43 of the true angle up to a third of a circle and within 2^-20 always, also near the poles and across the antimeridian; it is between 0 and PI and zero for equal positions.",
  "all points with squared lengths between 1/2 and 2; all valid positions", "tests compare a few distances with a tolerance; the error of the formulas depends on the position and is largest for small and for nearly antipodal distances.",
  ["src/r3/vector.rs:angle", "src/s2/point.rs:distance", "src/s2/latlng.rs:distance", "src/r3/vector.rs:norm", "src/r3/vector.rs:cross", "src/r3/vector.rs:dot"])

p("Vectors and frames with floating-point rounding",
  "With rounding in every operation: normalize and from_coords of a vector with a length between 2^-400 and 2^400 give each component with a relative error of at most 5*2^-53 and a vector that is_unit accepts; ortho gives a unit vector orthogonal up to 2^-49; frame of a unit vector is orthonormal up to 2^-47, and to_frame and from_frame undo each other up to 2^-43. Point::cross is twice the cross product up to 2^-50 |p+q| |p-q|, non-zero and orthogonal to both arguments up to 2^-49, if the squared lengths differ by at most |p+q| |p-q| / 2. The limits are needed: the norm of a tiny vector is 0 and from_coords divides by it, and for two nearly opposite vectors that is_unit accepts, Point::cross is far from orthogonal.",
  "all vectors in the ranges, any rounding with relative error 2^-53", "tests try a few vectors and tolerances; the errors depend on cancellation and are largest for rare directions and lengths.",
  ["src/r3/vector.rs:normalize", "src/r3/vector.rs:ortho", "src/r3/vector.rs:is_unit", "src/r3/vector.rs:norm", "src/s2/point.rs:cross", "src/s2/point.rs:frame", "src/s2/point.rs:from_frame", "src/s2/point.rs:to_frame", "src/s2/point.rs:from_coords"])

p("Interpolation along an edge with floating-point rounding",
  "With rounding in every operation, for unit vectors a and b up to 2^-49 whose cross product is at least 2^-47 long: interpolate_at_distance gives the point of the great circle at the asked angle from a towards b up to 2^-45 in each component, interpolate gives the point at the fraction t (|t| <= 30) up to (1+|t|) 2^-43, and both results are unit vectors up to 2^-49, so they can be fed into another interpolation. For equal points the code does not divide by zero and the result is the point up to 2^-47.",
  "all nearly unit vectors, all angles, all fractions in the range, any rounding with relative error 2^-53", "tests interpolate between a few pairs of points; the error is largest for points that are very near or nearly opposite.",
  ["src/s2/edgeutil.rs:interpolate", "src/s2/edgeutil.rs:interpolate_at_distance"])

p("move_origin_to_valid_face moves a point only within the error tolerance",
  "With IEEE double rounding, for every non-zero point a and every vector given as the normal of the edge (however wrong), the function called by face_segments for both ends returns a face and coordinates in [-1,1] whose point on the cube is in the direction of a up to 2^-48 of the largest component of a; it never divides by zero. The case that changes the face does occur.",
  "all non-zero points, all normals, IEEE doubles", "the move happens only when the computed normal misses the face of the point, which tests do not produce.",
  ["src/s2/edge_clipping.rs:move_origin_to_valid_face", "src/s2/edge_clipping.rs:face_segments"])

p("The distance from an edge stays within 2^-43 / sin(edge) with rounding",
  "With IEEE double rounding, for points of unit length up to 2^-49 and an edge whose sine S is at least 2^-20, the root of the value of update_min_distance (the chord to the nearest point of the edge) is at most 2^-43/S above the distance to every point of the edge and at most that far below the distance to some point of the edge, whichever of the planar test, the two wedge tests and the interior formula is taken. For edges from 2^-41 (micrometres on the earth) to 90 degrees and distances up to 60 degrees the bound is 2^-44, and distance_from_segment is the least angle up to 2^-43. Called with a minimum, it updates only to a smaller value; when it keeps the minimum, no point of the edge is nearer by more than the bound.",
  "all points, all edges with sine at least 2^-20 (2^-41 for edges up to 90 degrees), all minima, IEEE doubles", "rounding can send a point to the wrong one of the three cases; tests compare a few distances with a large tolerance.",
  ["src/s2/edgeutil.rs:update_min_distance", "src/s2/edgeutil.rs:interior_dist", "src/s2/edgeutil.rs:distance_from_segment"])

p("project returns the nearest point of the edge up to 2^-42 with rounding",
  "With IEEE double rounding, for points of unit length up to 2^-49, an edge whose sine is at least 2^-40 and a point within 60 degrees of the edge, the result of project is at most 2^-42 farther from the point than every point of the edge, lies within 2^-42 of a point of the edge, and is of unit length up to 2^-49, whichever side of the two sign tests is taken. A point of the edge is moved by at most 2^-42.",
  "all points and edges in that range, IEEE doubles", "the two sign tests can go wrong near the ends of the edge; tests project a few points and compare with a tolerance.",
  ["src/s2/edgeutil.rs:project"])

p("The greatest distance from an edge stays within 2^-40 / sin(edge) with rounding",
  "With IEEE double rounding, for points of unit length up to 2^-49 and an edge whose sine S is at least 2^-20, update_max_distance compares the given maximum with a squared chord length that is within 2^-40/S of the greatest squared chord from the point to a point of the edge, whether it is taken from the ends or as the supplement of the least distance from the antipode, and returns the greater of the two.",
  "all points, all edges with sine at least 2^-20, all maxima, IEEE doubles", "rounding decides which branch is taken near a right angle, and the supplement goes through a square root of a rounded product; tests compare a few distances with a large tolerance.",
  ["src/s2/edgeutil.rs:update_max_distance"])

p("The bounding cap of a cell bounds it up to 2^-46 in chord length with rounding",
  "With IEEE double rounding, cap_bound of any valid cell returns a non-empty cap smaller than a hemisphere whose centre is, within 25/2^53, the direction of the middle of the cell's rectangle and has unit length within 9/2^53; every point of the cell is within the computed radius plus 90/2^53 of the centre in chord length; some point of the cell is at least the computed radius minus 90/2^53 away; every point of the exact cell (with the rectangle free of rounding) is within the computed radius plus 2^-43 of the centre; and contains_point answers true for each of the four computed vertices.",
  "all valid cell ids, all points of the cell, IEEE doubles", "the centre, the vertices and the squared distances are all rounded, so whether the cap still covers the whole cell depends on the accumulated error over all cells; tests look at a few cells.",
  ["src/s2/cell.rs:cap_bound", "src/s2/cap.rs:Add<&Point>"])

p("The successor of a chord angle is the next greater chord angle",
  "For doubles given by their bits, the comparisons compare the values, and nextafter(x, y) is the neighbour of x towards y, with no double strictly between. ChordAngle::successor of a negative chord angle is 0, of one in [0, 4) the least double greater than it (at most 4), and of one from 4 on, or of the infinite one, the infinite chord angle. Hence for NEGATIVE and the chord angles between 0 and 4: d < c.successor() exactly when d <= c.",
  "all doubles, all chord angles", "the property is about all 2^62 doubles between 0 and 4, including subnormals, negative zero and the steps between binades; tests look at constants.",
  ["src/s1/chordangle.rs:successor"])

p("Normalizing a plane point gives the unit vector of the same direction",
  "In exact arithmetic r2::Point::normalize leaves the origin unchanged and gives every other point length 1 and the same direction. With rounding, and a hypot with a relative error of at most 2^-52, each coordinate is within 5 / 2^53 relative (plus 2^-1075) of the exact quotient by the length, for points of length between 2^-400 and 2^400.",
  "all plane points; with rounding all of length between 2^-400 and 2^400", "tests normalize a handful of points and compare with a tolerance; the bound holds for each coordinate at every direction and scale.",
  ["src/r2/point.rs:normalize", "src/r2/point.rs:norm"])

out = os.path.join(os.path.dirname(__file__), "..", "properties.jsonl")
with open(out, "w") as f:
    for o in P: f.write(json.dumps(o) + "\n")
print(len(P))
