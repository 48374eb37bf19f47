{
 "claims": [
  {
   "property": "C01",
   "status": "proved",
   "theorems": [
    "Verif.c01_isValid_iff",
    "Verif.c01_isValid_panics_iff",
    "Verif.c01_level_face",
    "Verif.c01_num_injective"
   ],
   "note": "is_valid panics with overflow checks for exactly one number, 1<<63."
  },
  {
   "property": "C02",
   "status": "proved",
   "theorems": [
    "Verif.c02_range"
   ],
   "note": ""
  },
  {
   "property": "C03",
   "status": "proved",
   "theorems": [
    "Verif.c03_contains",
    "Verif.c03_contains_iff",
    "Verif.c03_refl",
    "Verif.c03_trans",
    "Verif.c03_antisymm"
   ],
   "note": ""
  },
  {
   "property": "C04",
   "status": "proved",
   "theorems": [
    "Verif.c04_intersects"
   ],
   "note": ""
  },
  {
   "property": "C05",
   "status": "proved",
   "theorems": [
    "Verif.c05_parent",
    "Verif.c05_parent_parent",
    "Verif.c05_immediateParent",
    "Verif.c05_isFace"
   ],
   "note": ""
  },
  {
   "property": "C06",
   "status": "proved",
   "theorems": [
    "Verif.c06_children"
   ],
   "note": ""
  },
  {
   "property": "C07",
   "status": "proved",
   "theorems": [
    "Verif.c07_childIterAtLevel",
    "Verif.c07_childIter"
   ],
   "note": ""
  },
  {
   "property": "C08",
   "status": "proved",
   "theorems": [
    "Verif.c08_next_prev",
    "Verif.c08_next_adjacent"
   ],
   "note": ""
  },
  {
   "property": "C09",
   "status": "proved",
   "theorems": [
    "Verif.c09_wrap_inverse",
    "Verif.c09_wrap_cycle"
   ],
   "note": ""
  },
  {
   "property": "C10",
   "status": "proved",
   "theorems": [
    "Verif.c10_advanceWrap",
    "Verif.c10_advanceWrap_add"
   ],
   "note": ""
  },
  {
   "property": "C100",
   "status": "proved",
   "theorems": [
    "Verif.c100_pointArea",
    "Verif.c100_coincident",
    "Verif.c100_collinear",
    "Verif.c100_around"
   ],
   "note": "Exact arithmetic over the reals; sqrt, tan, atan are the real functions, atan2 any function that satisfies its specification (IsAtan2). Area is three times the Lebesgue measure of the cone inside the unit ball."
  },
  {
   "property": "C101",
   "status": "proved",
   "theorems": [
    "Verif.c101_exactArea"
   ],
   "note": "As C100."
  },
  {
   "property": "C102",
   "status": "proved",
   "theorems": [
    "Verif.c102_bounds",
    "Verif.c102_max_exceeded",
    "Verif.c102_average",
    "Verif.c102_exactArea_children",
    "Verif.c102_coarse"
   ],
   "note": "As C100. The accuracy of approx_area from level 2 on (a comment claims 3%) is not claimed."
  },
  {
   "property": "C103",
   "status": "proved",
   "theorems": [
    "Verif.c103_trueCentroid",
    "Verif.c103_orientation",
    "Verif.c103_split",
    "Verif.c103_degenerate",
    "Verif.c103_planarCentroid"
   ],
   "note": "Exact arithmetic over the reals; sqrt, sin are the real functions, atan2 any function that satisfies its specification (IsAtan2). The integral over the sphere is four times the integral over the cone inside the unit ball."
  },
  {
   "property": "C104",
   "status": "proved",
   "theorems": [
    "Verif.c104_circle",
    "Verif.c104_spacing",
    "Verif.c104_polygon"
   ],
   "note": "Exact arithmetic over the reals; sqrt, sin, cos, PI are the real ones. The matrix product of cgmath is modelled by scalar products with the rows."
  },
  {
   "property": "C105",
   "status": "proved",
   "theorems": [
    "Verif.c105_covers",
    "Verif.c105_exact",
    "Verif.c105_overflow"
   ],
   "note": "Exact arithmetic over the reals (the rounding inside all_neighbors is any Rounding). Overflow of u64 is modelled as a panic, as in builds with overflow checks."
  },
  {
   "property": "C106",
   "status": "proved",
   "theorems": [
    "Verif.c106_capBound",
    "Verif.c106_rectBound",
    "Verif.c106_cellUnionBound",
    "Verif.c106_covering",
    "Verif.c106_interior",
    "Verif.c106_fastCovering",
    "Verif.c106_cell",
    "Verif.c106_point"
   ],
   "note": "Exact arithmetic over the reals (the rounding inside the search for neighbours is any Rounding). A point is a unit vector."
  },
  {
   "property": "C107",
   "status": "proved",
   "theorems": [
    "Verif.c107_exactArea",
    "Verif.c107_same",
    "Verif.c107_whole",
    "Verif.c107_average_leaves",
    "Verif.c107_average"
   ],
   "note": "Exact arithmetic over the reals; the area of a set is three times the volume of its cone in the unit ball. approx_area is modelled, its accuracy is not claimed."
  },
  {
   "property": "C108",
   "status": "proved",
   "theorems": [
    "Verif.c108_cellUnionBound",
    "Verif.c108_fastCovering",
    "Verif.c108_interior",
    "Verif.c108_tight",
    "Verif.c108_missed"
   ],
   "note": "Exact arithmetic over the reals; the queue is any selection function. c108_missed is the witness that covering is not a covering."
  },
  {
   "property": "C109",
   "status": "proved",
   "theorems": [
    "Verif.c109_span",
    "Verif.c109_edge",
    "Verif.c109_width",
    "Verif.c109_width_max",
    "Verif.c109_diameter",
    "Verif.c109_diag",
    "Verif.c109_center",
    "Verif.c109_share",
    "Verif.c109_neighbors",
    "Verif.c109_next",
    "Verif.c109_minLevel",
    "Verif.c109_edge_sharp",
    "Verif.c109_diag_sharp",
    "Verif.c109_span_sharp",
    "Verif.c109_width_sharp",
    "Verif.c109_literals"
   ],
   "note": "Exact arithmetic over the reals; the minimal constants are the exact values of their expressions, the maximal constants the doubles of the program. The averages and aspect ratios are not covered."
  },
  {
   "property": "C11",
   "status": "proved",
   "theorems": [
    "Verif.c11_advance"
   ],
   "note": ""
  },
  {
   "property": "C110",
   "status": "proved",
   "theorems": [
    "Verif.c110_directed",
    "Verif.c110_symmetric",
    "Verif.c110_empty"
   ],
   "note": "Exact arithmetic over the reals. Excluded: a second rectangle from pole to pole whose longitudes do not contain those of the first; its side is then an edge with antipodal ends."
  },
  {
   "property": "C111",
   "status": "proved",
   "theorems": [
    "Verif.c111_ofF64",
    "Verif.c111_new",
    "Verif.c111_algebra",
    "Verif.c111_mulF64",
    "Verif.c111_eq",
    "Verif.c111_isUnit",
    "Verif.c111_orientation",
    "Verif.c111_cross",
    "Verif.c111_components",
    "Verif.c111_components_agree"
   ],
   "note": "The arithmetic of the crate bigdecimal (not in the repository) is modelled as digits and scale, with unbounded integers. The conversion back to f64 and prec_str are not modelled."
  },
  {
   "property": "C112",
   "status": "proved",
   "theorems": [
    "Verif.S1.c112_circle",
    "Verif.S1.c112_empty_full",
    "Verif.S1.c112_symm",
    "Verif.S1.c112_circle_defect",
    "Verif.R1.c112_line",
    "Verif.R2.c112_plane",
    "Verif.S2.c112_rect",
    "Verif.S2.c112_rect_defect"
   ],
   "note": "Exact arithmetic. The operator % keeps the sign of the dividend; the original library uses the IEEE remainder here. c112_circle_defect and c112_rect_defect state the failure."
  },
  {
   "property": "C113",
   "status": "proved",
   "theorems": [
    "Verif.c113_segments",
    "Verif.c113_cover",
    "Verif.c113_joined"
   ],
   "note": "Exact arithmetic over the reals; square root exact. With rounding see C114."
  },
  {
   "property": "C114",
   "status": "proved",
   "theorems": [
    "Verif.c114_loop",
    "Verif.c114_segments",
    "Verif.c114_interior",
    "Verif.c114_diverges"
   ],
   "note": "Overflow is not modelled. c114_interior covers the fast path of move_origin_to_valid_face; its slow path is covered by the hypothesis of c114_segments that the line meets the chosen faces. c114_diverges is the defect."
  },
  {
   "property": "C115",
   "status": "proved",
   "theorems": [
    "Verif.c115_direction",
    "Verif.c115_roundtrip",
    "Verif.c115_cell",
    "Verif.c115_latlng"
   ],
   "note": "sin and cos are assumed with relative errors of at most 2^-52, atan2 with an absolute error of at most 2^-51 (NearRel, NearArg); overflow is not modelled."
  },
  {
   "property": "C116",
   "status": "proved",
   "theorems": [
    "Verif.c116_point",
    "Verif.c116_symmetric",
    "Verif.c116_self",
    "Verif.c116_latlng",
    "Verif.c116_range"
   ],
   "note": "sin and cos are assumed with relative errors of at most 2^-52, atan2 with an absolute error of at most 2^-51 in the upper half plane; c116_range assumes a correctly rounded atan2. Overflow is not modelled."
  },
  {
   "property": "C117",
   "status": "proved",
   "theorems": [
    "Verif.c117_normalize",
    "Verif.c117_fromCoords",
    "Verif.c117_underflow",
    "Verif.c117_ortho",
    "Verif.c117_frame",
    "Verif.c117_roundtrip",
    "Verif.c117_cross",
    "Verif.c117_cross_defect"
   ],
   "note": "c117_underflow and c117_cross_defect show by IEEE doubles that the limits are needed and that the documentation of from_coords and Point::cross is not met outside them. The matrix products of cgmath are modelled as scalar products. Overflow is not modelled."
  },
  {
   "property": "C118",
   "status": "proved",
   "theorems": [
    "Verif.c118_interpolateAt",
    "Verif.c118_interpolate",
    "Verif.c118_same"
   ],
   "note": "sin and cos have a relative error of at most 2^-52, atan2 an absolute error of at most 2^-51. Points nearer than 2^-47 (or as nearly opposite) but not equal are not covered. Overflow is not modelled."
  },
  {
   "property": "C119",
   "status": "proved",
   "theorems": [
    "Verif.c119_origin",
    "Verif.c119_moves"
   ],
   "note": "The stated tolerance is 2^-48, about 2.5 times FACE_CLIP_ERROR_UV_COORD. Overflow is not modelled."
  },
  {
   "property": "C12",
   "status": "proved",
   "theorems": [
    "Verif.c12_commonAncestorLevel"
   ],
   "note": ""
  },
  {
   "property": "C120",
   "status": "proved",
   "theorems": [
    "Verif.c120_updateMin",
    "Verif.c120_short",
    "Verif.c120_fine",
    "Verif.c120_segment",
    "Verif.c120_keep"
   ],
   "note": "The square root of the exact value is rounded (sqrt exact in the model, its result rounded by fl). Shorter edges and edges near a half circle are covered only for exact arithmetic (C82). Overflow is not modelled."
  },
  {
   "property": "C121",
   "status": "proved",
   "theorems": [
    "Verif.c121_project",
    "Verif.c121_onEdge"
   ],
   "note": "Shorter edges, edges near a half circle and points farther than 60 degrees from the edge are covered only for exact arithmetic. Overflow is not modelled."
  },
  {
   "property": "C122",
   "status": "proved",
   "theorems": [
    "Verif.c122_updateMax"
   ],
   "note": "The coordinates of x are assumed to be doubles (their negation is exact). Shorter edges and edges near a half circle are covered only for exact arithmetic (C82). Overflow is not modelled."
  },
  {
   "property": "C123",
   "status": "proved",
   "theorems": [
    "Verif.c123_capBound",
    "Verif.c123_exactCell"
   ],
   "note": "Stated for every rounding with relative error 2^-53 that is monotone and keeps zero, so for IEEE round to nearest even. In c123_capBound the points of the cell are those of its computed rectangle; c123_exactCell is about the exact cell. Overflow is not modelled."
  },
  {
   "property": "C124",
   "status": "proved",
   "theorems": [
    "Verif.c124_successor",
    "Verif.c124_successor_value",
    "Verif.c124_nextafter",
    "Verif.c124_compare"
   ],
   "note": "nextafter comes from the C library and is modelled from its usual implementation on the bits. NaN is excluded."
  },
  {
   "property": "C125",
   "status": "proved",
   "theorems": [
    "Verif.c125_normalize_exact",
    "Verif.c125_normalize"
   ],
   "note": "hypot comes from the C library: it is a parameter, and its accuracy is a hypothesis."
  },
  {
   "property": "C13",
   "status": "proved",
   "theorems": [
    "Verif.c13_childPosition",
    "Verif.c13_positions_determine",
    "Verif.c13_debug_text",
    "Verif.c13_debug_injective",
    "Verif.c13_debug_zero_panics"
   ],
   "note": "The last theorem records that Debug of CellID(0) panics."
  },
  {
   "property": "C14",
   "status": "proved",
   "theorems": [
    "Verif.c14_roundtrip",
    "Verif.c14_injective",
    "Verif.c14_shape",
    "Verif.c14_fromToken",
    "Verif.c14_plus_accepted"
   ],
   "note": "Standard-library text functions are modelled from their documentation. c14_plus_accepted records that a leading + is accepted."
  },
  {
   "property": "C15",
   "status": "proved",
   "theorems": [
    "Verif.c15_fromFacePosLevel",
    "Verif.c15_roundtrip",
    "Verif.c15_fromFace"
   ],
   "note": ""
  },
  {
   "property": "C16",
   "status": "proved",
   "theorems": [
    "Verif.c16_maxTile"
   ],
   "note": ""
  },
  {
   "property": "C17",
   "status": "proved",
   "theorems": [
    "Verif.c17_fromRange"
   ],
   "note": ""
  },
  {
   "property": "C18",
   "status": "proved",
   "theorems": [
    "Verif.c18_ij_roundtrip",
    "Verif.c18_leaf_roundtrip",
    "Verif.c18_injective"
   ],
   "note": "The lookup tables are built by the model of init_lookup_cell; a table index out of range would be a panic (none)."
  },
  {
   "property": "C19",
   "status": "proved",
   "theorems": [
    "Verif.c19_square",
    "Verif.c19_square_unique",
    "Verif.c19_every_square"
   ],
   "note": "Also: the square is unique, it determines the cell, and every aligned square is the square of a cell."
  },
  {
   "property": "C20",
   "status": "proved",
   "theorems": [
    "Verif.c20_curve_continuous",
    "Verif.c20_leaves"
   ],
   "note": ""
  },
  {
   "property": "C21",
   "status": "proved",
   "theorems": [
    "Verif.c21_closed_curve"
   ],
   "note": "For every level; cubePt is the gluing of the six faces on the cube."
  },
  {
   "property": "C22",
   "status": "proved",
   "theorems": [
    "Verif.c22_centre",
    "Verif.c22_real"
   ],
   "note": "For center_uv and raw_point, c22_real holds for every rounding function."
  },
  {
   "property": "C23",
   "status": "proved",
   "theorems": [
    "Verif.c23_edge_neighbors",
    "Verif.c23_exact",
    "Verif.c23_symmetric"
   ],
   "note": "For every rounding function with the IEEE error bound."
  },
  {
   "property": "C24",
   "status": "proved",
   "theorems": [
    "Verif.c24_vertex_neighbors",
    "Verif.c24_leaf_level_panics"
   ],
   "note": "The second theorem records that vertex_neighbors(30) panics with overflow checks."
  },
  {
   "property": "C25",
   "status": "proved",
   "theorems": [
    "Verif.c25_all_neighbors"
   ],
   "note": "For every rounding function with the IEEE error bound."
  },
  {
   "property": "C26",
   "status": "proved",
   "theorems": [
    "Verif.c26_normalize_covers"
   ],
   "note": ""
  },
  {
   "property": "C27",
   "status": "proved",
   "theorems": [
    "Verif.c27_normalize_normal"
   ],
   "note": ""
  },
  {
   "property": "C28",
   "status": "proved",
   "theorems": [
    "Verif.c28_canonical",
    "Verif.c28_fixed",
    "Verif.c28_order_irrelevant",
    "Verif.c28_minimal"
   ],
   "note": ""
  },
  {
   "property": "C29",
   "status": "proved",
   "theorems": [
    "Verif.c29_containsCellID",
    "Verif.c29_containsCellID_union"
   ],
   "note": ""
  },
  {
   "property": "C30",
   "status": "proved",
   "theorems": [
    "Verif.c30_intersectsCellID"
   ],
   "note": ""
  },
  {
   "property": "C31",
   "status": "proved",
   "theorems": [
    "Verif.c31_search_total",
    "Verif.c31_search_partition"
   ],
   "note": ""
  },
  {
   "property": "C32",
   "status": "proved",
   "theorems": [
    "Verif.c32_merge",
    "Verif.c32_union",
    "Verif.c32_union_comm",
    "Verif.c32_union_assoc",
    "Verif.c32_union_idem"
   ],
   "note": ""
  },
  {
   "property": "C33",
   "status": "proved",
   "theorems": [
    "Verif.c33_intersection"
   ],
   "note": ""
  },
  {
   "property": "C34",
   "status": "proved",
   "theorems": [
    "Verif.c34_intersectionWithCellID",
    "Verif.c34_agrees"
   ],
   "note": ""
  },
  {
   "property": "C35",
   "status": "proved",
   "theorems": [
    "Verif.c35_difference"
   ],
   "note": ""
  },
  {
   "property": "C36",
   "status": "proved",
   "theorems": [
    "Verif.c36_containsCellUnion",
    "Verif.c36_intersectsCellUnion"
   ],
   "note": ""
  },
  {
   "property": "C37",
   "status": "proved",
   "theorems": [
    "Verif.c37_denormalize",
    "Verif.c37_denormalize_any",
    "Verif.c37_rule_fails_for_mod4"
   ],
   "note": "The level formula of denormalize is right only when level_mod divides 30; c37_rule_fails_for_mod4 is the witness."
  },
  {
   "property": "C38",
   "status": "proved",
   "theorems": [
    "Verif.c38_leafCellCovered"
   ],
   "note": ""
  },
  {
   "property": "C39",
   "status": "proved",
   "theorems": [
    "Verif.c39_isValid",
    "Verif.c39_isNormalized"
   ],
   "note": "Both panic with overflow checks if the vector contains 1<<63 (see C01)."
  },
  {
   "property": "C40",
   "status": "proved",
   "theorems": [
    "Verif.c40_split",
    "Verif.c40_absorption",
    "Verif.c40_distrib",
    "Verif.c40_deMorgan",
    "Verif.c40_order",
    "Verif.wholeSphere_spec"
   ],
   "note": ""
  },
  {
   "property": "C41",
   "status": "proved",
   "theorems": [
    "Verif.c41_expand_exact",
    "Verif.c41_expand_covers"
   ],
   "note": "expand_by_radius is not modelled."
  },
  {
   "property": "C42",
   "status": "proved",
   "theorems": [
    "Verif.c42_covering_covers",
    "Verif.c42_covering_tight"
   ],
   "note": "Region methods are arbitrary oracles; the priority queue may return any element."
  },
  {
   "property": "C43",
   "status": "proved",
   "theorems": [
    "Verif.c43_levels",
    "Verif.c43_levelMod_zero"
   ],
   "note": "c43_levelMod_zero records that level_mod = 0, allowed by the documentation, gives cells above max_level."
  },
  {
   "property": "C44",
   "status": "proved",
   "theorems": [
    "Verif.c44_interior"
   ],
   "note": ""
  },
  {
   "property": "C45",
   "status": "proved",
   "theorems": [
    "Verif.c45_terminates"
   ],
   "note": "For levels up to 30 and level_mod 1 to 3."
  },
  {
   "property": "C46",
   "status": "proved",
   "theorems": [
    "Verif.c46_fastCovering_covers",
    "Verif.c46_fastCovering_levels",
    "Verif.c46_fastCovering_count"
   ],
   "note": ""
  },
  {
   "property": "C47",
   "status": "proved",
   "theorems": [
    "Verif.c47_count"
   ],
   "note": ""
  },
  {
   "property": "C48",
   "status": "proved",
   "theorems": [
    "Verif.R1.c48_isEmpty",
    "Verif.R1.c48_contains",
    "Verif.R1.c48_containsInterval",
    "Verif.R1.c48_interiorContainsInterval",
    "Verif.R1.c48_intersects",
    "Verif.R1.c48_interiorIntersects",
    "Verif.R1.c48_intersection",
    "Verif.R1.c48_union",
    "Verif.R1.c48_addPoint",
    "Verif.R1.c48_fromPoints",
    "Verif.R1.c48_eq",
    "Verif.R1.c48_clampPoint",
    "Verif.R1.c48_empty",
    "Verif.R1.c48_center"
   ],
   "note": "Exact for floats: these functions only compare."
  },
  {
   "property": "C49",
   "status": "proved",
   "theorems": [
    "Verif.R1.c49_expanded",
    "Verif.R1.c49_shrunk",
    "Verif.R1.c49_rounded",
    "Verif.R1.c49_hausdorff",
    "Verif.R1.c49_hausdorff_empty",
    "Verif.R1.c49_approxEq"
   ],
   "note": "expanded is exact in exact arithmetic; c49_rounded covers any monotone rounding."
  },
  {
   "property": "C50",
   "status": "proved",
   "theorems": [
    "Verif.S1.c50_contains",
    "Verif.S1.c50_fastContains",
    "Verif.S1.c50_isEmpty_isFull",
    "Verif.S1.c50_containsInterval",
    "Verif.S1.c50_interiorContainsInterval",
    "Verif.S1.c50_intersects",
    "Verif.S1.c50_interiorIntersects"
   ],
   "note": "Exact for floats: these functions only compare. PI is a positive parameter."
  },
  {
   "property": "C51",
   "status": "proved",
   "theorems": [
    "Verif.S1.c51_union",
    "Verif.S1.c51_union_min",
    "Verif.S1.c51_union_comm",
    "Verif.S1.c51_intersection",
    "Verif.S1.c51_intersection_exact",
    "Verif.S1.c51_intersection_min",
    "Verif.S1.c51_intersection_arc",
    "Verif.S1.c51_len"
   ],
   "note": "Validity and inclusion hold for any rounding; minimality and exactness for exact lengths."
  },
  {
   "property": "C52",
   "status": "proved",
   "theorems": [
    "Verif.S1.c52_complement",
    "Verif.S1.c52_involution",
    "Verif.S1.c52_center"
   ],
   "note": "The centre theorem is for exact arithmetic."
  },
  {
   "property": "C53",
   "status": "proved",
   "theorems": [
    "Verif.S1.c53_new",
    "Verif.S1.c53_fromPointPair",
    "Verif.S1.c53_fromPointPair_len",
    "Verif.S1.c53_addPoint",
    "Verif.S1.c53_addPoint_min",
    "Verif.S1.c53_addPoint_ignored"
   ],
   "note": "Validity and inclusion hold for any rounding; lengths are exact."
  },
  {
   "property": "C54",
   "status": "proved",
   "theorems": [
    "Verif.S1.c54_valid",
    "Verif.S1.c54_grow",
    "Verif.S1.c54_shrink",
    "Verif.S1.c54_fixed"
   ],
   "note": "Validity holds for any rounding; the rest for exact arithmetic. The IEEE remainder is a parameter with its specification (IsRem)."
  },
  {
   "property": "C55",
   "status": "proved",
   "theorems": [
    "Verif.R2.c55_containsPoint",
    "Verif.R2.c55_isEmpty",
    "Verif.R2.c55_contains",
    "Verif.R2.c55_intersects",
    "Verif.R2.c55_interiorIntersects",
    "Verif.R2.c55_union",
    "Verif.R2.c55_addPoint",
    "Verif.R2.c55_fromPoints",
    "Verif.R2.c55_eq",
    "Verif.R2.c55_clampPoint",
    "Verif.R2.c55_vertices",
    "Verif.R2.c55_intersection",
    "Verif.R2.c55_expanded",
    "Verif.R2.c55_fromCenterSize",
    "Verif.R2.c55_fromPoints_nil"
   ],
   "note": "c55_fromPoints_nil records that from_points of an empty slice is not the empty rectangle."
  },
  {
   "property": "C56",
   "status": "proved",
   "theorems": [
    "Verif.S2.c56_points",
    "Verif.S2.c56_containsLatLng",
    "Verif.S2.c56_interiorContainsLatLng",
    "Verif.S2.c56_isEmpty",
    "Verif.S2.c56_isFull",
    "Verif.S2.c56_contains",
    "Verif.S2.c56_interiorContains",
    "Verif.S2.c56_intersects",
    "Verif.S2.c56_union",
    "Verif.S2.c56_union_min",
    "Verif.S2.c56_empty_full",
    "Verif.S2.c56_intersection",
    "Verif.S2.c56_intersection_exact",
    "Verif.S2.c56_polarClosure"
   ],
   "note": "PI is a parameter of at least 2. Minimality of union is for exact arithmetic."
  },
  {
   "property": "C57",
   "status": "proved",
   "theorems": [
    "Verif.S2.c57_from",
    "Verif.S2.c57_from_fails",
    "Verif.S2.c57_add",
    "Verif.S2.c57_fromPointPair"
   ],
   "note": "c57_from_fails is the witness at longitude -180 degrees."
  },
  {
   "property": "C58",
   "status": "proved",
   "theorems": [
    "Verif.S2.Metric.c58_maxLevel",
    "Verif.S2.Metric.c58_minLevel",
    "Verif.S2.Metric.c58_minLevel_area",
    "Verif.S2.Metric.c58_minLevel_area_wrong",
    "Verif.S2.Metric.c58_minLevel_zero",
    "Verif.S2.Metric.c58_range",
    "Verif.S2.Metric.c58_closestLevel"
   ],
   "note": "Exact quotient; minLevel_quotient and maxLevel_quotient state the same of a rounded quotient. Doubles below 2^-1100 do not exist, hence the lower bound on v."
  },
  {
   "property": "C59",
   "status": "proved",
   "theorems": [
    "Verif.c59_stToUV_strictMono",
    "Verif.c59_stToUV_ends",
    "Verif.c59_stToUV_range",
    "Verif.c59_stToUV_odd",
    "Verif.c59_uvToST_stToUV",
    "Verif.c59_stToUV_uvToST",
    "Verif.c59_stToUV_rounded",
    "Verif.c59_uvToST_rounded"
   ],
   "note": "Exact arithmetic over any ordered field with a square root; the last two theorems are monotonicity for every monotone rounding exact at a few constants."
  },
  {
   "property": "C60",
   "status": "proved",
   "theorems": [
    "Verif.c60_face",
    "Verif.c60_uv",
    "Verif.c60_roundtrip",
    "Verif.c60_range",
    "Verif.c60_projection",
    "Verif.c60_faceXYZtoUV"
   ],
   "note": "c60_uv and c60_range hold with rounding; c60_projection is for exact arithmetic."
  },
  {
   "property": "C61",
   "status": "proved",
   "theorems": [
    "Verif.c61_total",
    "Verif.c61_contains",
    "Verif.c61_containsPoint",
    "Verif.c61_roundtrip",
    "Verif.c61_tolerance"
   ],
   "note": "c61_total holds for every rounding function. With rounding (IEEE error bound) the exact projection of the point is in the leaf's exact (u,v) rectangle up to 2^-44, and in it exactly in exact arithmetic; the round trip from a cell's centre is exact with rounding."
  },
  {
   "property": "C62",
   "status": "proved",
   "theorems": [
    "Verif.c62_sign_anti",
    "Verif.c62_sign_exact",
    "Verif.c62_triage_sound",
    "Verif.c62_triage_complete",
    "Verif.c62_triage_swap",
    "Verif.c62_stable_sound",
    "Verif.c62_stable_rotate",
    "Verif.c62_robust_equal",
    "Verif.c62_robust_sound",
    "Verif.c62_robust_complete",
    "Verif.c62_robust_consistent",
    "Verif.c62_robust_laws",
    "Verif.c62_exact_laws",
    "Verif.c62_exact_degenerate",
    "Verif.c62_equator",
    "Verif.c62_ordered",
    "Verif.c62_ordered_anti",
    "Verif.c62_ordered_equal",
    "Verif.c62_ordered_ends",
    "Verif.c62_ordered_defect"
   ],
   "note": "Soundness and completeness hold for every rounding with the IEEE error bound. The documented law (1) of robust_sign and property (5) of ordered_ccw are proved to fail for points of one great circle (c62_exact_degenerate, c62_equator, c62_ordered_defect): exact_sign is a stub. c62_exact_laws is for exact arithmetic."
  },
  {
   "property": "C63",
   "status": "proved",
   "theorems": [
    "Verif.c63_add_range",
    "Verif.c63_add_comm",
    "Verif.c63_add_units",
    "Verif.c63_sub_laws",
    "Verif.c63_fromSquaredLength",
    "Verif.c63_special",
    "Verif.c63_expanded",
    "Verif.c63_fromAngle",
    "Verif.c63_toAngle",
    "Verif.c63_add_exact",
    "Verif.c63_sub_exact",
    "Verif.c63_add_mono",
    "Verif.c63_convert",
    "Verif.c63_trig",
    "Verif.c63_add_near",
    "Verif.c63_sub_near"
   ],
   "note": "The laws with rounding hold for monotone roundings that leave 0 and 1 unchanged; the error bounds for such roundings with the IEEE error bound, for operands whose quarter is exact (every f64 of at least 2^-1020). sin and asin of the library are assumed monotone for the order of conversions."
  },
  {
   "property": "C64",
   "status": "proved",
   "theorems": [
    "Verif.c64_empty_full",
    "Verif.c64_addPoint",
    "Verif.c64_addCap",
    "Verif.c64_eq",
    "Verif.c64_containsPoint_near",
    "Verif.c64_containsPoint",
    "Verif.c64_contains",
    "Verif.c64_intersects",
    "Verif.c64_interiorIntersects",
    "Verif.c64_complement",
    "Verif.c64_addCap_exact",
    "Verif.c64_expanded",
    "Verif.c64_area",
    "Verif.c64_intersects_defect",
    "Verif.c64_interior_defect",
    "Verif.c64_southPole_defect",
    "Verif.c64_longitude_defect",
    "Verif.c64_union_defect",
    "Verif.c64_approxEq_defect"
   ],
   "note": "The first five hold with rounding, the others in exact arithmetic over the reals; the theorems named defect are witnesses of wrong results. c64_union_defect holds for every distance function that gives pi for antipodes and every interpolation that gives a unit vector."
  },
  {
   "property": "C65",
   "status": "proved",
   "theorems": [
    "Verif.c65_exact",
    "Verif.c65_range",
    "Verif.c65_nonneg",
    "Verif.c65_near",
    "Verif.c65_fixed",
    "Verif.c65_seam"
   ],
   "note": "c65_seam is the witness, with IEEE rounding and the constant PI, that the documented half-open interval is not respected."
  },
  {
   "property": "C66",
   "status": "proved",
   "theorems": [
    "Verif.R2.c66_cmp",
    "Verif.R2.c66_laws",
    "Verif.R2.c66_add_sub",
    "Verif.R2.c66_mul_wrong"
   ],
   "note": "c66_mul_wrong is the witness for the product."
  },
  {
   "property": "C67",
   "status": "proved",
   "theorems": [
    "Verif.c67_clamp_range",
    "Verif.c67_clamp_id",
    "Verif.c67_clamp_between",
    "Verif.c67_clamp_nearest"
   ],
   "note": ""
  },
  {
   "property": "C68",
   "status": "proved",
   "theorems": [
    "Verif.c68_from",
    "Verif.c68_children",
    "Verif.c68_leaf",
    "Verif.c68_nested",
    "Verif.c68_disjoint",
    "Verif.c68_union"
   ],
   "note": "c68_from, c68_children and c68_leaf hold for every rounding function; the others for every monotone one that leaves 0, 1/2, 1 and 2 unchanged."
  },
  {
   "property": "C69",
   "status": "proved",
   "theorems": [
    "Verif.c69_token_order"
   ],
   "note": ""
  },
  {
   "property": "C70",
   "status": "proved",
   "theorems": [
    "Verif.S1.c70_hausdorff",
    "Verif.S1.c70_hausdorff_empty"
   ],
   "note": "Exact arithmetic."
  },
  {
   "property": "C71",
   "status": "proved",
   "theorems": [
    "Verif.S2.c71_normalized",
    "Verif.S2.c71_normalized_id"
   ],
   "note": "The IEEE remainder is a parameter with its specification (IsRem)."
  },
  {
   "property": "C72",
   "status": "proved",
   "theorems": [
    "Verif.S2.c72_expanded",
    "Verif.S2.c72_center",
    "Verif.S2.c72_vertex"
   ],
   "note": "Exact arithmetic."
  },
  {
   "property": "C73",
   "status": "proved",
   "theorems": [
    "Verif.c73_frame",
    "Verif.c73_uvwFace",
    "Verif.c73_norms"
   ],
   "note": "Exact for floats as far as the functions only negate and permute."
  },
  {
   "property": "C74",
   "status": "proved",
   "theorems": [
    "Verif.c74_cmp",
    "Verif.c74_cmp_trans",
    "Verif.c74_dot_comm",
    "Verif.c74_cross_anti",
    "Verif.c74_ortho_odd",
    "Verif.c74_pointCross_odd",
    "Verif.c74_chordAngle",
    "Verif.c74_components",
    "Verif.c74_products",
    "Verif.c74_normalize",
    "Verif.c74_ortho",
    "Verif.c74_pointCross",
    "Verif.c74_frame"
   ],
   "note": "The exact laws hold for every odd rounding function; the geometric ones are for exact arithmetic."
  },
  {
   "property": "C75",
   "status": "proved",
   "theorems": [
    "Verif.c75_vertex",
    "Verif.c75_edge",
    "Verif.c75_containsPoint"
   ],
   "note": "For exact arithmetic."
  },
  {
   "property": "C76",
   "status": "proved",
   "theorems": [
    "Verif.c76_angle",
    "Verif.c76_deg",
    "Verif.c76_range",
    "Verif.c76_nearest"
   ],
   "note": "For every rounding with the IEEE error bound."
  },
  {
   "property": "C77",
   "status": "proved",
   "theorems": [
    "Verif.c77_near",
    "Verif.c77_maxPointError_defect"
   ],
   "note": "For every rounding with the IEEE error bound; the counter-example is with IEEE rounding."
  },
  {
   "property": "C78",
   "status": "proved",
   "theorems": [
    "Verif.c78_sumEqual",
    "Verif.c78_intersectsFace",
    "Verif.c78_oppositeEdges",
    "Verif.c78_exitAxis",
    "Verif.c78_exitPoint"
   ],
   "note": "With IEEE rounding (round to nearest, ties to even) defined in Proofs/RNE.lean; overflow to infinity is not modelled."
  },
  {
   "property": "C79",
   "status": "proved",
   "theorems": [
    "Verif.c79_clipEdgeBound",
    "Verif.c79_clipEdge",
    "Verif.c79_clippedEdgeBound",
    "Verif.c79_inside",
    "Verif.c79_edgeIntersectsRect",
    "Verif.c79_interpolate",
    "Verif.c79_interpolate_ends",
    "Verif.c79_clipEdge_near",
    "Verif.c79_clipEdge_f64",
    "Verif.c79_clipEdgeBound_defect",
    "Verif.c79_interpolate_defect"
   ],
   "note": "c79_clipEdgeBound, c79_clipEdge, c79_clippedEdgeBound and c79_edgeIntersectsRect are for exact arithmetic; c79_inside and c79_clipEdge_near for any rounding; the others with IEEE rounding. interpolate is shown to stay between a1 and b1 when these are equal or differ by at least 2^-170. The two theorems with suffix _defect state where the documented behaviour fails."
  },
  {
   "property": "C80",
   "status": "proved",
   "theorems": [
    "Verif.c80_missed",
    "Verif.c80_missed_f64",
    "Verif.c80_outside"
   ],
   "note": "Witnesses of wrong results."
  },
  {
   "property": "C81",
   "status": "proved",
   "theorems": [
    "Verif.c81_swap_first",
    "Verif.c81_symmetry",
    "Verif.c81_exact",
    "Verif.c81_rounded",
    "Verif.c81_underflow"
   ],
   "note": "c81_swap_first for any odd rounding, c81_symmetry for any odd rounding without underflow, c81_rounded for any rounding with the IEEE error bound, c81_underflow with IEEE rounding."
  },
  {
   "property": "C82",
   "status": "proved",
   "theorems": [
    "Verif.c82_updateMin",
    "Verif.c82_distance",
    "Verif.c82_project",
    "Verif.c82_updateMax"
   ],
   "note": "Exact arithmetic over the reals."
  },
  {
   "property": "C83",
   "status": "proved",
   "theorems": [
    "Verif.c83_interpolateAt",
    "Verif.c83_interpolate",
    "Verif.c83_onEdge"
   ],
   "note": "Exact arithmetic over the reals; sin, cos, sqrt and atan2 are the real functions."
  },
  {
   "property": "C84",
   "status": "proved",
   "theorems": [
    "Verif.c84_shapeEdgeID",
    "Verif.c84_emptyFull",
    "Verif.c84_edge_defect"
   ],
   "note": "c84_edge_defect is a witness of wrong results."
  },
  {
   "property": "C85",
   "status": "proved",
   "theorems": [
    "Verif.c85_skewedInt",
    "Verif.c85_cellid",
    "Verif.c85_frame",
    "Verif.c85_sample"
   ],
   "note": "The draws are arguments of the model. c85_frame and c85_sample are for exact arithmetic."
  },
  {
   "property": "C86",
   "status": "proved",
   "theorems": [
    "Verif.c86_valid",
    "Verif.c86_toPoint",
    "Verif.c86_roundTrip",
    "Verif.c86_distance"
   ],
   "note": "c86_valid is with IEEE rounding after every step, sqrt and atan2 correctly rounded; the others are for exact arithmetic. atan2 is any function that gives the polar angle (IsArg)."
  },
  {
   "property": "C87",
   "status": "proved",
   "theorems": [
    "Verif.c87_rectBound",
    "Verif.c87_tight"
   ],
   "note": "Exact arithmetic over the reals; atan2 is any function that gives the polar angle (IsArg), the IEEE remainder is a parameter with its specification (IsRem), DBL_EPSILON is any number in [0,1] (in [0,1/4] for c87_tight)."
  },
  {
   "property": "C88",
   "status": "proved",
   "theorems": [
    "Verif.c88_capBound"
   ],
   "note": "Exact arithmetic over the reals."
  },
  {
   "property": "C89",
   "status": "proved",
   "theorems": [
    "Verif.c89_capBound"
   ],
   "note": "Exact arithmetic over the reals; the IEEE remainder is a parameter with its specification (IsRem)."
  },
  {
   "property": "C90",
   "status": "proved",
   "theorems": [
    "Verif.c90_distance"
   ],
   "note": "Exact arithmetic over the reals."
  },
  {
   "property": "C91",
   "status": "proved",
   "theorems": [
    "Verif.c91_containsCell"
   ],
   "note": "Exact arithmetic over the reals; parameters as for C87."
  },
  {
   "property": "C92",
   "status": "proved",
   "theorems": [
    "Verif.c92_area",
    "Verif.c92_centroid"
   ],
   "note": "Exact arithmetic over the reals; interval integrals of Mathlib."
  },
  {
   "property": "C93",
   "status": "proved",
   "theorems": [
    "Verif.c93_latEdge",
    "Verif.c93_boundary"
   ],
   "note": "Exact arithmetic over the reals; atan2 is any function that gives the polar angle (IsArg)."
  },
  {
   "property": "C94",
   "status": "proved",
   "theorems": [
    "Verif.c94_sound",
    "Verif.c94_missed"
   ],
   "note": "Exact arithmetic over the reals; parameters as for C87. c94_missed is the witness that the test is not exact."
  },
  {
   "property": "C95",
   "status": "proved",
   "theorems": [
    "Verif.c95_edges",
    "Verif.c95_tight",
    "Verif.c95_subregions"
   ],
   "note": "Exact arithmetic over the reals; parameters as for C87; the error margins of the code are parameters (Margins.code gives their values)."
  },
  {
   "property": "C96",
   "status": "proved",
   "theorems": [
    "Verif.c96_contains",
    "Verif.c96_margin",
    "Verif.c96_missed",
    "Verif.rne_f64_exact",
    "Verif.rne_f64_nearest",
    "Verif.rne_f64_double"
   ],
   "note": "f64 arithmetic: rne, rounding to nearest with ties to even, gradual underflow, no overflow (the rne_f64 theorems compare it with the doubles as IEEE 754 encodes them); sqrt correctly rounded. c96_missed is the witness against the comment."
  },
  {
   "property": "C97",
   "status": "proved",
   "theorems": [
    "Verif.c97_intersects_complete",
    "Verif.c97_intersects_sound",
    "Verif.c97_contains"
   ],
   "note": "Exact arithmetic over the reals; eps, the margin of Cell::contains_point, is any number of at least zero."
  },
  {
   "property": "C98",
   "status": "proved",
   "theorems": [
    "Verif.c98_covers"
   ],
   "note": "Exact arithmetic over the reals (the rounding inside vertex_neighbors is any Rounding)."
  },
  {
   "property": "C99",
   "status": "proved",
   "theorems": [
    "Verif.c99_covering",
    "Verif.c99_tight",
    "Verif.c99_interior",
    "Verif.c99_fastCovering"
   ],
   "note": "Exact arithmetic over the reals (the rounding inside vertex_neighbors is any Rounding); eps, the margin of Cell::contains_point, is any number of at least zero; the order of the priority queue is arbitrary (pick)."
  }
 ]
}