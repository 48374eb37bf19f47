# c(property, status, theorem names, note)
c("C01", "proved", "c01_isValid_iff c01_isValid_panics_iff c01_level_face c01_num_injective",
  "is_valid panics with overflow checks for exactly one number, 1<<63.")
c("C02", "proved", "c02_range")
c("C03", "proved", "c03_contains c03_contains_iff c03_refl c03_trans c03_antisymm")
c("C04", "proved", "c04_intersects")
c("C05", "proved", "c05_parent c05_parent_parent c05_immediateParent c05_isFace")
c("C06", "proved", "c06_children")
c("C07", "proved", "c07_childIterAtLevel c07_childIter")
c("C08", "proved", "c08_next_prev c08_next_adjacent")
c("C09", "proved", "c09_wrap_inverse c09_wrap_cycle")
c("C10", "proved", "c10_advanceWrap c10_advanceWrap_add")
c("C11", "proved", "c11_advance")
c("C12", "proved", "c12_commonAncestorLevel")
c("C15", "proved", "c15_fromFacePosLevel c15_roundtrip c15_fromFace")
c("C16", "proved", "c16_maxTile")
c("C17", "proved", "c17_fromRange")
c("C26", "proved", "c26_normalize_covers")
c("C27", "proved", "c27_normalize_normal")
c("C28", "proved", "c28_canonical c28_fixed c28_order_irrelevant c28_minimal")
c("C29", "proved", "c29_containsCellID c29_containsCellID_union")
c("C30", "proved", "c30_intersectsCellID")
c("C31", "proved", "c31_search_total c31_search_partition")
c("C32", "proved", "c32_merge c32_union c32_union_comm c32_union_assoc c32_union_idem")
c("C33", "proved", "c33_intersection")
c("C34", "proved", "c34_intersectionWithCellID c34_agrees")
c("C35", "proved", "c35_difference")
c("C36", "proved", "c36_containsCellUnion c36_intersectsCellUnion")
c("C37", "proved", "c37_denormalize c37_denormalize_any c37_rule_fails_for_mod4",
  "The level formula of denormalize is right only when level_mod divides 30; c37_rule_fails_for_mod4 is the witness.")
c("C38", "proved", "c38_leafCellCovered")
c("C39", "proved", "c39_isValid c39_isNormalized", "Both panic with overflow checks if the vector contains 1<<63 (see C01).")
c("C40", "proved", "c40_split c40_absorption c40_distrib c40_deMorgan c40_order wholeSphere_spec")
c("C13","proved","c13_childPosition c13_positions_determine c13_debug_text c13_debug_injective c13_debug_zero_panics","The last theorem records that Debug of CellID(0) panics.")
c("C14","proved","c14_roundtrip c14_injective c14_shape c14_fromToken c14_plus_accepted","Standard-library text functions are modelled from their documentation. c14_plus_accepted records that a leading + is accepted.")
c("C69","proved","c69_token_order")

c("C18","proved","c18_ij_roundtrip c18_leaf_roundtrip c18_injective","The lookup tables are built by the model of init_lookup_cell; a table index out of range would be a panic (none).")
c("C19","proved","c19_square c19_square_unique c19_every_square","Also: the square is unique, it determines the cell, and every aligned square is the square of a cell.")
c("C20","proved","c20_curve_continuous c20_leaves","")
c("C21","proved","c21_closed_curve","For every level; cubePt is the gluing of the six faces on the cube.")
c("C22","proved","c22_centre c22_real","For center_uv and raw_point, c22_real holds for every rounding function.")
c("C23","proved","c23_edge_neighbors c23_exact c23_symmetric","For every rounding function with the IEEE error bound.")
c("C24","proved","c24_vertex_neighbors c24_leaf_level_panics","The second theorem records that vertex_neighbors(30) panics with overflow checks.")
c("C25","proved","c25_all_neighbors","For every rounding function with the IEEE error bound.")
c("C41","proved","c41_expand_exact c41_expand_covers","expand_by_radius is not modelled.")

c("C42","proved","c42_covering_covers c42_covering_tight","Region methods are arbitrary oracles; the priority queue may return any element.")
c("C43","proved","c43_levels c43_levelMod_zero","c43_levelMod_zero records that level_mod = 0, allowed by the documentation, gives cells above max_level.")
c("C44","proved","c44_interior")
c("C45","proved","c45_terminates","For levels up to 30 and level_mod 1 to 3.")
c("C46","proved","c46_fastCovering_covers c46_fastCovering_levels c46_fastCovering_count")
c("C47","proved","c47_count")
c("C67","proved","c67_clamp_range c67_clamp_id c67_clamp_between c67_clamp_nearest")

c("C48","proved","R1.c48_isEmpty R1.c48_contains R1.c48_containsInterval R1.c48_interiorContainsInterval R1.c48_intersects R1.c48_interiorIntersects R1.c48_intersection R1.c48_union R1.c48_addPoint R1.c48_fromPoints R1.c48_eq R1.c48_clampPoint R1.c48_empty R1.c48_center","Exact for floats: these functions only compare.")
c("C49","proved","R1.c49_expanded R1.c49_shrunk R1.c49_rounded R1.c49_hausdorff R1.c49_hausdorff_empty R1.c49_approxEq","expanded is exact in exact arithmetic; c49_rounded covers any monotone rounding.")
c("C50","proved","S1.c50_contains S1.c50_fastContains S1.c50_isEmpty_isFull S1.c50_containsInterval S1.c50_interiorContainsInterval S1.c50_intersects S1.c50_interiorIntersects","Exact for floats: these functions only compare. PI is a positive parameter.")
c("C51","proved","S1.c51_union S1.c51_union_min S1.c51_union_comm S1.c51_intersection S1.c51_intersection_exact S1.c51_intersection_min S1.c51_intersection_arc S1.c51_len","Validity and inclusion hold for any rounding; minimality and exactness for exact lengths.")
c("C52","proved","S1.c52_complement S1.c52_involution S1.c52_center","The centre theorem is for exact arithmetic.")
c("C53","proved","S1.c53_new S1.c53_fromPointPair S1.c53_fromPointPair_len S1.c53_addPoint S1.c53_addPoint_min S1.c53_addPoint_ignored","Validity and inclusion hold for any rounding; lengths are exact.")
c("C54","proved","S1.c54_valid S1.c54_grow S1.c54_shrink S1.c54_fixed","Validity holds for any rounding; the rest for exact arithmetic. The IEEE remainder is a parameter with its specification (IsRem).")
c("C55","proved","R2.c55_containsPoint R2.c55_isEmpty R2.c55_contains R2.c55_intersects R2.c55_interiorIntersects R2.c55_union R2.c55_addPoint R2.c55_fromPoints R2.c55_eq R2.c55_clampPoint R2.c55_vertices R2.c55_intersection R2.c55_expanded R2.c55_fromCenterSize R2.c55_fromPoints_nil","c55_fromPoints_nil records that from_points of an empty slice is not the empty rectangle.")
c("C66","proved","R2.c66_cmp R2.c66_laws R2.c66_add_sub R2.c66_mul_wrong","c66_mul_wrong is the witness for the product.")
c("C70","proved","S1.c70_hausdorff S1.c70_hausdorff_empty","Exact arithmetic.")

c("C56","proved","S2.c56_points S2.c56_containsLatLng S2.c56_interiorContainsLatLng S2.c56_isEmpty S2.c56_isFull S2.c56_contains S2.c56_interiorContains S2.c56_intersects S2.c56_union S2.c56_union_min S2.c56_empty_full S2.c56_intersection S2.c56_intersection_exact S2.c56_polarClosure","PI is a parameter of at least 2. Minimality of union is for exact arithmetic.")
c("C57","proved","S2.c57_from S2.c57_from_fails S2.c57_add S2.c57_fromPointPair","c57_from_fails is the witness at longitude -180 degrees.")
c("C71","proved","S2.c71_normalized S2.c71_normalized_id","The IEEE remainder is a parameter with its specification (IsRem).")
c("C72","proved","S2.c72_expanded S2.c72_center S2.c72_vertex","Exact arithmetic.")
c("C58","proved","S2.Metric.c58_maxLevel S2.Metric.c58_minLevel S2.Metric.c58_minLevel_area S2.Metric.c58_minLevel_area_wrong S2.Metric.c58_minLevel_zero S2.Metric.c58_range S2.Metric.c58_closestLevel","Exact quotient; minLevel_quotient and maxLevel_quotient state the same of a rounded quotient. Doubles below 2^-1100 do not exist, hence the lower bound on v.")

c("C59","proved","c59_stToUV_strictMono c59_stToUV_ends c59_stToUV_range c59_stToUV_odd c59_uvToST_stToUV c59_stToUV_uvToST c59_stToUV_rounded c59_uvToST_rounded","Exact arithmetic over any ordered field with a square root; the last two theorems are monotonicity for every monotone rounding exact at a few constants.")
c("C60","proved","c60_face c60_uv c60_roundtrip c60_range c60_projection c60_faceXYZtoUV","c60_uv and c60_range hold with rounding; c60_projection is for exact arithmetic.")
c("C73","proved","c73_frame c73_uvwFace c73_norms","Exact for floats as far as the functions only negate and permute.")
c("C61","proved","c61_total c61_contains c61_containsPoint c61_roundtrip c61_tolerance","c61_total holds for every rounding function. With rounding (IEEE error bound) the exact projection of the point is in the leaf's exact (u,v) rectangle up to 2^-44, and in it exactly in exact arithmetic; the round trip from a cell's centre is exact with rounding.")
c("C68","proved","c68_from c68_children c68_leaf c68_nested c68_disjoint c68_union","c68_from, c68_children and c68_leaf hold for every rounding function; the others for every monotone one that leaves 0, 1/2, 1 and 2 unchanged.")
c("C74","proved","c74_cmp c74_cmp_trans c74_dot_comm c74_cross_anti c74_ortho_odd c74_pointCross_odd c74_chordAngle c74_components c74_products c74_normalize c74_ortho c74_pointCross c74_frame","The exact laws hold for every odd rounding function; the geometric ones are for exact arithmetic.")
c("C75","proved","c75_vertex c75_edge c75_containsPoint","For exact arithmetic.")
c("C62","proved","c62_sign_anti c62_sign_exact c62_triage_sound c62_triage_complete c62_triage_swap c62_stable_sound c62_stable_rotate c62_robust_equal c62_robust_sound c62_robust_complete c62_robust_consistent c62_robust_laws c62_exact_laws c62_exact_degenerate c62_equator c62_ordered c62_ordered_anti c62_ordered_equal c62_ordered_ends c62_ordered_defect","Soundness and completeness hold for every rounding with the IEEE error bound. The documented law (1) of robust_sign and property (5) of ordered_ccw are proved to fail for points of one great circle (c62_exact_degenerate, c62_equator, c62_ordered_defect): exact_sign is a stub. c62_exact_laws is for exact arithmetic.")
c("C65","proved","c65_exact c65_range c65_nonneg c65_near c65_fixed c65_seam","c65_seam is the witness, with IEEE rounding and the constant PI, that the documented half-open interval is not respected.")
c("C76","proved","c76_angle c76_deg c76_range c76_nearest","For every rounding with the IEEE error bound.")
c("C63","proved","c63_add_range c63_add_comm c63_add_units c63_sub_laws c63_fromSquaredLength c63_special c63_expanded c63_fromAngle c63_toAngle c63_add_exact c63_sub_exact c63_add_mono c63_convert c63_trig c63_add_near c63_sub_near","The laws with rounding hold for monotone roundings that leave 0 and 1 unchanged; the error bounds for such roundings with the IEEE error bound, for operands whose quarter is exact (every f64 of at least 2^-1020). sin and asin of the library are assumed monotone for the order of conversions.")
c("C77","proved","c77_near c77_maxPointError_defect","For every rounding with the IEEE error bound; the counter-example is with IEEE rounding.")
c("C64","proved","c64_empty_full c64_addPoint c64_addCap c64_eq c64_containsPoint_near c64_containsPoint c64_contains c64_intersects c64_interiorIntersects c64_complement c64_addCap_exact c64_expanded c64_area c64_intersects_defect c64_interior_defect c64_southPole_defect c64_longitude_defect c64_union_defect c64_approxEq_defect","The first five hold with rounding, the others in exact arithmetic over the reals; the theorems named defect are witnesses of wrong results. c64_union_defect holds for every distance function that gives pi for antipodes and every interpolation that gives a unit vector.")
c("C78","proved","c78_sumEqual c78_intersectsFace c78_oppositeEdges c78_exitAxis c78_exitPoint","With IEEE rounding (round to nearest, ties to even) defined in Proofs/RNE.lean; overflow to infinity is not modelled.")
c("C79","proved","c79_clipEdgeBound c79_clipEdge c79_clippedEdgeBound c79_inside c79_edgeIntersectsRect c79_interpolate c79_interpolate_ends c79_clipEdge_near c79_clipEdge_f64 c79_clipEdgeBound_defect c79_interpolate_defect","c79_clipEdgeBound, c79_clipEdge, c79_clippedEdgeBound and c79_edgeIntersectsRect are for exact arithmetic; c79_inside and c79_clipEdge_near for any rounding; the others with IEEE rounding. interpolate is shown to stay between a1 and b1 when these are equal or differ by at least 2^-170. The two theorems with suffix _defect state where the documented behaviour fails.")
c("C80","proved","c80_missed c80_missed_f64 c80_outside","Witnesses of wrong results.")
c("C81","proved","c81_swap_first c81_symmetry c81_exact c81_rounded c81_underflow","c81_swap_first for any odd rounding, c81_symmetry for any odd rounding without underflow, c81_rounded for any rounding with the IEEE error bound, c81_underflow with IEEE rounding.")
c("C82","proved","c82_updateMin c82_distance c82_project c82_updateMax","Exact arithmetic over the reals.")
c("C83","proved","c83_interpolateAt c83_interpolate c83_onEdge","Exact arithmetic over the reals; sin, cos, sqrt and atan2 are the real functions.")
c("C84","proved","c84_shapeEdgeID c84_emptyFull c84_edge_defect","c84_edge_defect is a witness of wrong results.")
c("C85","proved","c85_skewedInt c85_cellid c85_frame c85_sample","The draws are arguments of the model. c85_frame and c85_sample are for exact arithmetic.")
c("C86","proved","c86_valid c86_toPoint c86_roundTrip c86_distance","c86_valid is with IEEE rounding after every step, sqrt and atan2 correctly rounded; the others are for exact arithmetic. atan2 is any function that gives the polar angle (IsArg).")
c("C87","proved","c87_rectBound c87_tight","Exact arithmetic over the reals; atan2 is any function that gives the polar angle (IsArg), the IEEE remainder is a parameter with its specification (IsRem), DBL_EPSILON is any number in [0,1] (in [0,1/4] for c87_tight).")
c("C88","proved","c88_capBound","Exact arithmetic over the reals.")
c("C89","proved","c89_capBound","Exact arithmetic over the reals; the IEEE remainder is a parameter with its specification (IsRem).")
c("C90","proved","c90_distance","Exact arithmetic over the reals.")
c("C91","proved","c91_containsCell","Exact arithmetic over the reals; parameters as for C87.")
c("C92","proved","c92_area c92_centroid","Exact arithmetic over the reals; interval integrals of Mathlib.")
c("C93","proved","c93_latEdge c93_boundary","Exact arithmetic over the reals; atan2 is any function that gives the polar angle (IsArg).")
c("C94","proved","c94_sound c94_missed","Exact arithmetic over the reals; parameters as for C87. c94_missed is the witness that the test is not exact.")
c("C95","proved","c95_edges c95_tight c95_subregions","Exact arithmetic over the reals; parameters as for C87; the error margins of the code are parameters (Margins.code gives their values).")
c("C96","proved","c96_contains c96_margin c96_missed rne_f64_exact rne_f64_nearest rne_f64_double","f64 arithmetic: rne, rounding to nearest with ties to even, gradual underflow, no overflow (the rne_f64 theorems compare it with the doubles as IEEE 754 encodes them); sqrt correctly rounded. c96_missed is the witness against the comment.")
c("C97","proved","c97_intersects_complete c97_intersects_sound c97_contains","Exact arithmetic over the reals; eps, the margin of Cell::contains_point, is any number of at least zero.")
c("C98","proved","c98_covers","Exact arithmetic over the reals (the rounding inside vertex_neighbors is any Rounding).")
c("C99","proved","c99_covering c99_tight c99_interior c99_fastCovering","Exact arithmetic over the reals (the rounding inside vertex_neighbors is any Rounding); eps, the margin of Cell::contains_point, is any number of at least zero; the order of the priority queue is arbitrary (pick).")
c("C100","proved","c100_pointArea c100_coincident c100_collinear c100_around","Exact arithmetic over the reals; sqrt, tan, atan are the real functions, atan2 any function that satisfies its specification (IsAtan2). Area is three times the Lebesgue measure of the cone inside the unit ball.")
c("C101","proved","c101_exactArea","As C100.")
c("C102","proved","c102_bounds c102_max_exceeded c102_average c102_exactArea_children c102_coarse","As C100. The accuracy of approx_area from level 2 on (a comment claims 3%) is not claimed.")
c("C103","proved","c103_trueCentroid c103_orientation c103_split c103_degenerate c103_planarCentroid","Exact arithmetic over the reals; sqrt, sin are the real functions, atan2 any function that satisfies its specification (IsAtan2). The integral over the sphere is four times the integral over the cone inside the unit ball.")
c("C104","proved","c104_circle c104_spacing c104_polygon","Exact arithmetic over the reals; sqrt, sin, cos, PI are the real ones. The matrix product of cgmath is modelled by scalar products with the rows.")
c("C105","proved","c105_covers c105_exact c105_overflow","Exact arithmetic over the reals (the rounding inside all_neighbors is any Rounding). Overflow of u64 is modelled as a panic, as in builds with overflow checks.")
c("C106","proved","c106_capBound c106_rectBound c106_cellUnionBound c106_covering c106_interior c106_fastCovering c106_cell c106_point","Exact arithmetic over the reals (the rounding inside the search for neighbours is any Rounding). A point is a unit vector.")
c("C107","proved","c107_exactArea c107_same c107_whole c107_average_leaves c107_average","Exact arithmetic over the reals; the area of a set is three times the volume of its cone in the unit ball. approx_area is modelled, its accuracy is not claimed.")
c("C108","proved","c108_cellUnionBound c108_fastCovering c108_interior c108_tight c108_missed","Exact arithmetic over the reals; the queue is any selection function. c108_missed is the witness that covering is not a covering.")
c("C109","proved","c109_span c109_edge c109_width c109_width_max c109_diameter c109_diag c109_center c109_share c109_neighbors c109_next c109_minLevel c109_edge_sharp c109_diag_sharp c109_span_sharp c109_width_sharp c109_literals","Exact arithmetic over the reals; the minimal constants are the exact values of their expressions, the maximal constants the doubles of the program. The averages and aspect ratios are not covered.")
c("C110","proved","c110_directed c110_symmetric c110_empty","Exact arithmetic over the reals. Excluded: a second rectangle from pole to pole whose longitudes do not contain those of the first; its side is then an edge with antipodal ends.")
c("C111","proved","c111_ofF64 c111_new c111_algebra c111_mulF64 c111_eq c111_isUnit c111_orientation c111_cross c111_components c111_components_agree","The arithmetic of the crate bigdecimal (not in the repository) is modelled as digits and scale, with unbounded integers. The conversion back to f64 and prec_str are not modelled.")
c("C112","proved","S1.c112_circle S1.c112_empty_full S1.c112_symm S1.c112_circle_defect R1.c112_line R2.c112_plane S2.c112_rect S2.c112_rect_defect","Exact arithmetic. The operator % keeps the sign of the dividend; the original library uses the IEEE remainder here. c112_circle_defect and c112_rect_defect state the failure.")
c("C113","proved","c113_segments c113_cover c113_joined","Exact arithmetic over the reals; square root exact. With rounding see C114.")
c("C114","proved","c114_loop c114_segments c114_interior c114_diverges","Overflow is not modelled. c114_interior covers the fast path of move_origin_to_valid_face; its slow path is covered by the hypothesis of c114_segments that the line meets the chosen faces. c114_diverges is the defect.")
c("C115","proved","c115_direction c115_roundtrip c115_cell c115_latlng","sin and cos are assumed with relative errors of at most 2^-52, atan2 with an absolute error of at most 2^-51 (NearRel, NearArg); overflow is not modelled.")
c("C116","proved","c116_point c116_symmetric c116_self c116_latlng c116_range","sin and cos are assumed with relative errors of at most 2^-52, atan2 with an absolute error of at most 2^-51 in the upper half plane; c116_range assumes a correctly rounded atan2. Overflow is not modelled.")
c("C117","proved","c117_normalize c117_fromCoords c117_underflow c117_ortho c117_frame c117_roundtrip c117_cross c117_cross_defect","c117_underflow and c117_cross_defect show by IEEE doubles that the limits are needed and that the documentation of from_coords and Point::cross is not met outside them. The matrix products of cgmath are modelled as scalar products. Overflow is not modelled.")
c("C118","proved","c118_interpolateAt c118_interpolate c118_same","sin and cos have a relative error of at most 2^-52, atan2 an absolute error of at most 2^-51. Points nearer than 2^-47 (or as nearly opposite) but not equal are not covered. Overflow is not modelled.")
c("C119","proved","c119_origin c119_moves","The stated tolerance is 2^-48, about 2.5 times FACE_CLIP_ERROR_UV_COORD. Overflow is not modelled.")
c("C120","proved","c120_updateMin c120_short c120_fine c120_segment c120_keep","The square root of the exact value is rounded (sqrt exact in the model, its result rounded by fl). Shorter edges and edges near a half circle are covered only for exact arithmetic (C82). Overflow is not modelled.")
c("C121","proved","c121_project c121_onEdge","Shorter edges, edges near a half circle and points farther than 60 degrees from the edge are covered only for exact arithmetic. Overflow is not modelled.")
c("C122","proved","c122_updateMax","The coordinates of x are assumed to be doubles (their negation is exact). Shorter edges and edges near a half circle are covered only for exact arithmetic (C82). Overflow is not modelled.")
c("C123","proved","c123_capBound c123_exactCell","Stated for every rounding with relative error 2^-53 that is monotone and keeps zero, so for IEEE round to nearest even. In c123_capBound the points of the cell are those of its computed rectangle; c123_exactCell is about the exact cell. Overflow is not modelled.")
c("C124","proved","c124_successor c124_successor_value c124_nextafter c124_compare","nextafter comes from the C library and is modelled from its usual implementation on the bits. NaN is excluded.")
c("C125","proved","c125_normalize_exact c125_normalize","hypot comes from the C library: it is a parameter, and its accuracy is a hypothesis.")
