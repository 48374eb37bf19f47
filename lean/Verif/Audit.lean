import Verif.Properties.CellID
import Verif.Properties.CellIDText
import Verif.Properties.CellUnion
import Verif.Properties.Hilbert
import Verif.Properties.Neighbors
import Verif.Properties.VertexNeighbors
import Verif.Properties.Expand
import Verif.Properties.Coverer
import Verif.Properties.Consts
import Verif.Properties.R1
import Verif.Properties.R2
import Verif.Properties.S1
import Verif.Properties.S1Ops
import Verif.Properties.S1Expand
import Verif.Properties.S1Hausdorff
import Verif.Properties.S2Rect
import Verif.Properties.Metric
import Verif.Properties.Stuv
import Verif.Properties.Cell
import Verif.Properties.CellGeom
import Verif.Properties.PointCell
import Verif.Properties.Vector
import Verif.Properties.PointRound
import Verif.Properties.Predicates
import Verif.Properties.Orient
import Verif.Properties.Angle
import Verif.Properties.ChordAngle
import Verif.Properties.ChordRound
import Verif.Properties.Cap
import Verif.Properties.CapExact
import Verif.Properties.CapDefects
import Verif.Properties.EdgeExact
import Verif.Properties.EdgeClip
import Verif.Properties.EdgeInterp
import Verif.Properties.EdgeDefects
import Verif.Properties.Crossing
import Verif.Properties.EdgeDist
import Verif.Properties.EdgeInterpolate
import Verif.Properties.Shape
import Verif.Properties.Random
import Verif.Properties.LatLng
import Verif.Properties.CellBound
import Verif.Properties.RectExact
import Verif.Properties.RectCell
import Verif.Properties.RectBounder
import Verif.Properties.LeafUlp
import Verif.Properties.CapCell
import Verif.Properties.CapUnion
import Verif.Properties.Area
import Verif.Properties.CellArea
import Verif.Properties.CellAreaBound
import Verif.Properties.CellAreaMax
import Verif.Properties.Centroid
import Verif.Properties.ExpandRadius
import Verif.Properties.UnionRegion
import Verif.Properties.UnionArea
import Verif.Properties.RectCover
import Verif.Properties.CellSharp
import Verif.Properties.RectHausdorff
import Verif.Properties.Precise
import Verif.Properties.Approx
import Verif.Properties.FaceSegments
import Verif.Properties.FaceRound
import Verif.Properties.LatLngRound
import Verif.Properties.DistRound
import Verif.Properties.VecRound
import Verif.Properties.InterpolateRound
import Verif.Properties.OriginRound
import Verif.Properties.EdgeDistRound
import Verif.Properties.ProjectRound
import Verif.Properties.MaxDistRound
import Verif.Properties.CapBoundRound
import Verif.Properties.F64
import Verif.Properties.RNEBits
import Verif.Properties.R2Norm

/-! Axioms of every theorem named in MANIFEST.json (generated by tools/gen_manifest.py). -/

-- C01
#print axioms Verif.c01_isValid_iff
#print axioms Verif.c01_isValid_panics_iff
#print axioms Verif.c01_level_face
#print axioms Verif.c01_num_injective
-- C02
#print axioms Verif.c02_range
-- C03
#print axioms Verif.c03_contains
#print axioms Verif.c03_contains_iff
#print axioms Verif.c03_refl
#print axioms Verif.c03_trans
#print axioms Verif.c03_antisymm
-- C04
#print axioms Verif.c04_intersects
-- C05
#print axioms Verif.c05_parent
#print axioms Verif.c05_parent_parent
#print axioms Verif.c05_immediateParent
#print axioms Verif.c05_isFace
-- C06
#print axioms Verif.c06_children
-- C07
#print axioms Verif.c07_childIterAtLevel
#print axioms Verif.c07_childIter
-- C08
#print axioms Verif.c08_next_prev
#print axioms Verif.c08_next_adjacent
-- C09
#print axioms Verif.c09_wrap_inverse
#print axioms Verif.c09_wrap_cycle
-- C10
#print axioms Verif.c10_advanceWrap
#print axioms Verif.c10_advanceWrap_add
-- C100
#print axioms Verif.c100_pointArea
#print axioms Verif.c100_coincident
#print axioms Verif.c100_collinear
#print axioms Verif.c100_around
-- C101
#print axioms Verif.c101_exactArea
-- C102
#print axioms Verif.c102_bounds
#print axioms Verif.c102_max_exceeded
#print axioms Verif.c102_average
#print axioms Verif.c102_exactArea_children
#print axioms Verif.c102_coarse
-- C103
#print axioms Verif.c103_trueCentroid
#print axioms Verif.c103_orientation
#print axioms Verif.c103_split
#print axioms Verif.c103_degenerate
#print axioms Verif.c103_planarCentroid
-- C104
#print axioms Verif.c104_circle
#print axioms Verif.c104_spacing
#print axioms Verif.c104_polygon
-- C105
#print axioms Verif.c105_covers
#print axioms Verif.c105_exact
#print axioms Verif.c105_overflow
-- C106
#print axioms Verif.c106_capBound
#print axioms Verif.c106_rectBound
#print axioms Verif.c106_cellUnionBound
#print axioms Verif.c106_covering
#print axioms Verif.c106_interior
#print axioms Verif.c106_fastCovering
#print axioms Verif.c106_cell
#print axioms Verif.c106_point
-- C107
#print axioms Verif.c107_exactArea
#print axioms Verif.c107_same
#print axioms Verif.c107_whole
#print axioms Verif.c107_average_leaves
#print axioms Verif.c107_average
-- C108
#print axioms Verif.c108_cellUnionBound
#print axioms Verif.c108_fastCovering
#print axioms Verif.c108_interior
#print axioms Verif.c108_tight
#print axioms Verif.c108_missed
-- C109
#print axioms Verif.c109_span
#print axioms Verif.c109_edge
#print axioms Verif.c109_width
#print axioms Verif.c109_width_max
#print axioms Verif.c109_diameter
#print axioms Verif.c109_diag
#print axioms Verif.c109_center
#print axioms Verif.c109_share
#print axioms Verif.c109_neighbors
#print axioms Verif.c109_next
#print axioms Verif.c109_minLevel
#print axioms Verif.c109_edge_sharp
#print axioms Verif.c109_diag_sharp
#print axioms Verif.c109_span_sharp
#print axioms Verif.c109_width_sharp
#print axioms Verif.c109_literals
-- C11
#print axioms Verif.c11_advance
-- C110
#print axioms Verif.c110_directed
#print axioms Verif.c110_symmetric
#print axioms Verif.c110_empty
-- C111
#print axioms Verif.c111_ofF64
#print axioms Verif.c111_new
#print axioms Verif.c111_algebra
#print axioms Verif.c111_mulF64
#print axioms Verif.c111_eq
#print axioms Verif.c111_isUnit
#print axioms Verif.c111_orientation
#print axioms Verif.c111_cross
#print axioms Verif.c111_components
#print axioms Verif.c111_components_agree
-- C112
#print axioms Verif.S1.c112_circle
#print axioms Verif.S1.c112_empty_full
#print axioms Verif.S1.c112_symm
#print axioms Verif.S1.c112_circle_defect
#print axioms Verif.R1.c112_line
#print axioms Verif.R2.c112_plane
#print axioms Verif.S2.c112_rect
#print axioms Verif.S2.c112_rect_defect
-- C113
#print axioms Verif.c113_segments
#print axioms Verif.c113_cover
#print axioms Verif.c113_joined
-- C114
#print axioms Verif.c114_loop
#print axioms Verif.c114_segments
#print axioms Verif.c114_interior
#print axioms Verif.c114_diverges
-- C115
#print axioms Verif.c115_direction
#print axioms Verif.c115_roundtrip
#print axioms Verif.c115_cell
#print axioms Verif.c115_latlng
-- C116
#print axioms Verif.c116_point
#print axioms Verif.c116_symmetric
#print axioms Verif.c116_self
#print axioms Verif.c116_latlng
#print axioms Verif.c116_range
-- C117
#print axioms Verif.c117_normalize
#print axioms Verif.c117_fromCoords
#print axioms Verif.c117_underflow
#print axioms Verif.c117_ortho
#print axioms Verif.c117_frame
#print axioms Verif.c117_roundtrip
#print axioms Verif.c117_cross
#print axioms Verif.c117_cross_defect
-- C118
#print axioms Verif.c118_interpolateAt
#print axioms Verif.c118_interpolate
#print axioms Verif.c118_same
-- C119
#print axioms Verif.c119_origin
#print axioms Verif.c119_moves
-- C12
#print axioms Verif.c12_commonAncestorLevel
-- C120
#print axioms Verif.c120_updateMin
#print axioms Verif.c120_short
#print axioms Verif.c120_fine
#print axioms Verif.c120_segment
#print axioms Verif.c120_keep
-- C121
#print axioms Verif.c121_project
#print axioms Verif.c121_onEdge
-- C122
#print axioms Verif.c122_updateMax
-- C123
#print axioms Verif.c123_capBound
#print axioms Verif.c123_exactCell
-- C124
#print axioms Verif.c124_successor
#print axioms Verif.c124_successor_value
#print axioms Verif.c124_nextafter
#print axioms Verif.c124_compare
-- C125
#print axioms Verif.c125_normalize_exact
#print axioms Verif.c125_normalize
-- C13
#print axioms Verif.c13_childPosition
#print axioms Verif.c13_positions_determine
#print axioms Verif.c13_debug_text
#print axioms Verif.c13_debug_injective
#print axioms Verif.c13_debug_zero_panics
-- C14
#print axioms Verif.c14_roundtrip
#print axioms Verif.c14_injective
#print axioms Verif.c14_shape
#print axioms Verif.c14_fromToken
#print axioms Verif.c14_plus_accepted
-- C15
#print axioms Verif.c15_fromFacePosLevel
#print axioms Verif.c15_roundtrip
#print axioms Verif.c15_fromFace
-- C16
#print axioms Verif.c16_maxTile
-- C17
#print axioms Verif.c17_fromRange
-- C18
#print axioms Verif.c18_ij_roundtrip
#print axioms Verif.c18_leaf_roundtrip
#print axioms Verif.c18_injective
-- C19
#print axioms Verif.c19_square
#print axioms Verif.c19_square_unique
#print axioms Verif.c19_every_square
-- C20
#print axioms Verif.c20_curve_continuous
#print axioms Verif.c20_leaves
-- C21
#print axioms Verif.c21_closed_curve
-- C22
#print axioms Verif.c22_centre
#print axioms Verif.c22_real
-- C23
#print axioms Verif.c23_edge_neighbors
#print axioms Verif.c23_exact
#print axioms Verif.c23_symmetric
-- C24
#print axioms Verif.c24_vertex_neighbors
#print axioms Verif.c24_leaf_level_panics
-- C25
#print axioms Verif.c25_all_neighbors
-- C26
#print axioms Verif.c26_normalize_covers
-- C27
#print axioms Verif.c27_normalize_normal
-- C28
#print axioms Verif.c28_canonical
#print axioms Verif.c28_fixed
#print axioms Verif.c28_order_irrelevant
#print axioms Verif.c28_minimal
-- C29
#print axioms Verif.c29_containsCellID
#print axioms Verif.c29_containsCellID_union
-- C30
#print axioms Verif.c30_intersectsCellID
-- C31
#print axioms Verif.c31_search_total
#print axioms Verif.c31_search_partition
-- C32
#print axioms Verif.c32_merge
#print axioms Verif.c32_union
#print axioms Verif.c32_union_comm
#print axioms Verif.c32_union_assoc
#print axioms Verif.c32_union_idem
-- C33
#print axioms Verif.c33_intersection
-- C34
#print axioms Verif.c34_intersectionWithCellID
#print axioms Verif.c34_agrees
-- C35
#print axioms Verif.c35_difference
-- C36
#print axioms Verif.c36_containsCellUnion
#print axioms Verif.c36_intersectsCellUnion
-- C37
#print axioms Verif.c37_denormalize
#print axioms Verif.c37_denormalize_any
#print axioms Verif.c37_rule_fails_for_mod4
-- C38
#print axioms Verif.c38_leafCellCovered
-- C39
#print axioms Verif.c39_isValid
#print axioms Verif.c39_isNormalized
-- C40
#print axioms Verif.c40_split
#print axioms Verif.c40_absorption
#print axioms Verif.c40_distrib
#print axioms Verif.c40_deMorgan
#print axioms Verif.c40_order
#print axioms Verif.wholeSphere_spec
-- C41
#print axioms Verif.c41_expand_exact
#print axioms Verif.c41_expand_covers
-- C42
#print axioms Verif.c42_covering_covers
#print axioms Verif.c42_covering_tight
-- C43
#print axioms Verif.c43_levels
#print axioms Verif.c43_levelMod_zero
-- C44
#print axioms Verif.c44_interior
-- C45
#print axioms Verif.c45_terminates
-- C46
#print axioms Verif.c46_fastCovering_covers
#print axioms Verif.c46_fastCovering_levels
#print axioms Verif.c46_fastCovering_count
-- C47
#print axioms Verif.c47_count
-- C48
#print axioms Verif.R1.c48_isEmpty
#print axioms Verif.R1.c48_contains
#print axioms Verif.R1.c48_containsInterval
#print axioms Verif.R1.c48_interiorContainsInterval
#print axioms Verif.R1.c48_intersects
#print axioms Verif.R1.c48_interiorIntersects
#print axioms Verif.R1.c48_intersection
#print axioms Verif.R1.c48_union
#print axioms Verif.R1.c48_addPoint
#print axioms Verif.R1.c48_fromPoints
#print axioms Verif.R1.c48_eq
#print axioms Verif.R1.c48_clampPoint
#print axioms Verif.R1.c48_empty
#print axioms Verif.R1.c48_center
-- C49
#print axioms Verif.R1.c49_expanded
#print axioms Verif.R1.c49_shrunk
#print axioms Verif.R1.c49_rounded
#print axioms Verif.R1.c49_hausdorff
#print axioms Verif.R1.c49_hausdorff_empty
#print axioms Verif.R1.c49_approxEq
-- C50
#print axioms Verif.S1.c50_contains
#print axioms Verif.S1.c50_fastContains
#print axioms Verif.S1.c50_isEmpty_isFull
#print axioms Verif.S1.c50_containsInterval
#print axioms Verif.S1.c50_interiorContainsInterval
#print axioms Verif.S1.c50_intersects
#print axioms Verif.S1.c50_interiorIntersects
-- C51
#print axioms Verif.S1.c51_union
#print axioms Verif.S1.c51_union_min
#print axioms Verif.S1.c51_union_comm
#print axioms Verif.S1.c51_intersection
#print axioms Verif.S1.c51_intersection_exact
#print axioms Verif.S1.c51_intersection_min
#print axioms Verif.S1.c51_intersection_arc
#print axioms Verif.S1.c51_len
-- C52
#print axioms Verif.S1.c52_complement
#print axioms Verif.S1.c52_involution
#print axioms Verif.S1.c52_center
-- C53
#print axioms Verif.S1.c53_new
#print axioms Verif.S1.c53_fromPointPair
#print axioms Verif.S1.c53_fromPointPair_len
#print axioms Verif.S1.c53_addPoint
#print axioms Verif.S1.c53_addPoint_min
#print axioms Verif.S1.c53_addPoint_ignored
-- C54
#print axioms Verif.S1.c54_valid
#print axioms Verif.S1.c54_grow
#print axioms Verif.S1.c54_shrink
#print axioms Verif.S1.c54_fixed
-- C55
#print axioms Verif.R2.c55_containsPoint
#print axioms Verif.R2.c55_isEmpty
#print axioms Verif.R2.c55_contains
#print axioms Verif.R2.c55_intersects
#print axioms Verif.R2.c55_interiorIntersects
#print axioms Verif.R2.c55_union
#print axioms Verif.R2.c55_addPoint
#print axioms Verif.R2.c55_fromPoints
#print axioms Verif.R2.c55_eq
#print axioms Verif.R2.c55_clampPoint
#print axioms Verif.R2.c55_vertices
#print axioms Verif.R2.c55_intersection
#print axioms Verif.R2.c55_expanded
#print axioms Verif.R2.c55_fromCenterSize
#print axioms Verif.R2.c55_fromPoints_nil
-- C56
#print axioms Verif.S2.c56_points
#print axioms Verif.S2.c56_containsLatLng
#print axioms Verif.S2.c56_interiorContainsLatLng
#print axioms Verif.S2.c56_isEmpty
#print axioms Verif.S2.c56_isFull
#print axioms Verif.S2.c56_contains
#print axioms Verif.S2.c56_interiorContains
#print axioms Verif.S2.c56_intersects
#print axioms Verif.S2.c56_union
#print axioms Verif.S2.c56_union_min
#print axioms Verif.S2.c56_empty_full
#print axioms Verif.S2.c56_intersection
#print axioms Verif.S2.c56_intersection_exact
#print axioms Verif.S2.c56_polarClosure
-- C57
#print axioms Verif.S2.c57_from
#print axioms Verif.S2.c57_from_fails
#print axioms Verif.S2.c57_add
#print axioms Verif.S2.c57_fromPointPair
-- C58
#print axioms Verif.S2.Metric.c58_maxLevel
#print axioms Verif.S2.Metric.c58_minLevel
#print axioms Verif.S2.Metric.c58_minLevel_area
#print axioms Verif.S2.Metric.c58_minLevel_area_wrong
#print axioms Verif.S2.Metric.c58_minLevel_zero
#print axioms Verif.S2.Metric.c58_range
#print axioms Verif.S2.Metric.c58_closestLevel
-- C59
#print axioms Verif.c59_stToUV_strictMono
#print axioms Verif.c59_stToUV_ends
#print axioms Verif.c59_stToUV_range
#print axioms Verif.c59_stToUV_odd
#print axioms Verif.c59_uvToST_stToUV
#print axioms Verif.c59_stToUV_uvToST
#print axioms Verif.c59_stToUV_rounded
#print axioms Verif.c59_uvToST_rounded
-- C60
#print axioms Verif.c60_face
#print axioms Verif.c60_uv
#print axioms Verif.c60_roundtrip
#print axioms Verif.c60_range
#print axioms Verif.c60_projection
#print axioms Verif.c60_faceXYZtoUV
-- C61
#print axioms Verif.c61_total
#print axioms Verif.c61_contains
#print axioms Verif.c61_containsPoint
#print axioms Verif.c61_roundtrip
#print axioms Verif.c61_tolerance
-- C62
#print axioms Verif.c62_sign_anti
#print axioms Verif.c62_sign_exact
#print axioms Verif.c62_triage_sound
#print axioms Verif.c62_triage_complete
#print axioms Verif.c62_triage_swap
#print axioms Verif.c62_stable_sound
#print axioms Verif.c62_stable_rotate
#print axioms Verif.c62_robust_equal
#print axioms Verif.c62_robust_sound
#print axioms Verif.c62_robust_complete
#print axioms Verif.c62_robust_consistent
#print axioms Verif.c62_robust_laws
#print axioms Verif.c62_exact_laws
#print axioms Verif.c62_exact_degenerate
#print axioms Verif.c62_equator
#print axioms Verif.c62_ordered
#print axioms Verif.c62_ordered_anti
#print axioms Verif.c62_ordered_equal
#print axioms Verif.c62_ordered_ends
#print axioms Verif.c62_ordered_defect
-- C63
#print axioms Verif.c63_add_range
#print axioms Verif.c63_add_comm
#print axioms Verif.c63_add_units
#print axioms Verif.c63_sub_laws
#print axioms Verif.c63_fromSquaredLength
#print axioms Verif.c63_special
#print axioms Verif.c63_expanded
#print axioms Verif.c63_fromAngle
#print axioms Verif.c63_toAngle
#print axioms Verif.c63_add_exact
#print axioms Verif.c63_sub_exact
#print axioms Verif.c63_add_mono
#print axioms Verif.c63_convert
#print axioms Verif.c63_trig
#print axioms Verif.c63_add_near
#print axioms Verif.c63_sub_near
-- C64
#print axioms Verif.c64_empty_full
#print axioms Verif.c64_addPoint
#print axioms Verif.c64_addCap
#print axioms Verif.c64_eq
#print axioms Verif.c64_containsPoint_near
#print axioms Verif.c64_containsPoint
#print axioms Verif.c64_contains
#print axioms Verif.c64_intersects
#print axioms Verif.c64_interiorIntersects
#print axioms Verif.c64_complement
#print axioms Verif.c64_addCap_exact
#print axioms Verif.c64_expanded
#print axioms Verif.c64_area
#print axioms Verif.c64_intersects_defect
#print axioms Verif.c64_interior_defect
#print axioms Verif.c64_southPole_defect
#print axioms Verif.c64_longitude_defect
#print axioms Verif.c64_union_defect
#print axioms Verif.c64_approxEq_defect
-- C65
#print axioms Verif.c65_exact
#print axioms Verif.c65_range
#print axioms Verif.c65_nonneg
#print axioms Verif.c65_near
#print axioms Verif.c65_fixed
#print axioms Verif.c65_seam
-- C66
#print axioms Verif.R2.c66_cmp
#print axioms Verif.R2.c66_laws
#print axioms Verif.R2.c66_add_sub
#print axioms Verif.R2.c66_mul_wrong
-- C67
#print axioms Verif.c67_clamp_range
#print axioms Verif.c67_clamp_id
#print axioms Verif.c67_clamp_between
#print axioms Verif.c67_clamp_nearest
-- C68
#print axioms Verif.c68_from
#print axioms Verif.c68_children
#print axioms Verif.c68_leaf
#print axioms Verif.c68_nested
#print axioms Verif.c68_disjoint
#print axioms Verif.c68_union
-- C69
#print axioms Verif.c69_token_order
-- C70
#print axioms Verif.S1.c70_hausdorff
#print axioms Verif.S1.c70_hausdorff_empty
-- C71
#print axioms Verif.S2.c71_normalized
#print axioms Verif.S2.c71_normalized_id
-- C72
#print axioms Verif.S2.c72_expanded
#print axioms Verif.S2.c72_center
#print axioms Verif.S2.c72_vertex
-- C73
#print axioms Verif.c73_frame
#print axioms Verif.c73_uvwFace
#print axioms Verif.c73_norms
-- C74
#print axioms Verif.c74_cmp
#print axioms Verif.c74_cmp_trans
#print axioms Verif.c74_dot_comm
#print axioms Verif.c74_cross_anti
#print axioms Verif.c74_ortho_odd
#print axioms Verif.c74_pointCross_odd
#print axioms Verif.c74_chordAngle
#print axioms Verif.c74_components
#print axioms Verif.c74_products
#print axioms Verif.c74_normalize
#print axioms Verif.c74_ortho
#print axioms Verif.c74_pointCross
#print axioms Verif.c74_frame
-- C75
#print axioms Verif.c75_vertex
#print axioms Verif.c75_edge
#print axioms Verif.c75_containsPoint
-- C76
#print axioms Verif.c76_angle
#print axioms Verif.c76_deg
#print axioms Verif.c76_range
#print axioms Verif.c76_nearest
-- C77
#print axioms Verif.c77_near
#print axioms Verif.c77_maxPointError_defect
-- C78
#print axioms Verif.c78_sumEqual
#print axioms Verif.c78_intersectsFace
#print axioms Verif.c78_oppositeEdges
#print axioms Verif.c78_exitAxis
#print axioms Verif.c78_exitPoint
-- C79
#print axioms Verif.c79_clipEdgeBound
#print axioms Verif.c79_clipEdge
#print axioms Verif.c79_clippedEdgeBound
#print axioms Verif.c79_inside
#print axioms Verif.c79_edgeIntersectsRect
#print axioms Verif.c79_interpolate
#print axioms Verif.c79_interpolate_ends
#print axioms Verif.c79_clipEdge_near
#print axioms Verif.c79_clipEdge_f64
#print axioms Verif.c79_clipEdgeBound_defect
#print axioms Verif.c79_interpolate_defect
-- C80
#print axioms Verif.c80_missed
#print axioms Verif.c80_missed_f64
#print axioms Verif.c80_outside
-- C81
#print axioms Verif.c81_swap_first
#print axioms Verif.c81_symmetry
#print axioms Verif.c81_exact
#print axioms Verif.c81_rounded
#print axioms Verif.c81_underflow
-- C82
#print axioms Verif.c82_updateMin
#print axioms Verif.c82_distance
#print axioms Verif.c82_project
#print axioms Verif.c82_updateMax
-- C83
#print axioms Verif.c83_interpolateAt
#print axioms Verif.c83_interpolate
#print axioms Verif.c83_onEdge
-- C84
#print axioms Verif.c84_shapeEdgeID
#print axioms Verif.c84_emptyFull
#print axioms Verif.c84_edge_defect
-- C85
#print axioms Verif.c85_skewedInt
#print axioms Verif.c85_cellid
#print axioms Verif.c85_frame
#print axioms Verif.c85_sample
-- C86
#print axioms Verif.c86_valid
#print axioms Verif.c86_toPoint
#print axioms Verif.c86_roundTrip
#print axioms Verif.c86_distance
-- C87
#print axioms Verif.c87_rectBound
#print axioms Verif.c87_tight
-- C88
#print axioms Verif.c88_capBound
-- C89
#print axioms Verif.c89_capBound
-- C90
#print axioms Verif.c90_distance
-- C91
#print axioms Verif.c91_containsCell
-- C92
#print axioms Verif.c92_area
#print axioms Verif.c92_centroid
-- C93
#print axioms Verif.c93_latEdge
#print axioms Verif.c93_boundary
-- C94
#print axioms Verif.c94_sound
#print axioms Verif.c94_missed
-- C95
#print axioms Verif.c95_edges
#print axioms Verif.c95_tight
#print axioms Verif.c95_subregions
-- C96
#print axioms Verif.c96_contains
#print axioms Verif.c96_margin
#print axioms Verif.c96_missed
#print axioms Verif.rne_f64_exact
#print axioms Verif.rne_f64_nearest
#print axioms Verif.rne_f64_double
-- C97
#print axioms Verif.c97_intersects_complete
#print axioms Verif.c97_intersects_sound
#print axioms Verif.c97_contains
-- C98
#print axioms Verif.c98_covers
-- C99
#print axioms Verif.c99_covering
#print axioms Verif.c99_tight
#print axioms Verif.c99_interior
#print axioms Verif.c99_fastCovering
