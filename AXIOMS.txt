'Igakit.C01_loop_terminates' depends on axioms: [propext, Classical.choice, Quot.sound]
'Igakit.C01_FindSpan' depends on axioms: [propext, Classical.choice, Quot.sound]
'Igakit.C01_span_unique' depends on axioms: [propext, Quot.sound]
'Igakit.C02_FindMult' depends on axioms: [propext, Classical.choice, Quot.sound]
'Igakit.C02_not_a_knot' depends on axioms: [propext, Classical.choice, Quot.sound]
'Igakit.C02_FindSpanMult' depends on axioms: [propext, Classical.choice, Quot.sound]
'Igakit.C03_EvalBasisFuns' depends on axioms: [propext, Classical.choice, Quot.sound]
'Igakit.C03_given_span' depends on axioms: [propext, Classical.choice, Quot.sound]
'Igakit.C04_partition_of_unity' depends on axioms: [propext, Classical.choice, Quot.sound]
'Igakit.C05_Evaluate1' depends on axioms: [propext, Classical.choice, Quot.sound]
'Igakit.C05_Evaluate2' depends on axioms: [propext, Classical.choice, Quot.sound]
'Igakit.C05_Evaluate3' depends on axioms: [propext, Classical.choice, Quot.sound]
'Igakit.C05_locality' depends on axioms: [propext, Classical.choice, Quot.sound]
'Igakit.C05_CurvePoint' depends on axioms: [propext, Classical.choice, Quot.sound]
'Igakit.C05_SurfacePoint' depends on axioms: [propext, Classical.choice, Quot.sound]
'Igakit.C05_call' depends on axioms: [propext, Classical.choice, Quot.sound]
'Igakit.C05_call_rejects' depends on axioms: [propext, Classical.choice, Quot.sound]
'Igakit.C06_convex_hull' depends on axioms: [propext, Classical.choice, Quot.sound]
'Igakit.C06_bounding_box' depends on axioms: [propext, Classical.choice, Quot.sound]
'Igakit.C07_insert' depends on axioms: [propext, Classical.choice, Quot.sound]
'Igakit.C07_insert_none' depends on axioms: [propext, Classical.choice, Quot.sound]
'Igakit.C07_insert_rejects' depends on axioms: [propext, Classical.choice, Quot.sound]
'Igakit.C07_InsertKnot' depends on axioms: [propext, Classical.choice, Quot.sound]
'Igakit.C07_no_uninitialised' depends on axioms: [propext, Classical.choice, Quot.sound]
'Igakit.C08_insert_right_end_wrong' depends on axioms: [propext, Classical.choice, Quot.sound]
'Igakit.C08_right_end_wrong' depends on axioms: [propext, Classical.choice, Quot.sound]
'Igakit.C09_refine' depends on axioms: [propext, Classical.choice, Quot.sound]
'Igakit.C09_refine_perm' depends on axioms: [propext, Quot.sound]
'Igakit.C09_RefineKnotVector' depends on axioms: [propext, Classical.choice, Quot.sound]
'Igakit.C10_slice' depends on axioms: [propext, Classical.choice, Quot.sound]
'Igakit.C10_slice_knots' depends on axioms: [propext, Classical.choice, Quot.sound]
'Igakit.C100_unique' depends on axioms: [propext, Classical.choice, Quot.sound]
'Igakit.C100_memory_partial' depends on axioms: [propext, Classical.choice, Quot.sound]
'Igakit.C100_order_partial' depends on axioms: [propext, Classical.choice, Quot.sound]
'Igakit.C100_idempotent_partial' depends on axioms: [propext, Classical.choice, Quot.sound]
'Igakit.C101_chain' depends on axioms: [propext, Classical.choice, Quot.sound]
'Igakit.C101_net' depends on axioms: [propext, Classical.choice, Quot.sound]
'Igakit.C101_affine' depends on axioms: [propext, Classical.choice, Quot.sound]
'Igakit.C101_translate' depends on axioms: [propext, Classical.choice, Quot.sound]
'Igakit.C101_total' depends on axioms: [propext, Quot.sound]
'Igakit.C101_unrounded' depends on axioms: [propext, Classical.choice, Quot.sound]
'Igakit.C101_not_in_turn' depends on axioms: [propext, Classical.choice, Quot.sound]
'Igakit.C102_ruled_partial' depends on axioms: [propext, Classical.choice, Quot.sound]
'Igakit.C102_coons_partial' depends on axioms: [propext, Classical.choice, Quot.sound]
'Igakit.C102_coons_exact_partial' depends on axioms: [propext, Classical.choice, Quot.sound]
'Igakit.C103_extrude' depends on axioms: [propext, Classical.choice, Quot.sound]
'Igakit.C103_sweep' depends on axioms: [propext, Classical.choice, Quot.sound]
'Igakit.C103_revolve' depends on axioms: [propext, Classical.choice, Quot.sound]
'Igakit.C103_ruled_partial' depends on axioms: [propext, Classical.choice, Quot.sound]
'Igakit.C103_coons_partial' depends on axioms: [propext, Classical.choice, Quot.sound]
'Igakit.C103_compat_partial' depends on axioms: [propext, Classical.choice, Quot.sound]
'Igakit.C104_chain' depends on axioms: [propext, Classical.choice, Quot.sound]
'Igakit.C104_axis' depends on axioms: [propext, Classical.choice, Quot.sound]
'Igakit.C104_vector' depends on axioms: [propext, Classical.choice, Quot.sound]
'Igakit.C104_accepts' depends on axioms: [propext, Classical.choice, Quot.sound]
'Igakit.C104_net' depends on axioms: [propext, Classical.choice, Quot.sound]
'Igakit.C104_rotate' depends on axioms: [propext, Classical.choice, Quot.sound]
'Igakit.C104_rotate_axis' depends on axioms: [propext, Classical.choice, Quot.sound]
'Igakit.C104_underflow' depends on axioms: [propext, Classical.choice, Quot.sound]
'Igakit.C105_call' depends on axioms: [propext, Classical.choice, Quot.sound]
'Igakit.C105_rotate' depends on axioms: [propext, Classical.choice, Quot.sound]
'Igakit.C106_circle' depends on axioms: [propext, Classical.choice, Quot.sound]
'Igakit.C106_distance' depends on axioms: [propext, Classical.choice, Quot.sound]
'Igakit.C106_center' depends on axioms: [propext, Classical.choice, Quot.sound]
'Igakit.C107_arc' depends on axioms: [propext, Classical.choice, Quot.sound]
'Igakit.C107_center' depends on axioms: [propext, Classical.choice, Quot.sound]
'Igakit.C107_total' depends on axioms: [propext, Classical.choice, Quot.sound]
'Igakit.C108_extrude' depends on axioms: [propext, Classical.choice, Quot.sound]
'Igakit.C108_sweep' depends on axioms: [propext, Classical.choice, Quot.sound]
'Igakit.C108_total' depends on axioms: [propext, Classical.choice, Quot.sound]
'Igakit.C109_corner' depends on axioms: [propext, Classical.choice, Quot.sound]
'Igakit.C109_unit' depends on axioms: [propext, Classical.choice, Quot.sound]
'Igakit.C109_power' depends on axioms: [propext, Classical.choice, Quot.sound]
'Igakit.Ex.C109_needed' depends on axioms: [propext, Classical.choice, Quot.sound]
'Igakit.C11_extract' depends on axioms: [propext, Classical.choice, Quot.sound]
'Igakit.C11_boundary' depends on axioms: [propext, Classical.choice, Quot.sound]
'Igakit.C11_Extract' depends on axioms: [propext, Classical.choice, Quot.sound]
'Igakit.C11_Extract_right' depends on axioms: [propext, Classical.choice, Quot.sound]
'Igakit.C110_line' depends on axioms: [propext, Classical.choice, Quot.sound]
'Igakit.C110_multilinear' depends on axioms: [propext, Classical.choice, Quot.sound]
'Igakit.C111_gridD' depends on axioms: [propext, Classical.choice, Quot.sound]
'Igakit.C111_grid' depends on axioms: [propext, Classical.choice, Quot.sound]
'Igakit.C112_ctor' depends on axioms: [propext, Quot.sound]
'Igakit.C112_call' depends on axioms: [propext, Classical.choice, Quot.sound]
'Igakit.C112_default' depends on axioms: [propext, Classical.choice, Quot.sound]
'Igakit.C113_roundtrip' depends on axioms: [propext, Classical.choice, Quot.sound]
'Igakit.Ex.C113_not_exact' depends on axioms: [propext, Classical.choice, Quot.sound]
'Igakit.C114_relative' depends on axioms: [propext, Classical.choice, Quot.sound]
'Igakit.C114_box' depends on axioms: [propext, Classical.choice, Quot.sound]
'Igakit.C115_transform' depends on axioms: [propext, Classical.choice, Quot.sound]
'Igakit.C115_factors' depends on axioms: [propext, Classical.choice, Quot.sound]
'Igakit.C115_memory' depends on axioms: [propext, Classical.choice, Quot.sound]
'Igakit.Ex.C115_needed' depends on axioms: [propext, Classical.choice, Quot.sound]
'Igakit.C116_remap' depends on axioms: [propext, Classical.choice, Quot.sound]
'Igakit.C116_scaled' depends on axioms: [propext, Classical.choice, Quot.sound]
'Igakit.C116_back' depends on axioms: [propext, Classical.choice, Quot.sound]
'Igakit.Ex.C116_needed' depends on axioms: [propext, Classical.choice, Quot.sound]
'Igakit.C12_boundary_wrong' depends on axioms: [propext, Classical.choice, Quot.sound]
'Igakit.C12_right_end_wrong' depends on axioms: [propext, Classical.choice, Quot.sound]
'Igakit.C13_clamp' depends on axioms: [propext, Classical.choice, Quot.sound]
'Igakit.C13_Clamp' depends on axioms: [propext, Classical.choice, Quot.sound]
'Igakit.C14_unclamp' depends on axioms: [propext, Classical.choice, Quot.sound]
'Igakit.C14_Unclamp' depends on axioms: [propext, Classical.choice, Quot.sound]
'Igakit.C15_clamp_after_unclamp' depends on axioms: [propext, Classical.choice, Quot.sound]
'Igakit.C15_clamp_unclamp' depends on axioms: [propext, Classical.choice, Quot.sound]
'Igakit.C16_DegreeElevate_partial' depends on axioms: [propext, Classical.choice, Quot.sound]
'Igakit.C16_DegreeElevate_low' depends on axioms: [propext, Classical.choice, Quot.sound]
'Igakit.C16_elevate_partial' depends on axioms: [propext, Classical.choice, Quot.sound]
'Igakit.C16_elevate_trivial' depends on axioms: [propext, Quot.sound]
'Igakit.C16_elevate_fails' depends on axioms: [propext, Classical.choice, Quot.sound]
'Igakit.C17_RemoveKnot_restores' depends on axioms: [propext, Classical.choice, Quot.sound]
'Igakit.C17_RemoveKnot_ends' depends on axioms: [propext, Classical.choice, Quot.sound]
'Igakit.C17_RemoveKnot_deviation' depends on axioms: [propext, Classical.choice, Quot.sound]
'Igakit.C17_remove_deviation' depends on axioms: [propext, Classical.choice, Quot.sound]
'Igakit.C17_remove_restores' depends on axioms: [propext, Classical.choice, Quot.sound]
'Igakit.C17_remove_ends' depends on axioms: [propext, Classical.choice, Quot.sound]
'Igakit.C17_remove_not_knot' depends on axioms: [propext, Classical.choice, Quot.sound]
'Igakit.C17_negative_column' depends on axioms: [propext, Classical.choice, Quot.sound]
'Igakit.C17_remove_points' depends on axioms: [propext, Classical.choice, Quot.sound]
'Igakit.C17_rational_exceeds' depends on axioms: [propext, Classical.choice, Quot.sound]
'Igakit.C18_reverse' depends on axioms: [propext, Classical.choice, Quot.sound]
'Igakit.C18_reverse_all' depends on axioms: [propext, Classical.choice, Quot.sound]
'Igakit.C18_involution' depends on axioms: [propext, Classical.choice, Quot.sound]
'Igakit.C19_remap' depends on axioms: [propext, Classical.choice, Quot.sound]
'Igakit.C19_remap_rejects' depends on axioms: [propext, Quot.sound]
'Igakit.C19_remap_back' depends on axioms: [propext, Classical.choice, Quot.sound]
'Igakit.C20_swap' depends on axioms: [propext, Classical.choice, Quot.sound]
'Igakit.C20_swap_twice' depends on axioms: [propext, Classical.choice, Quot.sound]
'Igakit.C20_transpose' depends on axioms: [propext, Classical.choice, Quot.sound]
'Igakit.C20_transpose_default' depends on axioms: [propext, Classical.choice, Quot.sound]
'Igakit.C20_transpose_rejects' depends on axioms: [propext, Quot.sound]
'Igakit.C20_transpose_negative_wrong' depends on axioms: [propext, Classical.choice, Quot.sound]
'Igakit.C21_transform_homogeneous' depends on axioms: [propext, Classical.choice, Quot.sound]
'Igakit.C21_transform_affine' depends on axioms: [propext, Classical.choice, Quot.sound]
'Igakit.C21_translate' depends on axioms: [propext, Classical.choice, Quot.sound]
'Igakit.C21_scale' depends on axioms: [propext, Classical.choice, Quot.sound]
'Igakit.C21_rotate' depends on axioms: [propext, Classical.choice, Quot.sound]
'Igakit.C22_call_order' depends on axioms: [propext, Classical.choice, Quot.sound]
'Igakit.C22_single_calls' depends on axioms: [propext, Classical.choice, Quot.sound]
'Igakit.C22_inverse' depends on axioms: [propext, Classical.choice, Quot.sound]
'Igakit.C22_rotation_rigid' depends on axioms: [propext, Classical.choice, Quot.sound]
'Igakit.C22_rotate_add' depends on axioms: [propext, Classical.choice, Quot.sound]
'Igakit.C23_constructor' depends on axioms: [propext, Classical.choice, Quot.sound]
'Igakit.C23_rejects' depends on axioms: [propext, Quot.sound]
'Igakit.C23_default' depends on axioms: [propext, Classical.choice, Quot.sound]
'Igakit.C23_ambiguous' depends on axioms: [propext, Quot.sound]
'Igakit.C24_Greville' depends on axioms: [propext, Classical.choice, Quot.sound]
'Igakit.C24_greville' depends on axioms: [propext, Classical.choice, Quot.sound]
'Igakit.C24_grid' depends on axioms: [propext, Classical.choice, Quot.sound]
'Igakit.C24_grid_scalar' depends on axioms: [propext, Classical.choice, Quot.sound]
'Igakit.C25_open' depends on axioms: [propext, Classical.choice, Quot.sound]
'Igakit.C25_wrapped' depends on axioms: [propext, Classical.choice, Quot.sound]
'Igakit.C25_rejects' depends on axioms: [propext, Quot.sound]
'Igakit.C26_EvalBasisFunsDers' depends on axioms: [propext, Classical.choice, Quot.sound]
'Igakit.C26_given_span' depends on axioms: [propext, Classical.choice, Quot.sound]
'Igakit.C26_orders_above_degree' depends on axioms: [propext, Classical.choice, Quot.sound]
'Igakit.C26_real' depends on axioms: [propext, Classical.choice, Quot.sound]
'Igakit.C27_derivatives' depends on axioms: [propext, Classical.choice, Quot.sound]
'Igakit.C27_interior' depends on axioms: [propext, Classical.choice, Quot.sound]
'Igakit.C27_denom_pos' depends on axioms: [propext, Classical.choice, Quot.sound]
'Igakit.C27_default' depends on axioms: [propext, Classical.choice, Quot.sound]
'Igakit.C27_given' depends on axioms: [propext, Classical.choice, Quot.sound]
'Igakit.C27_rejects' depends on axioms: [propext, Classical.choice, Quot.sound]
'Igakit.C28_fourth_formula' depends on axioms: [propext, Classical.choice, Quot.sound]
'Igakit.C28_fourth_iff' depends on axioms: [propext, Classical.choice, Quot.sound]
'Igakit.C28_fourth_wrong' depends on axioms: [propext, Classical.choice, Quot.sound]
'Igakit.C28_curve_returns_third' depends on axioms: [propext, Classical.choice, Quot.sound]
'Igakit.C28_curve_wrong' depends on axioms: [propext, Classical.choice, Quot.sound]
'Igakit.C28_fourth_partial' depends on axioms: [propext, Classical.choice, Quot.sound]
'Igakit.C29_determinant' depends on axioms: [propext, Classical.choice, Quot.sound]
'Igakit.C29_inverse' depends on axioms: [propext, Classical.choice, Quot.sound]
'Igakit.C29_mapped_chain' depends on axioms: [propext, Classical.choice, Quot.sound]
'Igakit.C29_physical' depends on axioms: [propext, Classical.choice, Quot.sound]
'Igakit.C29_gradient' depends on axioms: [propext, Classical.choice, Quot.sound]
'Igakit.C29_mapped_hessian_stops' depends on axioms: [propext, Classical.choice, Quot.sound]
'Igakit.C30_GaussLegendre' depends on axioms: [propext, Classical.choice, Quot.sound]
'Igakit.C30_GaussLobatto' depends on axioms: [propext, Classical.choice, Quot.sound]
'Igakit.C30_rejects' depends on axioms: [propext, Classical.choice, Quot.sound]
'Igakit.C31_BasisData' depends on axioms: [propext, Classical.choice, Quot.sound]
'Igakit.C31_BasisDataCol' depends on axioms: [propext, Classical.choice, Quot.sound]
'Igakit.C31_rejects' depends on axioms: [propext, Classical.choice, Quot.sound]
'Igakit.C31_default_rejected' depends on axioms: [propext, Classical.choice, Quot.sound]
'Igakit.C32_SpanIndex' depends on axioms: [propext, Classical.choice, Quot.sound]
'Igakit.C32_spans' depends on axioms: [propext, Classical.choice, Quot.sound]
'Igakit.C32_breaks' depends on axioms: [propext, Classical.choice, Quot.sound]
'Igakit.C32_breaks_mults' depends on axioms: [propext, Classical.choice, Quot.sound]
'Igakit.C32_countSpans' depends on axioms: [propext, Classical.choice, Quot.sound]
'Igakit.C32_degenerate_end_wrong' depends on axioms: [propext, Classical.choice, Quot.sound]
'Igakit.C33_circle' depends on axioms: [propext, Classical.choice, Quot.sound]
'Igakit.C33_distance' depends on axioms: [propext, Classical.choice, Quot.sound]
'Igakit.C33_covers' depends on axioms: [propext, Classical.choice, Quot.sound]
'Igakit.C33_empty' depends on axioms: [propext, Classical.choice, Quot.sound]
'Igakit.C34_line' depends on axioms: [propext, Classical.choice, Quot.sound]
'Igakit.C34_line_rejects' depends on axioms: [propext, Quot.sound]
'Igakit.C34_multilinear' depends on axioms: [propext, Classical.choice, Quot.sound]
'Igakit.C34_multilinear_rational' depends on axioms: [propext, Classical.choice, Quot.sound]
'Igakit.C34_default' depends on axioms: [propext, Classical.choice, Quot.sound]
'Igakit.C34_rejects' depends on axioms: [propext, Quot.sound]
'Igakit.C35_extrude' depends on axioms: [propext, Classical.choice, Quot.sound]
'Igakit.C35_sweep' depends on axioms: [propext, Classical.choice, Quot.sound]
'Igakit.C35_ruled_partial' depends on axioms: [propext, Classical.choice, Quot.sound]
'Igakit.C35_ruled_sides_partial' depends on axioms: [propext, Classical.choice, Quot.sound]
'Igakit.C36_revolve' depends on axioms: [propext, Classical.choice, Quot.sound]
'Igakit.C36_distance' depends on axioms: [propext, Classical.choice, Quot.sound]
'Igakit.C36_minus_z' depends on axioms: [propext, Classical.choice, Quot.sound]
'Igakit.C37_coons_partial' depends on axioms: [propext, Classical.choice, Quot.sound]
'Igakit.C37_rejects' depends on axioms: [propext, Classical.choice, Quot.sound]
'Igakit.C37_corner_weights' depends on axioms: [propext, Classical.choice, Quot.sound]
'Igakit.C38_join_partial' depends on axioms: [propext, Classical.choice, Quot.sound]
'Igakit.C38_concat_partial' depends on axioms: [propext, Classical.choice, Quot.sound]
'Igakit.C38_knots_partial' depends on axioms: [propext, Classical.choice, Quot.sound]
'Igakit.C38_distorted' depends on axioms: [propext, Classical.choice, Quot.sound]
'Igakit.C38_distorted_linear' depends on axioms: [propext, Classical.choice, Quot.sound]
'Igakit.C38_unsorted' depends on axioms: [propext, Classical.choice, Quot.sound]
'Igakit.C38_fails' depends on axioms: [propext, Classical.choice, Quot.sound]
'Igakit.C38_rejects' depends on axioms: [propext, Classical.choice, Quot.sound]
'Igakit.C39_compat_partial' depends on axioms: [propext, Classical.choice, Quot.sound]
'Igakit.C39_unclamped' depends on axioms: [propext, Classical.choice, Quot.sound]
'Igakit.C40_refine_partial' depends on axioms: [propext, Classical.choice, Quot.sound]
'Igakit.C40_refine_default' depends on axioms: [propext, Classical.choice, Quot.sound]
'Igakit.C40_rejects_degree' depends on axioms: [propext, Classical.choice, Quot.sound]
'Igakit.C40_rejects_args' depends on axioms: [propext, Classical.choice, Quot.sound]
'Igakit.C40_rejects_elements' depends on axioms: [propext, Classical.choice, Quot.sound]
'Igakit.C41_roundtrip' depends on axioms: [propext, Classical.choice, Quot.sound]
'Igakit.C41_exact' depends on axioms: [propext, Classical.choice, Quot.sound]
'Igakit.C41_lost' depends on axioms: [propext, Classical.choice, Quot.sound]
'Igakit.C41_plain' depends on axioms: [propext, Classical.choice, Quot.sound]
'Igakit.C41_plain_identity' depends on axioms: [propext, Classical.choice, Quot.sound]
'Igakit.C41_rejects' depends on axioms: [propext, Quot.sound]
'Igakit.C42_truncated' depends on axioms: [propext, Classical.choice, Quot.sound]
'Igakit.C42_foreign' depends on axioms: [propext, Quot.sound]
'Igakit.C42_width' depends on axioms: [propext, Classical.choice, Quot.sound]
'Igakit.C42_accepted' depends on axioms: [propext, Classical.choice, Quot.sound]
'Igakit.C43_vec' depends on axioms: [propext, Classical.choice, Quot.sound]
'Igakit.C43_vec_nurbs' depends on axioms: [propext, Classical.choice, Quot.sound]
'Igakit.C43_vec_scalar' depends on axioms: [propext, Classical.choice, Quot.sound]
'Igakit.C43_vec_squeezed' depends on axioms: [propext, Classical.choice, Quot.sound]
'Igakit.C43_vec_truncated' depends on axioms: [propext, Classical.choice, Quot.sound]
'Igakit.C43_mat' depends on axioms: [propext, Classical.choice, Quot.sound]
'Igakit.C43_mat_rejects' depends on axioms: [propext, Classical.choice, Quot.sound]
'Igakit.C43_mat_foreign' depends on axioms: [propext]
'Igakit.C44_write' depends on axioms: [propext, Classical.choice, Quot.sound]
'Igakit.C44_each_once' depends on axioms: [propext, Classical.choice, Quot.sound]
'Igakit.C44_default_sampler' depends on axioms: [propext, Classical.choice, Quot.sound]
'Igakit.C44_dict' depends on axioms: [propext, Classical.choice, Quot.sound]
'Igakit.C44_rejects' depends on axioms: [propext, Classical.choice, Quot.sound]
'Igakit.C45_arrays' depends on axioms: [propext, Classical.choice, Quot.sound]
'Igakit.C45_operations' depends on axioms: [propext, Classical.choice, Quot.sound]
'Igakit.C45_copy_fresh' depends on axioms: [propext, Classical.choice, Quot.sound]
'Igakit.C45_copy' depends on axioms: [propext, Classical.choice, Quot.sound]
'Igakit.C45_copy_back' depends on axioms: [propext, Classical.choice, Quot.sound]
'Igakit.C45_clone' depends on axioms: [propext, Classical.choice, Quot.sound]
'Igakit.C45_refine_sorts' depends on axioms: [propext, Classical.choice, Quot.sound]
'Igakit.C45_given' depends on axioms: [propext, Classical.choice, Quot.sound]
'Igakit.C45_values' depends on axioms: [propext, Classical.choice, Quot.sound]
'Igakit.C45_new' depends on axioms: [propext, Quot.sound]
'Igakit.C46_history' depends on axioms: [propext, Classical.choice, Quot.sound]
'Igakit.C46_everywhere' depends on axioms: [propext, Classical.choice, Quot.sound]
'Igakit.C46_program' depends on axioms: [propext, Classical.choice, Quot.sound]
'Igakit.C47_rejected_partial' depends on axioms: [propext, Classical.choice, Quot.sound]
'Igakit.C47_given_partial' depends on axioms: [propext, Classical.choice, Quot.sound]
'Igakit.C47_creators' depends on axioms: [propext, Classical.choice, Quot.sound]
'Igakit.C47_refine_own' depends on axioms: [propext, Classical.choice, Quot.sound]
'Igakit.C48_unique' depends on axioms: [propext, Classical.choice, Quot.sound]
'Igakit.C48_points' depends on axioms: [propext, Classical.choice, Quot.sound]
'Igakit.C48_inactive' depends on axioms: [propext, Classical.choice, Quot.sound]
'Igakit.C48_bound_needed' depends on axioms: [propext, Classical.choice, Quot.sound]
'Igakit.C49_deterministic' depends on axioms: [propext, Classical.choice, Quot.sound]
'Igakit.C49_accepts' depends on axioms: [propext, Classical.choice, Quot.sound]
'Igakit.C50_order' depends on axioms: [propext, Classical.choice, Quot.sound]
'Igakit.C51_superposition' depends on axioms: [propext, Classical.choice, Quot.sound]
'Igakit.C52_fields' depends on axioms: [propext, Classical.choice, Quot.sound]
'Igakit.C53_confluent' depends on axioms: [propext, Classical.choice, Quot.sound]
'Igakit.C53_transform' depends on axioms: [propext, Classical.choice, Quot.sound]
'Igakit.C54_range' depends on axioms: [propext, Classical.choice, Quot.sound]
'Igakit.C54_unique' depends on axioms: [propext, Quot.sound]
'Igakit.C54_methods' depends on axioms: [propext, Classical.choice, Quot.sound]
'Igakit.C54_remove' depends on axioms: [propext, Classical.choice, Quot.sound]
'Igakit.C54_swap' depends on axioms: [propext, Classical.choice, Quot.sound]
'Igakit.C54_reverse' depends on axioms: [propext, Classical.choice, Quot.sound]
'Igakit.C54_queries' depends on axioms: [propext, Classical.choice, Quot.sound]
'Igakit.C54_rejects' depends on axioms: [propext, Classical.choice, Quot.sound]
'Igakit.C54_remove_rejects' depends on axioms: [propext, Classical.choice, Quot.sound]
'Igakit.C55_call' depends on axioms: [propext, Classical.choice, Quot.sound]
'Igakit.C55_call_fields' depends on axioms: [propext, Classical.choice, Quot.sound]
'Igakit.C55_given' depends on axioms: [propext, Classical.choice, Quot.sound]
'Igakit.C55_given_scalar' depends on axioms: [propext, Classical.choice, Quot.sound]
'Igakit.C55_evaluate' depends on axioms: [propext, Classical.choice, Quot.sound]
'Igakit.C55_default_inside' depends on axioms: [propext, Classical.choice, Quot.sound]
'Igakit.C55_rejects' depends on axioms: [propext, Quot.sound]
'Igakit.C55_rejects_any' depends on axioms: [propext, Classical.choice, Quot.sound]
'Igakit.C55_fields_shape' depends on axioms: [propext, Classical.choice, Quot.sound]
'Igakit.C55_default_outside' depends on axioms: [propext, Classical.choice, Quot.sound]
'Igakit.C56_lagrange' depends on axioms: [propext, Classical.choice, Quot.sound]
'Igakit.C56_lobatto' depends on axioms: [propext, Classical.choice, Quot.sound]
'Igakit.C56_lobatto_rejects' depends on axioms: [propext, Classical.choice, Quot.sound]
'Igakit.C56_ends' depends on axioms: [propext, Quot.sound]
'Igakit.C57_at' depends on axioms: [propext, Classical.choice, Quot.sound]
'Igakit.C57_on' depends on axioms: [propext, Classical.choice, Quot.sound]
'Igakit.C57_inside' depends on axioms: [propext, Classical.choice, Quot.sound]
'Igakit.C57_KnotVector' depends on axioms: [propext, Classical.choice, Quot.sound]
'Igakit.C57_sharp' depends on axioms: [propext, Classical.choice, Quot.sound]
'Igakit.C58_sections' depends on axioms: [propext, Classical.choice, Quot.sound]
'Igakit.C58_refine' depends on axioms: [propext, Classical.choice, Quot.sound]
'Igakit.C58_elevate' depends on axioms: [propext, Classical.choice, Quot.sound]
'Igakit.C58_conform' depends on axioms: [propext, Classical.choice, Quot.sound]
'Igakit.C59_wraps' depends on axioms: [propext, Classical.choice, Quot.sound]
'Igakit.C59_closes' depends on axioms: [propext, Classical.choice, Quot.sound]
'Igakit.C59_unclamp' depends on axioms: [propext, Classical.choice, Quot.sound]
'Igakit.C60_remove' depends on axioms: [propext, Classical.choice, Quot.sound]
'Igakit.C60_restores' depends on axioms: [propext, Classical.choice, Quot.sound]
'Igakit.C60_exact' depends on axioms: [propext, Classical.choice, Quot.sound]
'Igakit.C61_coarser' depends on axioms: [propext, Classical.choice, Quot.sound]
'Igakit.C61_smooth' depends on axioms: [propext, Classical.choice, Quot.sound]
'Igakit.C61_remove' depends on axioms: [propext, Classical.choice, Quot.sound]
'Igakit.C61_remove_least' depends on axioms: [propext, Classical.choice, Quot.sound]
'Igakit.C62_outside' depends on axioms: [propext, Classical.choice, Quot.sound]
'Igakit.C62_move' depends on axioms: [propext, Classical.choice, Quot.sound]
'Igakit.C62_weight' depends on axioms: [propext, Classical.choice, Quot.sound]
'Igakit.C63_curve' depends on axioms: [propext, Classical.choice, Quot.sound]
'Igakit.C63_surface' depends on axioms: [propext, Classical.choice, Quot.sound]
'Igakit.C63_volume' depends on axioms: [propext, Classical.choice, Quot.sound]
'Igakit.C63_plot' depends on axioms: [propext, Classical.choice, Quot.sound]
'Igakit.C64_kwire' depends on axioms: [propext, Classical.choice, Quot.sound]
'Igakit.C64_ksurf' depends on axioms: [propext, Classical.choice, Quot.sound]
'Igakit.C64_kpoint' depends on axioms: [propext, Classical.choice, Quot.sound]
'Igakit.C64_cpoint' depends on axioms: [propext, Classical.choice, Quot.sound]
'Igakit.C64_kwire_negative' depends on axioms: [propext, Classical.choice, Quot.sound]
'Igakit.C65_mpl_lines' depends on axioms: [propext, Classical.choice, Quot.sound]
'Igakit.C65_myv_lines' depends on axioms: [propext, Classical.choice, Quot.sound]
'Igakit.C65_mpl_surfs' depends on axioms: [propext, Classical.choice, Quot.sound]
'Igakit.C65_myv_surfs' depends on axioms: [propext, Classical.choice, Quot.sound]
'Igakit.C65_mpl_points' depends on axioms: [propext, Classical.choice, Quot.sound]
'Igakit.C65_cwire' depends on axioms: [propext, Classical.choice, Quot.sound]
'Igakit.C65_points' depends on axioms: [propext, Classical.choice, Quot.sound]
'Igakit.C65_point' depends on axioms: [propext, Classical.choice, Quot.sound]
'Igakit.C65_ksurf_surface' depends on axioms: [propext, Classical.choice, Quot.sound]
'Igakit.C66_variation' depends on axioms: [propext, Classical.choice, Quot.sound]
'Igakit.C66_monotone' depends on axioms: [propext, Classical.choice, Quot.sound]
'Igakit.C67_corner' depends on axioms: [propext, Classical.choice, Quot.sound]
'Igakit.C67_boundary' depends on axioms: [propext, Classical.choice, Quot.sound]
'Igakit.C67_tangent' depends on axioms: [propext, Classical.choice, Quot.sound]
'Igakit.C68_integral' depends on axioms: [propext, Classical.choice, Quot.sound]
'Igakit.C68_matrix' depends on axioms: [propext, Classical.choice, Quot.sound]
'Igakit.C68_load' depends on axioms: [propext, Classical.choice, Quot.sound]
'Igakit.C68_mass' depends on axioms: [propext, Classical.choice, Quot.sound]
'Igakit.C69_methods' depends on axioms: [propext, Classical.choice, Quot.sound]
'Igakit.C69_writes' depends on axioms: [propext, Classical.choice, Quot.sound]
'Igakit.C69_clone_shares' depends on axioms: [propext, Classical.choice, Quot.sound]
'Igakit.C70_extrude' depends on axioms: [propext, Classical.choice, Quot.sound]
'Igakit.C70_sweep' depends on axioms: [propext, Quot.sound]
'Igakit.C70_ruled' depends on axioms: [propext, Classical.choice, Quot.sound]
'Igakit.C70_revolve' depends on axioms: [propext, Classical.choice, Quot.sound]
'Igakit.C70_coons' depends on axioms: [propext, Classical.choice, Quot.sound]
'Igakit.C70_join' depends on axioms: [propext, Classical.choice, Quot.sound]
'Igakit.C70_refine' depends on axioms: [propext, Classical.choice, Quot.sound]
'Igakit.C70_compat' depends on axioms: [propext, Classical.choice, Quot.sound]
'Igakit.C70_extrude_shares' depends on axioms: [propext, Classical.choice, Quot.sound]
'Igakit.C70_sweep_shares' depends on axioms: [propext, Classical.choice, Quot.sound]
'Igakit.C70_refine_isolated' depends on axioms: [propext, Classical.choice, Quot.sound]
'Igakit.C71_finite_nonneg' depends on axioms: [propext, Classical.choice, Quot.sound]
'Igakit.C71_error' depends on axioms: [propext, Classical.choice, Quot.sound]
'Igakit.C71_exact' depends on axioms: [propext, Classical.choice, Quot.sound]
'Igakit.C71_not_exact' depends on axioms: [propext, Classical.choice, Quot.sound]
'Igakit.C72_call' depends on axioms: [propext, Classical.choice, Quot.sound]
'Igakit.growth_le' depends on axioms: [propext, Classical.choice, Quot.sound]
'Igakit.C73_InsertKnot' depends on axioms: [propext, Classical.choice, Quot.sound]
'Igakit.C73_points' depends on axioms: [propext, Classical.choice, Quot.sound]
'Igakit.C74_remap' depends on axioms: [propext, Classical.choice, Quot.sound]
'Igakit.C74_remap_error' depends on axioms: [propext, Classical.choice, Quot.sound]
'Igakit.C74_remap_misses' depends on axioms: [propext, Classical.choice, Quot.sound]
'Igakit.C74_reverse_axes' depends on axioms: [propext, Quot.sound]
'Igakit.C74_reverse' depends on axioms: [propext, Classical.choice, Quot.sound]
'Igakit.C74_reverse_again' depends on axioms: [propext, Classical.choice, Quot.sound]
'Igakit.C74_reverse_misses' depends on axioms: [propext, Classical.choice, Quot.sound]
'Igakit.C74_reverse_loses' depends on axioms: [propext, Classical.choice, Quot.sound]
'Igakit.C75_KnotVector' depends on axioms: [propext, Classical.choice, Quot.sound]
'Igakit.C75_rejects' depends on axioms: [propext, Quot.sound]
'Igakit.C75_refineVals' depends on axioms: [propext, Classical.choice, Quot.sound]
'Igakit.C75_not_equal' depends on axioms: [propext, Classical.choice, Quot.sound]
'Igakit.C76_Greville' depends on axioms: [propext, Classical.choice, Quot.sound]
'Igakit.C76_low_degree' depends on axioms: [propext, Classical.choice, Quot.sound]
'Igakit.C76_inside' depends on axioms: [propext, Classical.choice, Quot.sound]
'Igakit.C76_leaves' depends on axioms: [propext, Classical.choice, Quot.sound]
'Igakit.C77_no_fault' does not depend on any axioms
'Igakit.C77_insert' depends on axioms: [propext, Classical.choice, Quot.sound]
'Igakit.C77_clamp' depends on axioms: [propext, Classical.choice, Quot.sound]
'Igakit.C77_unclamp' depends on axioms: [propext, Classical.choice, Quot.sound]
'Igakit.C77_extract' depends on axioms: [propext, Classical.choice, Quot.sound]
'Igakit.C77_boundary' depends on axioms: [propext, Classical.choice, Quot.sound]
'Igakit.C77_refine' depends on axioms: [propext, Classical.choice, Quot.sound]
'Igakit.C77_slice' depends on axioms: [propext, Classical.choice, Quot.sound]
'Igakit.C77_elevate' depends on axioms: [propext, Classical.choice, Quot.sound]
'Igakit.C77_remove' depends on axioms: [propext, Classical.choice, Quot.sound]
'Igakit.C77_call' depends on axioms: [propext, Classical.choice, Quot.sound]
'Igakit.C77_spans' depends on axioms: [propext, Classical.choice, Quot.sound]
'Igakit.C77_breaks' depends on axioms: [propext, Classical.choice, Quot.sound]
'Igakit.C77_greville' depends on axioms: [propext, Classical.choice, Quot.sound]
'Igakit.C77_KnotVector' depends on axioms: [propext, Classical.choice, Quot.sound]
'Igakit.C77_basis' depends on axioms: [propext, Classical.choice, Quot.sound]
'Igakit.C77_few_points' depends on axioms: [propext, Classical.choice, Quot.sound]
'Igakit.C77_elevate_faults' depends on axioms: [propext, Classical.choice, Quot.sound]
'Igakit.C77_remove_faults' depends on axioms: [propext, Classical.choice, Quot.sound]
'Igakit.C77_bsp_faults' depends on axioms: [propext, Classical.choice, Quot.sound]
'Igakit.C78_derivCore' depends on axioms: [propext, Classical.choice, Quot.sound]
'Igakit.C78_derivative' depends on axioms: [propext, Classical.choice, Quot.sound]
'Igakit.C78_no_fault' depends on axioms: [propext, Classical.choice, Quot.sound]
'Igakit.C78_partial_derivatives' depends on axioms: [propext, Classical.choice, Quot.sound]
'Igakit.C79_BasisData' depends on axioms: [propext, Classical.choice, Quot.sound]
'Igakit.C79_BasisDataCol' depends on axioms: [propext, Classical.choice, Quot.sound]
'Igakit.C79_BasisDataCol_no_fault' depends on axioms: [propext, Classical.choice, Quot.sound]
'Igakit.C79_tiny_span' depends on axioms: [propext, Classical.choice, Quot.sound]
'Igakit.C80_minors' depends on axioms: [propext, Classical.choice, Quot.sound]
'Igakit.C80_interpolation' depends on axioms: [propext, Classical.choice, Quot.sound]
'Igakit.C80_interpolation_iff' depends on axioms: [propext, Classical.choice, Quot.sound]
'Igakit.C80_BasisDataCol' depends on axioms: [propext, Classical.choice, Quot.sound]
'Igakit.C80_Greville' depends on axioms: [propext, Classical.choice, Quot.sound]
'Igakit.C80_Greville_iff' depends on axioms: [propext, Classical.choice, Quot.sound]
'Igakit.C80_net' depends on axioms: [propext, Classical.choice, Quot.sound]
'Igakit.C80_call' depends on axioms: [propext, Classical.choice, Quot.sound]
'Igakit.C81_names' depends on axioms: [propext]
'Igakit.C81_use' depends on axioms: [propext, Quot.sound]
'Igakit.C81_get_set' depends on axioms: [propext]
'Igakit.C81_get_default' depends on axioms: [propext, Quot.sound]
'Igakit.C81_history' depends on axioms: [propext, Quot.sound]
'Igakit.C81_once' depends on axioms: [propext, Quot.sound]
'Igakit.C81_draw' depends on axioms: [propext, Quot.sound]
'Igakit.C81_keep' depends on axioms: [propext, Quot.sound]
'Igakit.C81_lazy' depends on axioms: [propext, Quot.sound]
'Igakit.C82_points' depends on axioms: [propext, Classical.choice, Quot.sound]
'Igakit.C82_quiver' depends on axioms: [propext, Classical.choice, Quot.sound]
'Igakit.C82_control' depends on axioms: [propext, Classical.choice, Quot.sound]
'Igakit.C82_knots' depends on axioms: [propext, Classical.choice, Quot.sound]
'Igakit.C82_kwire' depends on axioms: [propext, Classical.choice, Quot.sound]
'Igakit.C82_ksurf' depends on axioms: [propext, Quot.sound]
'Igakit.C82_curve' depends on axioms: [propext, Classical.choice, Quot.sound]
'Igakit.C82_curve_mode' depends on axioms: [propext, Quot.sound]
'Igakit.C82_surface' depends on axioms: [propext, Quot.sound]
'Igakit.C82_plot_curve' depends on axioms: [propext, Classical.choice, Quot.sound]
'Igakit.C82_plot_surface' depends on axioms: [propext, Classical.choice, Quot.sound]
'Igakit.C82_plot_volume' depends on axioms: [propext, Classical.choice, Quot.sound]
'Igakit.C82_mpl_scatter' depends on axioms: [propext, Classical.choice, Quot.sound]
'Igakit.C82_mpl_line' depends on axioms: [propext, Classical.choice, Quot.sound]
'Igakit.C82_mpl_surf' depends on axioms: [propext, Classical.choice, Quot.sound]
'Igakit.C82_mpl_default' depends on axioms: [propext, Classical.choice, Quot.sound]
'Igakit.C82_mpl_leak' depends on axioms: [propext, Classical.choice, Quot.sound]
'Igakit.C83_history' depends on axioms: [propext, Classical.choice, Quot.sound]
'Igakit.C83_history_same' depends on axioms: [propext, Classical.choice, Quot.sound]
'Igakit.C83_slice' depends on axioms: [propext, Classical.choice, Quot.sound]
'Igakit.C83_extract' depends on axioms: [propext, Classical.choice, Quot.sound]
'Igakit.C83_boundary' depends on axioms: [propext, Classical.choice, Quot.sound]
'Igakit.C83_bounds' depends on axioms: [propext, Classical.choice, Quot.sound]
'Igakit.C83_points' depends on axioms: [propext, Classical.choice, Quot.sound]
'Igakit.C83_unclamp_negative' depends on axioms: [propext, Classical.choice, Quot.sound]
'Igakit.C84_span' depends on axioms: [propext, Quot.sound]
'Igakit.C84_span_nan' depends on axioms: [propext, Quot.sound]
'Igakit.C84_span_fin' depends on axioms: [propext, Classical.choice, Quot.sound]
'Igakit.C84_insert' depends on axioms: [propext, Classical.choice, Quot.sound]
'Igakit.C84_extract' depends on axioms: [propext, Classical.choice, Quot.sound]
'Igakit.C84_slice' depends on axioms: [propext, Quot.sound]
'Igakit.C84_eval' depends on axioms: [propext, Classical.choice, Quot.sound]
'Igakit.C84_refine' depends on axioms: [propext, Classical.choice, Quot.sound]
'Igakit.C84_nan_domain' depends on axioms: [propext, Quot.sound]
'Igakit.C84_remap_nan' depends on axioms: [propext, Quot.sound]
'Igakit.C84_remap_fin' depends on axioms: [propext, Classical.choice, Quot.sound]
'Igakit.C84_remap_inf' depends on axioms: [propext, Classical.choice, Quot.sound]
'Igakit.C85_compose' depends on axioms: [propext, Classical.choice, Quot.sound]
'Igakit.C85_again' depends on axioms: [propext, Classical.choice, Quot.sound]
'Igakit.C85_whole' depends on axioms: [propext, Classical.choice, Quot.sound]
'Igakit.C85_axes' depends on axioms: [propext, Classical.choice, Quot.sound]
'Igakit.C85_section' depends on axioms: [propext, Classical.choice, Quot.sound]
'Igakit.C85_ends' depends on axioms: [propext, Classical.choice, Quot.sound]
'Igakit.C85_cut' depends on axioms: [propext, Classical.choice, Quot.sound]
'Igakit.C85_refine' depends on axioms: [propext, Classical.choice, Quot.sound]
'Igakit.C86_same' depends on axioms: [propext, Classical.choice, Quot.sound]
'Igakit.C86_history' depends on axioms: [propext, Classical.choice, Quot.sound]
'Igakit.C86_slice' depends on axioms: [propext, Classical.choice, Quot.sound]
'Igakit.C86_section' depends on axioms: [propext, Classical.choice, Quot.sound]
'Igakit.C86_chain' depends on axioms: [propext, Classical.choice, Quot.sound]
'Igakit.C86_mapped' depends on axioms: [propext, Classical.choice, Quot.sound]
'Igakit.C86_calls' depends on axioms: [propext, Classical.choice, Quot.sound]
'Igakit.C87_slopes' depends on axioms: [propext, Classical.choice, Quot.sound]
'Igakit.C87_distance' depends on axioms: [propext, Classical.choice, Quot.sound]
'Igakit.C87_converges' depends on axioms: [propext, Classical.choice, Quot.sound]
'Igakit.C87_points' depends on axioms: [propext, Classical.choice, Quot.sound]
'Igakit.C87_acts' depends on axioms: [propext, Classical.choice, Quot.sound]
'Igakit.C88_rejoin' depends on axioms: [propext, Classical.choice, Quot.sound]
'Igakit.C88_restored' depends on axioms: [propext, Classical.choice, Quot.sound]
'Igakit.C88_smooth' depends on axioms: [propext, Classical.choice, Quot.sound]
'Igakit.C89_bin' depends on axioms: [propext, Classical.choice, Quot.sound]
'Igakit.C89_overflow' depends on axioms: [propext, Classical.choice, Quot.sound]
'Igakit.C89_same' depends on axioms: [propext, Classical.choice, Quot.sound]
'Igakit.C89_elevate_partial' depends on axioms: [propext, Classical.choice, Quot.sound]
'Igakit.C89_point' depends on axioms: [propext, Classical.choice, Quot.sound]
'Igakit.C89_wrong' depends on axioms: [propext, Classical.choice, Quot.sound]
'Igakit.C90_RefineKnotVector' depends on axioms: [propext, Classical.choice, Quot.sound]
'Igakit.C90_insert' depends on axioms: [propext, Classical.choice, Quot.sound]
'Igakit.C90_refine' depends on axioms: [propext, Classical.choice, Quot.sound]
'Igakit.C90_history' depends on axioms: [propext, Classical.choice, Quot.sound]
'Igakit.C90_points' depends on axioms: [propext, Classical.choice, Quot.sound]
'Igakit.C90_call' depends on axioms: [propext, Classical.choice, Quot.sound]
'Igakit.C91_extract' depends on axioms: [propext, Classical.choice, Quot.sound]
'Igakit.C91_boundary' depends on axioms: [propext, Classical.choice, Quot.sound]
'Igakit.C91_boundary_exact' depends on axioms: [propext, Classical.choice, Quot.sound]
'Igakit.C91_clamp' depends on axioms: [propext, Classical.choice, Quot.sound]
'Igakit.C91_slice' depends on axioms: [propext, Classical.choice, Quot.sound]
'Igakit.C91_history' depends on axioms: [propext, Classical.choice, Quot.sound]
'Igakit.C91_points' depends on axioms: [propext, Classical.choice, Quot.sound]
'Igakit.C91_call' depends on axioms: [propext, Classical.choice, Quot.sound]
'Igakit.C92_data' depends on axioms: [propext, Classical.choice, Quot.sound]
'Igakit.C92_integral' depends on axioms: [propext, Classical.choice, Quot.sound]
'Igakit.C92_matrix' depends on axioms: [propext, Classical.choice, Quot.sound]
'Igakit.C92_mass' depends on axioms: [propext, Classical.choice, Quot.sound]
'Igakit.C92_partials' depends on axioms: [propext, Classical.choice, Quot.sound]
'Igakit.C92_volume' depends on axioms: [propext, Classical.choice, Quot.sound]
'Igakit.C92_volume_same' depends on axioms: [propext, Classical.choice, Quot.sound]
'Igakit.C93_conformal_partial' depends on axioms: [propext, Classical.choice, Quot.sound]
'Igakit.C93_value' depends on axioms: [propext, Classical.choice, Quot.sound]
'Igakit.C93_rational' depends on axioms: [propext, Classical.choice, Quot.sound]
'Igakit.C93_elements' depends on axioms: [propext, Classical.choice, Quot.sound]
'Igakit.C93_weights' depends on axioms: [propext, Classical.choice, Quot.sound]
'Igakit.C94_minimal' depends on axioms: [propext, Classical.choice, Quot.sound]
'Igakit.C94_solvable' depends on axioms: [propext, Classical.choice, Quot.sound]
'Igakit.C94_unique' depends on axioms: [propext, Classical.choice, Quot.sound]
'Igakit.C95_insert' depends on axioms: [propext, Classical.choice, Quot.sound]
'Igakit.C95_spans' depends on axioms: [propext, Classical.choice, Quot.sound]
'Igakit.C95_refine' depends on axioms: [propext, Classical.choice, Quot.sound]
'Igakit.C95_single' depends on axioms: [propext, Classical.choice, Quot.sound]
'Igakit.C95_negative' depends on axioms: [propext, Classical.choice, Quot.sound]
'Igakit.C95_zero' depends on axioms: [propext, Classical.choice, Quot.sound]
'Igakit.C95_empty' depends on axioms: [propext, Quot.sound]
'Igakit.C96_extrude' depends on axioms: [propext, Classical.choice, Quot.sound]
'Igakit.C96_sweep' depends on axioms: [propext, Classical.choice, Quot.sound]
'Igakit.C96_revolve' depends on axioms: [propext, Classical.choice, Quot.sound]
'Igakit.C97_ruled_partial' depends on axioms: [propext, Classical.choice, Quot.sound]
'Igakit.C97_coons_partial' depends on axioms: [propext, Classical.choice, Quot.sound]
'Igakit.C97_coons_unit' depends on axioms: [propext, Classical.choice, Quot.sound]
'Igakit.C98_extrude_refine' depends on axioms: [propext, Classical.choice, Quot.sound]
'Igakit.C98_extrude_section' depends on axioms: [propext, Classical.choice, Quot.sound]
'Igakit.C98_extrude_ends' depends on axioms: [propext, Classical.choice, Quot.sound]
'Igakit.C98_sweep_refine' depends on axioms: [propext, Classical.choice, Quot.sound]
'Igakit.C98_sweep_section' depends on axioms: [propext, Classical.choice, Quot.sound]
'Igakit.C98_revolve_refine' depends on axioms: [propext, Classical.choice, Quot.sound]
'Igakit.C98_revolve_section' depends on axioms: [propext, Classical.choice, Quot.sound]
'Igakit.C99_dot' depends on axioms: [propext, Classical.choice, Quot.sound]
'Igakit.C99_dot_exact' depends on axioms: [propext, Classical.choice, Quot.sound]
'Igakit.C99_net' depends on axioms: [propext, Classical.choice, Quot.sound]
'Igakit.C99_exact' depends on axioms: [propext, Classical.choice, Quot.sound]
'Igakit.C99_weights' depends on axioms: [propext, Classical.choice, Quot.sound]
'Igakit.C99_points' depends on axioms: [propext, Classical.choice, Quot.sound]
'Igakit.C99_call' depends on axioms: [propext, Classical.choice, Quot.sound]
'Igakit.C99_total' depends on axioms: [propext, Quot.sound]
'Igakit.C99_unrounded' depends on axioms: [propext, Classical.choice, Quot.sound]
'Igakit.C99_order' depends on axioms: [propext, Classical.choice, Quot.sound]
'Igakit.C99_no_inverse' depends on axioms: [propext, Classical.choice, Quot.sound]
