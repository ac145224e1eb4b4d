{
 "claims": [
  {
   "property": "C01",
   "status": "proved",
   "theorems": [
    "Igakit.C01_loop_terminates",
    "Igakit.C01_FindSpan",
    "Igakit.C01_span_unique"
   ],
   "note": "exact ordered-field model of FindSpan with its while loop; f2py checks included"
  },
  {
   "property": "C02",
   "status": "proved",
   "theorems": [
    "Igakit.C02_FindMult",
    "Igakit.C02_not_a_knot",
    "Igakit.C02_FindSpanMult"
   ],
   "note": "examples show that the hypotheses (multiplicity at most p+1, eps separation) are needed"
  },
  {
   "property": "C03",
   "status": "proved",
   "theorems": [
    "Igakit.C03_EvalBasisFuns",
    "Igakit.C03_given_span"
   ],
   "note": ""
  },
  {
   "property": "C04",
   "status": "proved",
   "theorems": [
    "Igakit.C04_partition_of_unity"
   ],
   "note": ""
  },
  {
   "property": "C05",
   "status": "proved",
   "theorems": [
    "Igakit.C05_Evaluate1",
    "Igakit.C05_Evaluate2",
    "Igakit.C05_Evaluate3",
    "Igakit.C05_locality",
    "Igakit.C05_CurvePoint",
    "Igakit.C05_SurfacePoint",
    "Igakit.C05_call",
    "Igakit.C05_call_rejects"
   ],
   "note": "bsp level and NURBS.__call__ with division by the weight"
  },
  {
   "property": "C06",
   "status": "proved",
   "theorems": [
    "Igakit.C06_convex_hull",
    "Igakit.C06_bounding_box"
   ],
   "note": ""
  },
  {
   "property": "C07",
   "status": "proved",
   "theorems": [
    "Igakit.C07_insert",
    "Igakit.C07_insert_none",
    "Igakit.C07_insert_rejects",
    "Igakit.C07_InsertKnot",
    "Igakit.C07_no_uninitialised"
   ],
   "note": "NURBS method for any number of axes, and bsp level"
  },
  {
   "property": "C08",
   "status": "proved",
   "theorems": [
    "Igakit.C08_insert_right_end_wrong",
    "Igakit.C08_right_end_wrong"
   ],
   "note": "the claim is false of the code; the refutation is general"
  },
  {
   "property": "C09",
   "status": "proved",
   "theorems": [
    "Igakit.C09_refine",
    "Igakit.C09_refine_perm",
    "Igakit.C09_RefineKnotVector"
   ],
   "note": ""
  },
  {
   "property": "C10",
   "status": "proved",
   "theorems": [
    "Igakit.C10_slice",
    "Igakit.C10_slice_knots"
   ],
   "note": ""
  },
  {
   "property": "C100",
   "status": "partial",
   "theorems": [
    "Igakit.C100_unique",
    "Igakit.C100_memory_partial",
    "Igakit.C100_order_partial",
    "Igakit.C100_idempotent_partial"
   ],
   "note": "As C39: clamped objects with interior multiplicities at most the degree, knots equal or more than eps apart, degree <= 9 or NoJump where a degree is raised; on axes not asked for interior multiplicities at most the degree. SameData: same shape, knots and control points over the index range."
  },
  {
   "property": "C101",
   "status": "proved",
   "theorems": [
    "Igakit.C101_chain",
    "Igakit.C101_net",
    "Igakit.C101_affine",
    "Igakit.C101_translate",
    "Igakit.C101_total",
    "Igakit.C101_unrounded",
    "Igakit.C101_not_in_turn"
   ],
   "note": "No overflow, no underflow (relative error model). The matrices passed to compose are taken as given: rounding of sine, cosine and norm inside rotate is not included, nor is np.linalg.inv."
  },
  {
   "property": "C102",
   "status": "partial",
   "theorems": [
    "Igakit.C102_ruled_partial",
    "Igakit.C102_coons_partial",
    "Igakit.C102_coons_exact_partial"
   ],
   "note": "As C35, C37 and C39: for inputs that compat treats correctly (clamped, interior multiplicities at most the degree, knots equal or further apart than eps, degree <= 9 or NoJump where a degree is raised)."
  },
  {
   "property": "C103",
   "status": "partial",
   "theorems": [
    "Igakit.C103_extrude",
    "Igakit.C103_sweep",
    "Igakit.C103_revolve",
    "Igakit.C103_ruled_partial",
    "Igakit.C103_coons_partial",
    "Igakit.C103_compat_partial"
   ],
   "note": "extrude, sweep and revolve without restriction beyond C35 and C36; ruled, coons and compat as C39: clamped objects with interior multiplicities at most the degree, knots equal or more than eps apart, degree <= 9 or NoJump where a degree is raised."
  },
  {
   "property": "C104",
   "status": "proved",
   "theorems": [
    "Igakit.C104_chain",
    "Igakit.C104_axis",
    "Igakit.C104_vector",
    "Igakit.C104_accepts",
    "Igakit.C104_net",
    "Igakit.C104_rotate",
    "Igakit.C104_rotate_axis",
    "Igakit.C104_underflow"
   ],
   "note": "The relative error of sin and cos is an assumption (Libm). No overflow; without underflow except in C104_underflow, which proves that a nonzero axis whose square underflows is refused."
  },
  {
   "property": "C105",
   "status": "proved",
   "theorems": [
    "Igakit.C105_call",
    "Igakit.C105_rotate"
   ],
   "note": "Joins C72, C99, C101 and C104. The relative error of sin and cos is an assumption (Libm); no overflow or underflow."
  },
  {
   "property": "C106",
   "status": "proved",
   "theorems": [
    "Igakit.C106_circle",
    "Igakit.C106_distance",
    "Igakit.C106_center"
   ],
   "note": "circle without angle. The knots 0, 1/4, 1/2, 3/4, 1 are taken as exact (they are machine numbers in binary arithmetic). C106_center assumes that the rounding keeps 1 and rounded numbers. No overflow or underflow."
  },
  {
   "property": "C107",
   "status": "proved",
   "theorems": [
    "Igakit.C107_arc",
    "Igakit.C107_center",
    "Igakit.C107_total"
   ],
   "note": "The knots are those of a rounded linspace. The relative error of sin, cos and tan is an assumption; no overflow or underflow."
  },
  {
   "property": "C108",
   "status": "proved",
   "theorems": [
    "Igakit.C108_extrude",
    "Igakit.C108_sweep",
    "Igakit.C108_total"
   ],
   "note": "No overflow or underflow. Fields of the operands are not carried by either function."
  },
  {
   "property": "C109",
   "status": "proved",
   "theorems": [
    "Igakit.C109_corner",
    "Igakit.C109_unit",
    "Igakit.C109_power",
    "Igakit.Ex.C109_needed"
   ],
   "note": "Control points and weights are taken to be representable. No overflow or underflow."
  },
  {
   "property": "C11",
   "status": "proved",
   "theorems": [
    "Igakit.C11_extract",
    "Igakit.C11_boundary",
    "Igakit.C11_Extract",
    "Igakit.C11_Extract_right"
   ],
   "note": "the excluded case (partially clamped right end) is C12"
  },
  {
   "property": "C110",
   "status": "proved",
   "theorems": [
    "Igakit.C110_line",
    "Igakit.C110_multilinear"
   ],
   "note": "The constructors copy the points and involve no arithmetic. No overflow or underflow."
  },
  {
   "property": "C111",
   "status": "proved",
   "theorems": [
    "Igakit.C111_gridD",
    "Igakit.C111_grid"
   ],
   "note": "No overflow or underflow."
  },
  {
   "property": "C112",
   "status": "proved",
   "theorems": [
    "Igakit.C112_ctor",
    "Igakit.C112_call",
    "Igakit.C112_default"
   ],
   "note": "No overflow or underflow."
  },
  {
   "property": "C113",
   "status": "proved",
   "theorems": [
    "Igakit.C113_roundtrip",
    "Igakit.Ex.C113_not_exact"
   ],
   "note": "No overflow or underflow."
  },
  {
   "property": "C114",
   "status": "proved",
   "theorems": [
    "Igakit.C114_relative",
    "Igakit.C114_box"
   ],
   "note": "No overflow or underflow."
  },
  {
   "property": "C115",
   "status": "proved",
   "theorems": [
    "Igakit.C115_transform",
    "Igakit.C115_factors",
    "Igakit.C115_memory",
    "Igakit.Ex.C115_needed"
   ],
   "note": "No overflow or underflow."
  },
  {
   "property": "C116",
   "status": "proved",
   "theorems": [
    "Igakit.C116_remap",
    "Igakit.C116_scaled",
    "Igakit.C116_back",
    "Igakit.Ex.C116_needed"
   ],
   "note": "No overflow or underflow."
  },
  {
   "property": "C12",
   "status": "proved",
   "theorems": [
    "Igakit.C12_boundary_wrong",
    "Igakit.C12_right_end_wrong"
   ],
   "note": "the claim is false of the code; the refutation is general"
  },
  {
   "property": "C13",
   "status": "proved",
   "theorems": [
    "Igakit.C13_clamp",
    "Igakit.C13_Clamp"
   ],
   "note": ""
  },
  {
   "property": "C14",
   "status": "proved",
   "theorems": [
    "Igakit.C14_unclamp",
    "Igakit.C14_Unclamp"
   ],
   "note": ""
  },
  {
   "property": "C15",
   "status": "proved",
   "theorems": [
    "Igakit.C15_clamp_after_unclamp",
    "Igakit.C15_clamp_unclamp"
   ],
   "note": ""
  },
  {
   "property": "C16",
   "status": "partial",
   "theorems": [
    "Igakit.C16_DegreeElevate_partial",
    "Igakit.C16_DegreeElevate_low",
    "Igakit.C16_elevate_partial",
    "Igakit.C16_elevate_trivial",
    "Igakit.C16_elevate_fails"
   ],
   "note": "false as stated for degree >= 10 (C16_elevate_fails: interior knots 1,2,2,2, degree 10, accepted but the map changes); proved for every degree <= 9, and for higher degrees under NoJump (multiplicity of neighbouring interior knots rises by at most one, or the removal does not reach across)"
  },
  {
   "property": "C17",
   "status": "proved",
   "theorems": [
    "Igakit.C17_RemoveKnot_restores",
    "Igakit.C17_RemoveKnot_ends",
    "Igakit.C17_RemoveKnot_deviation",
    "Igakit.C17_remove_deviation",
    "Igakit.C17_remove_restores",
    "Igakit.C17_remove_ends",
    "Igakit.C17_remove_not_knot",
    "Igakit.C17_negative_column",
    "Igakit.C17_remove_points",
    "Igakit.C17_rational_exceeds"
   ],
   "note": "without weights and fields the points move by at most (number removed)*deviation (C17_remove_points), with weights they may move further (C17_rational_exceeds); removal under the criterion moves the homogeneous map by at most (number removed)*TOL; removal of inserted knots restores knots and net; ends: unchanged, outside: assertion; a negative last column (field) blocks every removal"
  },
  {
   "property": "C18",
   "status": "proved",
   "theorems": [
    "Igakit.C18_reverse",
    "Igakit.C18_reverse_all",
    "Igakit.C18_involution"
   ],
   "note": ""
  },
  {
   "property": "C19",
   "status": "proved",
   "theorems": [
    "Igakit.C19_remap",
    "Igakit.C19_remap_rejects",
    "Igakit.C19_remap_back"
   ],
   "note": ""
  },
  {
   "property": "C20",
   "status": "proved",
   "theorems": [
    "Igakit.C20_swap",
    "Igakit.C20_swap_twice",
    "Igakit.C20_transpose",
    "Igakit.C20_transpose_default",
    "Igakit.C20_transpose_rejects",
    "Igakit.C20_transpose_negative_wrong"
   ],
   "note": "true for swap and for transpose with nonnegative axes; for transpose with negative axes the claim is false of the code and is refuted"
  },
  {
   "property": "C21",
   "status": "proved",
   "theorems": [
    "Igakit.C21_transform_homogeneous",
    "Igakit.C21_transform_affine",
    "Igakit.C21_translate",
    "Igakit.C21_scale",
    "Igakit.C21_rotate"
   ],
   "note": ""
  },
  {
   "property": "C22",
   "status": "proved",
   "theorems": [
    "Igakit.C22_call_order",
    "Igakit.C22_single_calls",
    "Igakit.C22_inverse",
    "Igakit.C22_rotation_rigid",
    "Igakit.C22_rotate_add"
   ],
   "note": "np.linalg.inv is modelled as the inverse matrix"
  },
  {
   "property": "C23",
   "status": "proved",
   "theorems": [
    "Igakit.C23_constructor",
    "Igakit.C23_rejects",
    "Igakit.C23_default",
    "Igakit.C23_ambiguous"
   ],
   "note": ""
  },
  {
   "property": "C24",
   "status": "proved",
   "theorems": [
    "Igakit.C24_Greville",
    "Igakit.C24_greville",
    "Igakit.C24_grid",
    "Igakit.C24_grid_scalar"
   ],
   "note": ""
  },
  {
   "property": "C25",
   "status": "proved",
   "theorems": [
    "Igakit.C25_open",
    "Igakit.C25_wrapped",
    "Igakit.C25_rejects"
   ],
   "note": ""
  },
  {
   "property": "C26",
   "status": "proved",
   "theorems": [
    "Igakit.C26_EvalBasisFunsDers",
    "Igakit.C26_given_span",
    "Igakit.C26_orders_above_degree",
    "Igakit.C26_real"
   ],
   "note": ""
  },
  {
   "property": "C27",
   "status": "proved",
   "theorems": [
    "Igakit.C27_derivatives",
    "Igakit.C27_interior",
    "Igakit.C27_denom_pos",
    "Igakit.C27_default",
    "Igakit.C27_given",
    "Igakit.C27_rejects"
   ],
   "note": "over the real numbers; derivatives within the cell of knot spans, ordinary partial derivatives at parameters which are no knots"
  },
  {
   "property": "C28",
   "status": "proved",
   "theorems": [
    "Igakit.C28_fourth_formula",
    "Igakit.C28_fourth_iff",
    "Igakit.C28_fourth_wrong",
    "Igakit.C28_curve_returns_third",
    "Igakit.C28_curve_wrong",
    "Igakit.C28_fourth_partial"
   ],
   "note": "the defect is proved (exact error term and witnesses); C28_fourth_partial gives the case where the result is right"
  },
  {
   "property": "C29",
   "status": "proved",
   "theorems": [
    "Igakit.C29_determinant",
    "Igakit.C29_inverse",
    "Igakit.C29_mapped_chain",
    "Igakit.C29_physical",
    "Igakit.C29_gradient",
    "Igakit.C29_mapped_hessian_stops"
   ],
   "note": ""
  },
  {
   "property": "C30",
   "status": "proved",
   "theorems": [
    "Igakit.C30_GaussLegendre",
    "Igakit.C30_GaussLobatto",
    "Igakit.C30_rejects"
   ],
   "note": "decimal literals as exact rationals; stated with Mathlib's interval integral and all real polynomials"
  },
  {
   "property": "C31",
   "status": "proved",
   "theorems": [
    "Igakit.C31_BasisData",
    "Igakit.C31_BasisDataCol",
    "Igakit.C31_rejects",
    "Igakit.C31_default_rejected"
   ],
   "note": "nonempty spans longer than eps; exact arithmetic, weights up to the rounding of the table"
  },
  {
   "property": "C32",
   "status": "proved",
   "theorems": [
    "Igakit.C32_SpanIndex",
    "Igakit.C32_spans",
    "Igakit.C32_breaks",
    "Igakit.C32_breaks_mults",
    "Igakit.C32_countSpans",
    "Igakit.C32_degenerate_end_wrong"
   ],
   "note": "the excluded degenerate right end is shown to return uninitialised memory"
  },
  {
   "property": "C33",
   "status": "proved",
   "theorems": [
    "Igakit.C33_circle",
    "Igakit.C33_distance",
    "Igakit.C33_covers",
    "Igakit.C33_empty"
   ],
   "note": "sweeps of at most two turns, excluding exactly two; radius of either sign; an empty sweep is rejected"
  },
  {
   "property": "C34",
   "status": "proved",
   "theorems": [
    "Igakit.C34_line",
    "Igakit.C34_line_rejects",
    "Igakit.C34_multilinear",
    "Igakit.C34_multilinear_rational",
    "Igakit.C34_default",
    "Igakit.C34_rejects"
   ],
   "note": ""
  },
  {
   "property": "C35",
   "status": "partial",
   "theorems": [
    "Igakit.C35_extrude",
    "Igakit.C35_sweep",
    "Igakit.C35_ruled_partial",
    "Igakit.C35_ruled_sides_partial"
   ],
   "note": "extrude and sweep without restriction; ruled uses compat and so asks for clamped knots, interior multiplicities at most the degree, and degree <= 9 or NoJump where a degree is raised (see C16, C39)"
  },
  {
   "property": "C36",
   "status": "proved",
   "theorems": [
    "Igakit.C36_revolve",
    "Igakit.C36_distance",
    "Igakit.C36_minus_z"
   ],
   "note": "the direction -z is rejected with an assertion (C36_minus_z); every other direction works; sweeps of less than two turns"
  },
  {
   "property": "C37",
   "status": "partial",
   "theorems": [
    "Igakit.C37_coons_partial",
    "Igakit.C37_rejects",
    "Igakit.C37_corner_weights"
   ],
   "note": "Corner weights 1: sides u=const are exactly the first pair, sides v=const the second pair up to the corner error (exact for exact corners), in homogeneous coordinates; corners apart by more than 1e-15 are rejected; witness that other corner weights fail. Missing: curves outside CoonsCurves (unclamped, interior multiplicity above the degree, knots closer than epsilon, degree above 9 with the multiplicity jump of C16), where the underlying compat is not correct."
  },
  {
   "property": "C38",
   "status": "partial",
   "theorems": [
    "Igakit.C38_join_partial",
    "Igakit.C38_concat_partial",
    "Igakit.C38_knots_partial",
    "Igakit.C38_distorted",
    "Igakit.C38_distorted_linear",
    "Igakit.C38_unsorted",
    "Igakit.C38_fails",
    "Igakit.C38_rejects"
   ],
   "note": "Second object starting at 0: value of the two pieces up to half the distance of the ends and the tolerance of the knot removal, and the exact knots. For other starts: domain of wrong length, decreasing knots or an assertion. Missing: inputs outside Joinable (object to be elevated not clamped, knots closer than epsilon, multiplicity jumps)."
  },
  {
   "property": "C39",
   "status": "partial",
   "theorems": [
    "Igakit.C39_compat_partial",
    "Igakit.C39_unclamped"
   ],
   "note": "clamped objects with interior multiplicities at most the degree, knots equal or more than eps apart, degree <= 9 or NoJump where a degree is raised (false otherwise, see C16); false for unclamped objects (C39_unclamped)"
  },
  {
   "property": "C40",
   "status": "partial",
   "theorems": [
    "Igakit.C40_refine_partial",
    "Igakit.C40_refine_default",
    "Igakit.C40_rejects_degree",
    "Igakit.C40_rejects_args",
    "Igakit.C40_rejects_elements"
   ],
   "note": "All objects (also unclamped), all forms of the three arguments. Partial: parts of elements longer than epsilon, and raising a degree above 9 needs the condition NoJump of C16 (elevation itself is wrong without it)."
  },
  {
   "property": "C41",
   "status": "proved",
   "theorems": [
    "Igakit.C41_roundtrip",
    "Igakit.C41_exact",
    "Igakit.C41_lost",
    "Igakit.C41_plain",
    "Igakit.C41_plain_identity",
    "Igakit.C41_rejects"
   ],
   "note": "Byte level model of PetIGA.write and read with abstract codecs for reals and computable big endian integers. C41_lost: the default number of space dimensions drops coordinates; the theorem says exactly which components come back."
  },
  {
   "property": "C42",
   "status": "proved",
   "theorems": [
    "Igakit.C42_truncated",
    "Igakit.C42_foreign",
    "Igakit.C42_width",
    "Igakit.C42_accepted"
   ],
   "note": "Every strict prefix of a written file is rejected, as are files with another header or integer width."
  },
  {
   "property": "C43",
   "status": "proved",
   "theorems": [
    "Igakit.C43_vec",
    "Igakit.C43_vec_nurbs",
    "Igakit.C43_vec_scalar",
    "Igakit.C43_vec_squeezed",
    "Igakit.C43_vec_truncated",
    "Igakit.C43_mat",
    "Igakit.C43_mat_rejects",
    "Igakit.C43_mat_foreign"
   ],
   "note": "Vectors and matrices, generic in the stored values."
  },
  {
   "property": "C44",
   "status": "proved",
   "theorems": [
    "Igakit.C44_write",
    "Igakit.C44_each_once",
    "Igakit.C44_default_sampler",
    "Igakit.C44_dict",
    "Igakit.C44_rejects"
   ],
   "note": "The whole file, as text and arrays of reals, for all objects, samplers, scalars and vectors. fields=False together with scalars is not modelled."
  },
  {
   "property": "C45",
   "status": "proved",
   "theorems": [
    "Igakit.C45_arrays",
    "Igakit.C45_operations",
    "Igakit.C45_copy_fresh",
    "Igakit.C45_copy",
    "Igakit.C45_copy_back",
    "Igakit.C45_clone",
    "Igakit.C45_refine_sorts",
    "Igakit.C45_given",
    "Igakit.C45_values",
    "Igakit.C45_new"
   ],
   "note": "Heap of arrays and objects; all programs of methods, copies, clones, slices, constructor calls and user writes. C45_values: objects behave as values as long as nobody writes into arrays. C45_new: the constructor keeps the user's arrays."
  },
  {
   "property": "C46",
   "status": "proved",
   "theorems": [
    "Igakit.C46_history",
    "Igakit.C46_everywhere",
    "Igakit.C46_program"
   ],
   "note": "Induction over the list of calls; every call has its own uninitialised memory; calls that raise leave the object (C47). Conditions per call (Geo.Tame): values not domain ends and separated from the knots, domain ends separated for clamp/unclamp, elevate on clamped knots with degree <= 9 or NoJump, transpose with a permutation, remove excluded."
  },
  {
   "property": "C47",
   "status": "partial",
   "theorems": [
    "Igakit.C47_rejected_partial",
    "Igakit.C47_given_partial",
    "Igakit.C47_creators",
    "Igakit.C47_refine_own"
   ],
   "note": "All methods, all arguments, all error paths, provided that the values given to refine are not storage of the object itself; in that case the claim is false (C47_refine_own: the call is refused after it has reordered the control net)."
  },
  {
   "property": "C48",
   "status": "proved",
   "theorems": [
    "Igakit.C48_unique",
    "Igakit.C48_points",
    "Igakit.C48_inactive",
    "Igakit.C48_bound_needed"
   ],
   "note": ""
  },
  {
   "property": "C49",
   "status": "proved",
   "theorems": [
    "Igakit.C49_deterministic",
    "Igakit.C49_accepts"
   ],
   "note": "calls restricted as in C46 (values apart from knots, elevation on clamped knots the algorithm handles, no removal)"
  },
  {
   "property": "C50",
   "status": "proved",
   "theorems": [
    "Igakit.C50_order"
   ],
   "note": ""
  },
  {
   "property": "C51",
   "status": "proved",
   "theorems": [
    "Igakit.C51_superposition"
   ],
   "note": "calls restricted as in C46"
  },
  {
   "property": "C52",
   "status": "proved",
   "theorems": [
    "Igakit.C52_fields"
   ],
   "note": "calls restricted as in C46"
  },
  {
   "property": "C53",
   "status": "proved",
   "theorems": [
    "Igakit.C53_confluent",
    "Igakit.C53_transform"
   ],
   "note": "calls restricted as in C46"
  },
  {
   "property": "C54",
   "status": "proved",
   "theorems": [
    "Igakit.C54_range",
    "Igakit.C54_unique",
    "Igakit.C54_methods",
    "Igakit.C54_remove",
    "Igakit.C54_swap",
    "Igakit.C54_reverse",
    "Igakit.C54_queries",
    "Igakit.C54_rejects",
    "Igakit.C54_remove_rejects"
   ],
   "note": "transpose is different: C20 shows that its negative axes go wrong"
  },
  {
   "property": "C55",
   "status": "proved",
   "theorems": [
    "Igakit.C55_call",
    "Igakit.C55_call_fields",
    "Igakit.C55_given",
    "Igakit.C55_given_scalar",
    "Igakit.C55_evaluate",
    "Igakit.C55_default_inside",
    "Igakit.C55_rejects",
    "Igakit.C55_rejects_any",
    "Igakit.C55_fields_shape",
    "Igakit.C55_default_outside"
   ],
   "note": "arrays with two or more axes as parameters are not modelled"
  },
  {
   "property": "C56",
   "status": "proved",
   "theorems": [
    "Igakit.C56_lagrange",
    "Igakit.C56_lobatto",
    "Igakit.C56_lobatto_rejects",
    "Igakit.C56_ends"
   ],
   "note": "the table of Lobatto nodes as exact rationals"
  },
  {
   "property": "C57",
   "status": "proved",
   "theorems": [
    "Igakit.C57_at",
    "Igakit.C57_on",
    "Igakit.C57_inside",
    "Igakit.C57_KnotVector",
    "Igakit.C57_sharp"
   ],
   "note": "Analysis over the reals with Mathlib's ContDiff; two adjacent polynomial pieces differ by a multiple of (u-u0)^(p+1-m), proved from the agreement of polar forms."
  },
  {
   "property": "C58",
   "status": "proved",
   "theorems": [
    "Igakit.C58_sections",
    "Igakit.C58_refine",
    "Igakit.C58_elevate",
    "Igakit.C58_conform"
   ],
   "note": "elevate: degree at most 9 before elevation or no jump (see C16). boundary is extract at a domain end (C11_boundary)."
  },
  {
   "property": "C59",
   "status": "proved",
   "theorems": [
    "Igakit.C59_wraps",
    "Igakit.C59_closes",
    "Igakit.C59_unclamp"
   ],
   "note": "Closing is stated in homogeneous coordinates (control points times weights, weights, fields); a map that closes only after division by the weight is not covered. The example clamps and unclamps a closed tube."
  },
  {
   "property": "C60",
   "status": "proved",
   "theorems": [
    "Igakit.C60_remove",
    "Igakit.C60_restores",
    "Igakit.C60_exact"
   ],
   "note": "Exact arithmetic; in floating point deviation=0 rarely removes anything. The coarser description is arbitrary, it need not come from refine."
  },
  {
   "property": "C61",
   "status": "proved",
   "theorems": [
    "Igakit.C61_coarser",
    "Igakit.C61_smooth",
    "Igakit.C61_remove",
    "Igakit.C61_remove_least"
   ],
   "note": "Smoothness of the homogeneous map; a rational map may be smoother than its homogeneous coordinates."
  },
  {
   "property": "C62",
   "status": "proved",
   "theorems": [
    "Igakit.C62_outside",
    "Igakit.C62_move",
    "Igakit.C62_weight"
   ],
   "note": ""
  },
  {
   "property": "C63",
   "status": "proved",
   "theorems": [
    "Igakit.C63_curve",
    "Igakit.C63_surface",
    "Igakit.C63_volume",
    "Igakit.C63_plot"
   ],
   "note": "Backend options, colours and figures are not modelled."
  },
  {
   "property": "C64",
   "status": "proved",
   "theorems": [
    "Igakit.C64_kwire",
    "Igakit.C64_ksurf",
    "Igakit.C64_kpoint",
    "Igakit.C64_cpoint",
    "Igakit.C64_kwire_negative"
   ],
   "note": "kwire with negative axis numbers other than -1 is wrong; C64_kwire_negative shows it on the unit square."
  },
  {
   "property": "C65",
   "status": "proved",
   "theorems": [
    "Igakit.C65_mpl_lines",
    "Igakit.C65_myv_lines",
    "Igakit.C65_mpl_surfs",
    "Igakit.C65_myv_surfs",
    "Igakit.C65_mpl_points",
    "Igakit.C65_cwire",
    "Igakit.C65_points",
    "Igakit.C65_point",
    "Igakit.C65_ksurf_surface"
   ],
   "note": "matplotlib's plot_wireframe and plot_surface with strides one are modelled by what they draw (rows and columns; cells)."
  },
  {
   "property": "C66",
   "status": "proved",
   "theorems": [
    "Igakit.C66_variation",
    "Igakit.C66_monotone"
   ],
   "note": "Proof: insertion of each parameter up to the degree only takes convex combinations of neighbours (corner cutting), and afterwards the points of the curve are control points."
  },
  {
   "property": "C67",
   "status": "proved",
   "theorems": [
    "Igakit.C67_corner",
    "Igakit.C67_boundary",
    "Igakit.C67_tangent"
   ],
   "note": "Over the reals for the gradient; the derivative at the end is one sided."
  },
  {
   "property": "C68",
   "status": "proved",
   "theorems": [
    "Igakit.C68_integral",
    "Igakit.C68_matrix",
    "Igakit.C68_load",
    "Igakit.C68_mass"
   ],
   "note": "Integrals over the reals with explicit error bounds of the form 3e-36 * constant * length (the table of nodes has 36 digits); the constants are 4^p * (2p/shortest span)^(number of derivatives). Positive definiteness is exact over every ordered field. Rounding errors are not modelled."
  },
  {
   "property": "C69",
   "status": "proved",
   "theorems": [
    "Igakit.C69_methods",
    "Igakit.C69_writes",
    "Igakit.C69_clone_shares"
   ],
   "note": "Refinement of a heap model by a value semantics; C69_clone_shares is the witness that the restriction on clone is needed."
  },
  {
   "property": "C70",
   "status": "proved",
   "theorems": [
    "Igakit.C70_extrude",
    "Igakit.C70_sweep",
    "Igakit.C70_ruled",
    "Igakit.C70_revolve",
    "Igakit.C70_coons",
    "Igakit.C70_join",
    "Igakit.C70_refine",
    "Igakit.C70_compat",
    "Igakit.C70_extrude_shares",
    "Igakit.C70_sweep_shares",
    "Igakit.C70_refine_isolated"
   ],
   "note": "Simulation of the value models by a heap model, with a frame condition; the C70_*_shares theorems state the sharing of knot arrays that does exist."
  },
  {
   "property": "C71",
   "status": "proved",
   "theorems": [
    "Igakit.C71_finite_nonneg",
    "Igakit.C71_error",
    "Igakit.C71_exact",
    "Igakit.C71_not_exact"
   ],
   "note": "Overflow is excluded; binary rounding with gradual underflow, and with unbounded exponents, are shown to satisfy the two sets of hypotheses."
  },
  {
   "property": "C72",
   "status": "proved",
   "theorems": [
    "Igakit.C72_call",
    "Igakit.growth_le"
   ],
   "note": "growth_le turns k roundings into k*delta/(1-k*delta). No overflow or underflow; operations rounded one by one (no fused multiply-add)."
  },
  {
   "property": "C73",
   "status": "proved",
   "theorems": [
    "Igakit.C73_InsertKnot",
    "Igakit.C73_points"
   ],
   "note": "No overflow or underflow; each operation rounded by itself; FindMult computes its differences with rounding."
  },
  {
   "property": "C74",
   "status": "proved",
   "theorems": [
    "Igakit.C74_remap",
    "Igakit.C74_remap_error",
    "Igakit.C74_remap_misses",
    "Igakit.C74_reverse_axes",
    "Igakit.C74_reverse",
    "Igakit.C74_reverse_again",
    "Igakit.C74_reverse_misses",
    "Igakit.C74_reverse_loses"
   ],
   "note": "No overflow or underflow; each operation rounded by itself. Exact ends for all intervals would be false of the code: see the _misses theorems."
  },
  {
   "property": "C75",
   "status": "proved",
   "theorems": [
    "Igakit.C75_KnotVector",
    "Igakit.C75_rejects",
    "Igakit.C75_refineVals",
    "Igakit.C75_not_equal"
   ],
   "note": "No overflow or underflow; no fused multiply-add. The spacing condition 2(delta M + (g^4-1)L) < L/E holds for doubles up to about 2^49 elements on [0,1]."
  },
  {
   "property": "C76",
   "status": "proved",
   "theorems": [
    "Igakit.C76_Greville",
    "Igakit.C76_low_degree",
    "Igakit.C76_inside",
    "Igakit.C76_leaves"
   ],
   "note": "The sum is formed from left to right in double precision, as gfortran does for SUM without reassociation."
  },
  {
   "property": "C77",
   "status": "proved",
   "theorems": [
    "Igakit.C77_no_fault",
    "Igakit.C77_insert",
    "Igakit.C77_clamp",
    "Igakit.C77_unclamp",
    "Igakit.C77_extract",
    "Igakit.C77_boundary",
    "Igakit.C77_refine",
    "Igakit.C77_slice",
    "Igakit.C77_elevate",
    "Igakit.C77_remove",
    "Igakit.C77_call",
    "Igakit.C77_spans",
    "Igakit.C77_breaks",
    "Igakit.C77_greville",
    "Igakit.C77_KnotVector",
    "Igakit.C77_basis",
    "Igakit.C77_few_points",
    "Igakit.C77_elevate_faults",
    "Igakit.C77_remove_faults",
    "Igakit.C77_bsp_faults"
   ],
   "note": "Model/Bounds*: each access checked against the declared bounds, explicit-shape arguments against the actual array; both operands of .and. evaluated. Derivative evaluators and quadrature data: C78, C79. Component index of control points not checked."
  },
  {
   "property": "C78",
   "status": "proved",
   "theorems": [
    "Igakit.C78_derivCore",
    "Igakit.C78_derivative",
    "Igakit.C78_no_fault",
    "Igakit.C78_partial_derivatives"
   ],
   "note": "Model/DerivLoops: flat storage with column-major offsets; one definition for the 1, 2, 3 parameter versions (nested loops over axes) and for the four orders. The value of fourth derivatives is the one of the code (C28), which is not the derivative for rational surfaces."
  },
  {
   "property": "C79",
   "status": "proved",
   "theorems": [
    "Igakit.C79_BasisData",
    "Igakit.C79_BasisDataCol",
    "Igakit.C79_BasisDataCol_no_fault",
    "Igakit.C79_tiny_span"
   ],
   "note": "Model/QuadLoops. B of the theorem is the model of C31."
  },
  {
   "property": "C80",
   "status": "proved",
   "theorems": [
    "Igakit.C80_minors",
    "Igakit.C80_interpolation",
    "Igakit.C80_interpolation_iff",
    "Igakit.C80_BasisDataCol",
    "Igakit.C80_Greville",
    "Igakit.C80_Greville_iff",
    "Igakit.C80_net",
    "Igakit.C80_call"
   ],
   "note": "Exact arithmetic."
  },
  {
   "property": "C81",
   "status": "proved",
   "theorems": [
    "Igakit.C81_names",
    "Igakit.C81_use",
    "Igakit.C81_get_set",
    "Igakit.C81_get_default",
    "Igakit.C81_history",
    "Igakit.C81_once",
    "Igakit.C81_draw",
    "Igakit.C81_keep",
    "Igakit.C81_lazy"
   ],
   "note": "Names are strings. What imports and library functions do is arbitrary (a function of everything that happened before)."
  },
  {
   "property": "C82",
   "status": "proved",
   "theorems": [
    "Igakit.C82_points",
    "Igakit.C82_quiver",
    "Igakit.C82_control",
    "Igakit.C82_knots",
    "Igakit.C82_kwire",
    "Igakit.C82_ksurf",
    "Igakit.C82_curve",
    "Igakit.C82_curve_mode",
    "Igakit.C82_surface",
    "Igakit.C82_plot_curve",
    "Igakit.C82_plot_surface",
    "Igakit.C82_plot_volume",
    "Igakit.C82_mpl_scatter",
    "Igakit.C82_mpl_line",
    "Igakit.C82_mpl_surf",
    "Igakit.C82_mpl_default",
    "Igakit.C82_mpl_leak"
   ],
   "note": "The functions of the backend are assumed not to raise. What the libraries draw from the options is not modelled."
  },
  {
   "property": "C83",
   "status": "proved",
   "theorems": [
    "Igakit.C83_history",
    "Igakit.C83_history_same",
    "Igakit.C83_slice",
    "Igakit.C83_extract",
    "Igakit.C83_boundary",
    "Igakit.C83_bounds",
    "Igakit.C83_points",
    "Igakit.C83_unclamp_negative"
   ],
   "note": "Exact arithmetic. A call that raises leaves the object as it is. C83_unclamp_negative is the counterexample for unclamp."
  },
  {
   "property": "C84",
   "status": "proved",
   "theorems": [
    "Igakit.C84_span",
    "Igakit.C84_span_nan",
    "Igakit.C84_span_fin",
    "Igakit.C84_insert",
    "Igakit.C84_extract",
    "Igakit.C84_slice",
    "Igakit.C84_eval",
    "Igakit.C84_refine",
    "Igakit.C84_nan_domain",
    "Igakit.C84_remap_nan",
    "Igakit.C84_remap_fin",
    "Igakit.C84_remap_inf"
   ],
   "note": "Doubles are numbers, two infinities and NaN; operations on numbers are exact (no rounding, no overflow)."
  },
  {
   "property": "C85",
   "status": "proved",
   "theorems": [
    "Igakit.C85_compose",
    "Igakit.C85_again",
    "Igakit.C85_whole",
    "Igakit.C85_axes",
    "Igakit.C85_section",
    "Igakit.C85_ends",
    "Igakit.C85_cut",
    "Igakit.C85_refine"
   ],
   "note": "Interior knots have at most degree multiplicity; values that differ from knots differ by at least epsilon. Exact arithmetic."
  },
  {
   "property": "C86",
   "status": "proved",
   "theorems": [
    "Igakit.C86_same",
    "Igakit.C86_history",
    "Igakit.C86_slice",
    "Igakit.C86_section",
    "Igakit.C86_chain",
    "Igakit.C86_mapped",
    "Igakit.C86_calls"
   ],
   "note": "Default fields (or coordinates if there are none). Chain rule at parameters that are no knots before and after, where reversing does not exchange the sides. Exact arithmetic."
  },
  {
   "property": "C87",
   "status": "proved",
   "theorems": [
    "Igakit.C87_slopes",
    "Igakit.C87_distance",
    "Igakit.C87_converges",
    "Igakit.C87_points",
    "Igakit.C87_acts"
   ],
   "note": "Exact arithmetic; tame arguments as in C46 (values apart from the knots and inside the domain)."
  },
  {
   "property": "C88",
   "status": "proved",
   "theorems": [
    "Igakit.C88_rejoin",
    "Igakit.C88_restored",
    "Igakit.C88_smooth"
   ],
   "note": "Exact arithmetic. For a knot of higher multiplicity the map is recovered up to the tolerance only, since removal may remove more copies than the object had lost."
  },
  {
   "property": "C89",
   "status": "proved",
   "theorems": [
    "Igakit.C89_bin",
    "Igakit.C89_overflow",
    "Igakit.C89_same",
    "Igakit.C89_elevate_partial",
    "Igakit.C89_point",
    "Igakit.C89_wrong"
   ],
   "note": "C89_elevate_partial carries the restriction of C16 (NoJump above degree 9), nothing else is missing. Wrapping is the behaviour of the machine instruction; the Fortran standard leaves the overflow undefined, which C89_overflow states without it."
  },
  {
   "property": "C90",
   "status": "proved",
   "theorems": [
    "Igakit.C90_RefineKnotVector",
    "Igakit.C90_insert",
    "Igakit.C90_refine",
    "Igakit.C90_history",
    "Igakit.C90_points",
    "Igakit.C90_call"
   ],
   "note": "Roundings are relative, without overflow or underflow; knots are compared in machine arithmetic with eps, differences of separated knots assumed to stay at least eps after rounding (shown for a binary format in the example)."
  },
  {
   "property": "C91",
   "status": "proved",
   "theorems": [
    "Igakit.C91_extract",
    "Igakit.C91_boundary",
    "Igakit.C91_boundary_exact",
    "Igakit.C91_clamp",
    "Igakit.C91_slice",
    "Igakit.C91_history",
    "Igakit.C91_points",
    "Igakit.C91_call"
   ],
   "note": "Roundings are relative, without overflow or underflow; differences of separated knots are assumed to stay at least eps after rounding. The conditions on multiplicities are those of the exact theorems C10, C11, C13."
  },
  {
   "property": "C92",
   "status": "proved",
   "theorems": [
    "Igakit.C92_data",
    "Igakit.C92_integral",
    "Igakit.C92_matrix",
    "Igakit.C92_mass",
    "Igakit.C92_partials",
    "Igakit.C92_volume",
    "Igakit.C92_volume_same"
   ],
   "note": "The assembling loops are the user's (Spec/AssembleN); the library part is BasisData. Volumes for weights equal to 1. Exact arithmetic except for the tabulated Gauss points, whose error is included."
  },
  {
   "property": "C93",
   "status": "partial",
   "theorems": [
    "Igakit.C93_conformal_partial",
    "Igakit.C93_value",
    "Igakit.C93_rational",
    "Igakit.C93_elements",
    "Igakit.C93_weights"
   ],
   "note": "Proved for weights 1 and elements that are squares of one size (C93_conformal_partial). False in general: the weight of a point is Ju*Ju instead of Ju*Jv, and homogeneous instead of Cartesian coordinates are used; for equal weights w and elements h0 by h1 the square is off by the factor w^2*h0/h1 (C93_value), for arbitrary positive weights the number is that of the surface whose Cartesian control points are the homogeneous ones (C93_rational), with concrete surfaces in C93_elements and C93_weights."
  },
  {
   "property": "C94",
   "status": "proved",
   "theorems": [
    "Igakit.C94_minimal",
    "Igakit.C94_solvable",
    "Igakit.C94_unique"
   ],
   "note": "The minimised number is the one ConformalProjectionError computes, with its defects (C93). numpy.linalg.solve is exact in the model. Regularity is proved for equal weights, a first knot of full multiplicity and continuity in direction 1, and interior knots of multiplicity at most p+1 in direction 0."
  },
  {
   "property": "C95",
   "status": "proved",
   "theorems": [
    "Igakit.C95_insert",
    "Igakit.C95_spans",
    "Igakit.C95_refine",
    "Igakit.C95_single",
    "Igakit.C95_negative",
    "Igakit.C95_zero",
    "Igakit.C95_empty"
   ],
   "note": "Exact arithmetic; searchsorted, sort and setdiff1d by their specification on sorted arrays. The refinement needs knots inside of multiplicity at most the degree and a bound of at least twice the epsilon of the knot search."
  },
  {
   "property": "C96",
   "status": "proved",
   "theorems": [
    "Igakit.C96_extrude",
    "Igakit.C96_sweep",
    "Igakit.C96_revolve"
   ],
   "note": "revolve under the hypotheses of C36: the axis does not point along the negative third axis, before and after the motion. Points where the weight is not zero."
  },
  {
   "property": "C97",
   "status": "partial",
   "theorems": [
    "Igakit.C97_ruled_partial",
    "Igakit.C97_coons_partial",
    "Igakit.C97_coons_unit"
   ],
   "note": "As C35 and C37: for inputs that compat treats correctly (clamped, knots equal or further apart than epsilon, inner multiplicity within the limits of elevation). C97_coons_unit shows that the tolerance of the corner test depends on the unit of length."
  },
  {
   "property": "C98",
   "status": "proved",
   "theorems": [
    "Igakit.C98_extrude_refine",
    "Igakit.C98_extrude_section",
    "Igakit.C98_extrude_ends",
    "Igakit.C98_sweep_refine",
    "Igakit.C98_sweep_section",
    "Igakit.C98_revolve_refine",
    "Igakit.C98_revolve_section"
   ],
   "note": "Exact arithmetic. Equality is that of all observable data: number of components, shape, knots, control points. Hypotheses as for C48, C50 (refinement), C58 (sections) and C36 (revolve: axis not (0,0,-1), angle difference below 4 pi)."
  },
  {
   "property": "C99",
   "status": "proved",
   "theorems": [
    "Igakit.C99_dot",
    "Igakit.C99_dot_exact",
    "Igakit.C99_net",
    "Igakit.C99_exact",
    "Igakit.C99_weights",
    "Igakit.C99_points",
    "Igakit.C99_call",
    "Igakit.C99_total",
    "Igakit.C99_unrounded",
    "Igakit.C99_order",
    "Igakit.C99_no_inverse"
   ],
   "note": "No overflow, no underflow (relative error model). The entries of the matrix are taken as given; rounding in building the matrix is not included."
  }
 ]
}