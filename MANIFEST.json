{
 "claims": [
  {
   "property": "C01",
   "status": "partial",
   "theorems": [
    "Verif.Grid.C01_given",
    "Verif.Grid.C01_first",
    "Verif.Grid.C01_first_last",
    "Verif.Grid.C01_extent",
    "Verif.Grid.C01_extent_step",
    "Verif.Grid.C01_extent_step_shape",
    "Verif.Grid.C01_last_partial",
    "Verif.Grid.C01_broadcast",
    "Verif.Grid.C01_ndim",
    "Verif.Grid.C01_reconstruct",
    "Verif.Grid.C01_last_ignored",
    "Verif.Grid.C01_last_ignored_witness",
    "Verif.Grid.C01_last_truncated",
    "Verif.Grid.C01_last_center_rounded",
    "Verif.Grid.C01_step_short",
    "Verif.Grid.C01_arguments",
    "Verif.Grid.C01_misfits",
    "Verif.Grid.C01_ndim_given",
    "Verif.Grid.C01_multidimensional",
    "Verif.Grid.C01_len",
    "Verif.Grid.C01_size",
    "Verif.Grid.C01_axis",
    "Verif.Grid.C01_axis_error",
    "Verif.Grid.C01_default_step_violates"
   ],
   "note": "All given arguments but `last` are reproduced whenever the constructor returns; consistent arguments are accepted and give the grid they were taken from. The relation for `last` is proved where it holds and refuted where the code violates it."
  },
  {
   "property": "C02",
   "status": "proved",
   "theorems": [
    "Verif.Grid.C02_ordered",
    "Verif.Grid.C02_fftOrder",
    "Verif.Grid.C02_length",
    "Verif.Grid.C02_center",
    "Verif.Grid.C02_symmetric",
    "Verif.Grid.C02_first",
    "Verif.Grid.C02_getAxis",
    "Verif.Grid.C02_getElement",
    "Verif.Grid.C02_axisShape"
   ],
   "note": ""
  },
  {
   "property": "C03",
   "status": "proved",
   "theorems": [
    "Verif.Grid.C03_from_ranges"
   ],
   "note": ""
  },
  {
   "property": "C04",
   "status": "proved",
   "theorems": [
    "Verif.Grid.C04_add",
    "Verif.Grid.C04_sub",
    "Verif.Grid.C04_mul",
    "Verif.Grid.C04_truediv",
    "Verif.Grid.C04_neg",
    "Verif.Grid.C04_matmul"
   ],
   "note": ""
  },
  {
   "property": "C05",
   "status": "proved",
   "theorems": [
    "Verif.Grid.C05_freq",
    "Verif.Grid.C05_k",
    "Verif.Grid.C05_twice",
    "Verif.Grid.C05_zero_step"
   ],
   "note": ""
  },
  {
   "property": "C06",
   "status": "partial",
   "theorems": [
    "Verif.Grid.C06_keep",
    "Verif.Grid.C06_remove",
    "Verif.Grid.C06_index_error",
    "Verif.Grid.C06_transpose",
    "Verif.Grid.C06_transpose_twice",
    "Verif.Grid.C06_swapaxes",
    "Verif.Grid.C06_swapaxes_all",
    "Verif.Grid.C06_swapaxes_raises",
    "Verif.Grid.C06_swapaxes_violates"
   ],
   "note": "axes_to_remove is not range checked by the code; the theorem is about axes in range.  Refuted for swapaxes of an empty list and of a slice, which raise an IndexError."
  },
  {
   "property": "C07",
   "status": "partial",
   "theorems": [
    "Verif.Grid.C07_eq_iff",
    "Verif.Grid.C07_equivalence_partial",
    "Verif.Grid.C07_coords",
    "Verif.Grid.C07_hash_partial",
    "Verif.Grid.C07_repr_iff",
    "Verif.Grid.C07_broadcast",
    "Verif.Grid.C07_not_transitive",
    "Verif.Grid.C07_hash_differs",
    "Verif.Grid.C07_empty_violates"
   ],
   "note": "Proved for grids of equal ndim (and equal scalar/vector origin for the hash); refuted in general."
  },
  {
   "property": "C08",
   "status": "partial",
   "theorems": [
    "Verif.Grid.C08_first",
    "Verif.Grid.C08_assign_partial",
    "Verif.Grid.C08_first_reads_back",
    "Verif.Grid.C08_step",
    "Verif.Grid.C08_in_place",
    "Verif.Grid.C08_in_place_none",
    "Verif.Grid.C08_center_truncated",
    "Verif.Grid.C08_in_place_type",
    "Verif.Grid.C08_dtype"
   ],
   "note": "Refinement of a record specification for all assignment sequences on floating point grids; in-place operators and integer grids are refuted."
  },
  {
   "property": "C09",
   "status": "proved",
   "theorems": [
    "Verif.Grid.C09_flat",
    "Verif.Grid.C09_origin",
    "Verif.Grid.C09_copy"
   ],
   "note": ""
  },
  {
   "property": "C10",
   "status": "partial",
   "theorems": [
    "Verif.Grid.C10_no_default",
    "Verif.Grid.C10_shape_partial",
    "Verif.Grid.C10_shape_center_partial",
    "Verif.Grid.C10_shape_first_partial",
    "Verif.Grid.C10_shape_last_partial",
    "Verif.Grid.C10_extent_partial",
    "Verif.Grid.C10_step_partial",
    "Verif.Grid.C10_first_step"
   ],
   "note": "The defaults that work are proved; the code raises for all argument sets without shape, extent and step, and for first with step."
  },
  {
   "property": "C11",
   "status": "partial",
   "theorems": [
    "Verif.Dim.C11_left_to_add",
    "Verif.Dim.C11_left_to_remove",
    "Verif.Dim.C11_left_to_raises_partial",
    "Verif.Dim.C11_left_to_empty_violates",
    "Verif.Dim.C11_right_to_add",
    "Verif.Dim.C11_right_to_remove_ndim",
    "Verif.Dim.C11_right_to_remove_partial",
    "Verif.Dim.C11_right_to_violates",
    "Verif.Dim.C11_add_both",
    "Verif.Dim.C11_add_left_ndim",
    "Verif.Dim.C11_add_right_ndim",
    "Verif.Dim.C11_elements"
   ],
   "note": "Adding axes, and removing on the left of non-empty arrays, is proved. Removing on the right keeps the axes it should drop (dim.py 48), and empty arrays lose non-singleton axes: both refuted."
  },
  {
   "property": "C12",
   "status": "partial",
   "theorems": [
    "Verif.Dim.C12_to_axis",
    "Verif.Dim.C12_to_axis_default",
    "Verif.Dim.C12_to_axis_array",
    "Verif.Dim.C12_to_axis_matrix_negative_violates",
    "Verif.Dim.C12_to_axis_scalar_violates"
   ],
   "note": "Proved for vectors with every axis and arrays with non-negative axis. Refuted for arrays with a negative axis and for scalars."
  },
  {
   "property": "C13",
   "status": "partial",
   "theorems": [
    "Verif.Round125.C13_zero",
    "Verif.Round125.C13_series",
    "Verif.Round125.C13_odd",
    "Verif.Round125.C13_monotone",
    "Verif.Round125.C13_thresholds",
    "Verif.Round125.C13_fixed_partial",
    "Verif.Round125.C13_scaling_partial",
    "Verif.Round125.C13_near",
    "Verif.Round125.C13_nearest_violates",
    "Verif.Round125.C13_tiny",
    "Verif.Round125.C13_tiny_violates",
    "Verif.Round125.C13_tie_violates",
    "Verif.Round125.C13_int"
   ],
   "note": "Results are in the series, odd, monotone, with the exact thresholds. \"Nearest\", and inputs under 1e-10, are refuted."
  },
  {
   "property": "C14",
   "status": "proved",
   "theorems": [
    "Verif.StopCriterion.C14_reason",
    "Verif.StopCriterion.C14_target"
   ],
   "note": ""
  },
  {
   "property": "C15",
   "status": "partial",
   "theorems": [
    "Verif.StopCriterion.C15_limit_partial",
    "Verif.StopCriterion.C15_small_limit_partial",
    "Verif.StopCriterion.C15_limit_violates",
    "Verif.StopCriterion.C15_raises_violates",
    "Verif.StopCriterion.C15_zero_target_violates",
    "Verif.StopCriterion.C15_negative_target_violates",
    "Verif.StopCriterion.C15_zero_residue",
    "Verif.StopCriterion.C15_raises",
    "Verif.StopCriterion.C15_next_check"
   ],
   "note": "The iteration limit is enforced for limits up to 51; refuted in general by a growing residue, by a constant residue (raises) and by a zero target (raises)."
  },
  {
   "property": "C16",
   "status": "proved",
   "theorems": [
    "Verif.Display.C16_defined",
    "Verif.Display.C16_range",
    "Verif.Display.C16_periodic",
    "Verif.Display.C16_principal",
    "Verif.Display.C16_negative_hue_violates"
   ],
   "note": "Hues that are not negative; negative hues are refuted as an extra."
  },
  {
   "property": "C17",
   "status": "partial",
   "theorems": [
    "Verif.Display.C17_grey",
    "Verif.Display.C17_mirror",
    "Verif.Display.C17_roundtrip_partial",
    "Verif.Display.C17_violates"
   ],
   "note": "rgb2hsv returns the mirrored hue: the round trip holds exactly where the middle channel is half way (or grey); refuted in general."
  },
  {
   "property": "C18",
   "status": "partial",
   "theorems": [
    "Verif.Display.C18_range",
    "Verif.Display.C18_total",
    "Verif.Display.C18_normalization",
    "Verif.Display.C18_integer_violates",
    "Verif.Display.C18_zero",
    "Verif.Display.C18_brightness",
    "Verif.Display.C18_saturation",
    "Verif.Display.C18_scaling",
    "Verif.Display.C18_injective",
    "Verif.Display.C18_integer"
   ],
   "note": "Proved for complex and floating point arrays; integer arrays with normalization raise."
  },
  {
   "property": "C19",
   "status": "proved",
   "theorems": [
    "Verif.Display.C19_extent",
    "Verif.Display.C19_single",
    "Verif.Display.C19_short"
   ],
   "note": ""
  },
  {
   "property": "C20",
   "status": "partial",
   "theorems": [
    "Verif.Bound.C20_complementary",
    "Verif.Bound.C20_between_partial",
    "Verif.Bound.C20_extinction_between_partial",
    "Verif.Bound.C20_extinction_beyond_partial",
    "Verif.Bound.C20_negative_step_violates",
    "Verif.Bound.C20_scalar_grid_violates",
    "Verif.Bound.C20_origin_violates"
   ],
   "note": "Proved for positive steps; refuted for negative steps, for grids made of scalars, and for grids with origin_at_center=False."
  },
  {
   "property": "C21",
   "status": "partial",
   "theorems": [
    "Verif.Bound.C21_profile_partial",
    "Verif.Bound.C21_range_partial",
    "Verif.Bound.C21_outermost_partial",
    "Verif.Bound.C21_monotone_partial",
    "Verif.Bound.C21_negative_step_violates",
    "Verif.Bound.C21_origin_violates"
   ],
   "note": "Proved for positive steps; refuted for negative steps and for grids with origin_at_center=False."
  },
  {
   "property": "C22",
   "status": "proved",
   "theorems": [
    "Verif.Bound.C22_no_gain",
    "Verif.Bound.C22_interior",
    "Verif.Bound.C22_square",
    "Verif.Bound.C22_bound"
   ],
   "note": ""
  },
  {
   "property": "C23",
   "status": "proved",
   "theorems": [
    "Verif.Fourier.C23_ift_ft",
    "Verif.Fourier.C23_ft_ift",
    "Verif.Fourier.C23_ft_linear",
    "Verif.Fourier.C23_ift_linear",
    "Verif.Fourier.C23_inner",
    "Verif.Fourier.C23_energy",
    "Verif.Fourier.C23_plane_wave"
   ],
   "note": ""
  },
  {
   "property": "C24",
   "status": "proved",
   "theorems": [
    "Verif.Backend.C24_kOf",
    "Verif.Backend.C24_curl_ft",
    "Verif.Backend.C24_curl_ft_scalar",
    "Verif.Backend.C24_div_ft",
    "Verif.Backend.C24_div_ft_short",
    "Verif.Backend.C24_cross",
    "Verif.Backend.C24_div_curl_ft",
    "Verif.Backend.C24_curl_gradient_ft",
    "Verif.Backend.C24_div_curl"
   ],
   "note": ""
  },
  {
   "property": "C25",
   "status": "proved",
   "theorems": [
    "Verif.Backend.C25_sum_ft",
    "Verif.Backend.C25_longitudinal_ft_longitudinal",
    "Verif.Backend.C25_longitudinal_ft_transversal",
    "Verif.Backend.C25_transversal_ft_longitudinal",
    "Verif.Backend.C25_transversal_ft_transversal",
    "Verif.Backend.C25_orthogonal_ft",
    "Verif.Backend.C25_transversal_div_ft",
    "Verif.Backend.C25_longitudinal_curl_ft",
    "Verif.Backend.C25_unique_ft",
    "Verif.Backend.C25_zero_frequency",
    "Verif.Backend.C25_sum",
    "Verif.Backend.C25_idempotent",
    "Verif.Backend.C25_orthogonal",
    "Verif.Backend.C25_div_curl"
   ],
   "note": ""
  },
  {
   "property": "C26",
   "status": "partial",
   "theorems": [
    "Verif.Roots.C26_linear",
    "Verif.Roots.C26_quadratic",
    "Verif.Roots.C26_quadratic_partial",
    "Verif.Roots.C26_quadratic_violates",
    "Verif.Roots.C26_cubic",
    "Verif.Roots.C26_cubic_partial",
    "Verif.Roots.C26_cubic_triple",
    "Verif.Roots.C26_cubic_error",
    "Verif.Roots.C26_cubic_violates",
    "Verif.Roots.C26_roots",
    "Verif.Roots.C26_full",
    "Verif.Roots.C26_zero",
    "Verif.Roots.C26_order",
    "Verif.Roots.C26_degree",
    "Verif.Roots.C26_evaluate",
    "Verif.Roots.C26_torch_violates"
   ],
   "note": "Degree one: proved. Degree two: characterised exactly (right if and only if the constant coefficient is 0, or it or q is significant); refuted for small coefficients. Degree three: right when some root is further than 2 sqrt(eps) from the average root, or for triple roots; otherwise within 2 sqrt(eps); refuted near the average. Negligible leading coefficients, order and NaN are proved. Refuted for torch, which returns real parts."
  },
  {
   "property": "C27",
   "status": "partial",
   "theorems": [
    "Verif.Roots.C27_partial",
    "Verif.Roots.C27_multiple",
    "Verif.Roots.C27_error",
    "Verif.Roots.C27_real",
    "Verif.Roots.C27_violates",
    "Verif.Roots.C27_diagonal"
   ],
   "note": "Proved for all matrices with an eigenvalue further than 2 sqrt(eps) from the average or with a triple eigenvalue, with an error of at most 4 sqrt(eps) otherwise; refuted for tiny eigenvalues."
  },
  {
   "property": "C28",
   "status": "partial",
   "theorems": [
    "Verif.MatrixField.C28_mul",
    "Verif.MatrixField.C28_mul_vec",
    "Verif.MatrixField.C28_mul_out_partial",
    "Verif.MatrixField.C28_mul_out_violates",
    "Verif.MatrixField.C28_subtract",
    "Verif.MatrixField.C28_adjoint",
    "Verif.MatrixField.C28_ldivide_partial",
    "Verif.MatrixField.C28_inv",
    "Verif.MatrixField.C28_ldivide_varying_raises_violates",
    "Verif.MatrixField.C28_ldivide_varying_silent_violates"
   ],
   "note": "The product without out, subtract, adjoint and inverse agree with the linear algebra. Refuted: a product into an out that is not one of the factors, and ldivide of a scalar field that varies in space by a matrix field."
  },
  {
   "property": "C29",
   "status": "partial",
   "theorems": [
    "Verif.Config.C29_first",
    "Verif.Config.C29_numpy",
    "Verif.Config.C29_history",
    "Verif.Config.C29_rejects",
    "Verif.Config.C29_file_unreadable",
    "Verif.Config.C29_config_list_violates",
    "Verif.Config.C29_file_dict_violates",
    "Verif.Config.C29_list_grows"
   ],
   "note": "Proved for dictionaries, and which arguments are rejected. Refuted for the documented list form of config, and for a configuration file with a single dictionary."
  },
  {
   "property": "C30",
   "status": "partial",
   "theorems": [
    "Verif.Assign.C30_scalar",
    "Verif.Assign.C30_full_rank",
    "Verif.Assign.C30_spatial",
    "Verif.Assign.C30_broadcast_partial",
    "Verif.Assign.C30_raises_partial",
    "Verif.Assign.C30_exact",
    "Verif.Assign.C30_tile_violates",
    "Verif.Assign.C30_vector_violates"
   ],
   "note": "What can be broadcast is. Refuted: shapes that divide the grid are tiled instead of rejected, and one-dimensional vectors are not repeated for all space."
  },
  {
   "property": "C31",
   "status": "proved",
   "theorems": [
    "Verif.Solver.C31_consistent",
    "Verif.Solver.C31_angular_frequency",
    "Verif.Solver.C31_wavelength",
    "Verif.Solver.C31_wavenumber",
    "Verif.Solver.C31_positive",
    "Verif.Solver.C31_backend"
   ],
   "note": ""
  },
  {
   "property": "C32",
   "status": "partial",
   "theorems": [
    "Verif.Solver.C32_wave_equation",
    "Verif.Solver.C32_update_zero",
    "Verif.Solver.C32_update_zero_iff",
    "Verif.Solver.C32_scalar",
    "Verif.Solver.C32_uniform_permeability",
    "Verif.Solver.C32_scalar_uniform_permeability",
    "Verif.Solver.C32_complex_permeability_violates"
   ],
   "note": "Proved for media whose permeability, if uniform and isotropic, is real (hypothesis RealPermeability), for all admissible alpha and beta. For a uniform isotropic complex permeability it is proved which equation is solved instead, and the claim is refuted."
  },
  {
   "property": "C33",
   "status": "proved",
   "theorems": [
    "Verif.Solver.C33_change_bias",
    "Verif.Solver.C33_change_bias_repeated",
    "Verif.Solver.C33_solutions",
    "Verif.Solver.C33_source"
   ],
   "note": ""
  },
  {
   "property": "C34",
   "status": "proved",
   "theorems": [
    "Verif.Solver.C34_update",
    "Verif.Solver.C34_error",
    "Verif.Solver.C34_scalar_update",
    "Verif.Solver.C34_scalar_error"
   ],
   "note": ""
  },
  {
   "property": "C35",
   "status": "partial",
   "theorems": [
    "Verif.Solver.C35_unique",
    "Verif.Solver.C35_uniform",
    "Verif.Solver.C35_converges",
    "Verif.Solver.C35_absorbing",
    "Verif.Solver.C35_scalar",
    "Verif.Solver.C35_constructed",
    "Verif.Solver.C35_constructed_magnetic",
    "Verif.Solver.C35_negative_permeability_violates",
    "Verif.Solver.ConvergesExponentially.bound",
    "Verif.Solver.ConvergesExponentially.tendsto"
   ],
   "note": "Proved with a geometric rate when the solution is unique, and without rate when there are several; also for the constants that the code selects. An execution either gets arbitrarily close or raises ZeroDivisionError, the latter only after the field was exact. Refuted for a uniform negative permeability, where every execution stalls."
  },
  {
   "property": "C36",
   "status": "partial",
   "theorems": [
    "Verif.Solver.C36_increase",
    "Verif.Solver.C36_bias",
    "Verif.Solver.C36_bias_magnetic",
    "Verif.Solver.C36_gain",
    "Verif.Solver.C36_gain_violates"
   ],
   "note": "Proved without gain (any boundary, permeability and coupling). Refuted with gain: the conjugated bias is then reduced by 0.05."
  },
  {
   "property": "C37",
   "status": "proved",
   "theorems": [
    "Verif.Solver.C37_iteration",
    "Verif.Solver.C37_decreasing",
    "Verif.Solver.C37_progress"
   ],
   "note": ""
  },
  {
   "property": "C38",
   "status": "partial",
   "theorems": [
    "Verif.Solver.C38_first_partial",
    "Verif.Solver.C38_violates",
    "Verif.Solver.C38_zero_source_violates"
   ],
   "note": "The first iteration at the exact solution leaves the field; the second raises ZeroDivisionError (refuted)."
  },
  {
   "property": "C39",
   "status": "partial",
   "theorems": [
    "Verif.Solver.C39_callback",
    "Verif.Solver.C39_tolerance",
    "Verif.Solver.C39_running",
    "Verif.Solver.C39_raises",
    "Verif.Solver.C39_limit",
    "Verif.Solver.C39_function",
    "Verif.Solver.C39_arguments_violates",
    "Verif.Solver.C39_zero_violates"
   ],
   "note": "Proved for a callback and for callback=None, with the exact conditions to continue, to return and to raise. Refuted: rtol and maxiter are ignored unless callback=None is given explicitly; maxiter=0 makes an iteration."
  },
  {
   "property": "C40",
   "status": "partial",
   "theorems": [
    "Verif.Solver.C40_value",
    "Verif.Solver.C40_history_partial",
    "Verif.Solver.C40_assign_violates",
    "Verif.Solver.C40_initial_violates"
   ],
   "note": "Proved for all histories without assignments. Refuted after assignments, and for a zero field."
  },
  {
   "property": "C41",
   "status": "partial",
   "theorems": [
    "Verif.Solver.C41_field",
    "Verif.Solver.C41_source",
    "Verif.Solver.C41_source_constructed",
    "Verif.Solver.C41_current",
    "Verif.Solver.C41_relation",
    "Verif.Solver.C41_current_constructed",
    "Verif.Solver.C41_documented_violates"
   ],
   "note": "Round trips and the relation of j to the source are proved. The documented relation has the opposite sign (refuted)."
  },
  {
   "property": "C42",
   "status": "partial",
   "theorems": [
    "Verif.Solver.C42_read_partial",
    "Verif.Solver.C42_read_violates",
    "Verif.Solver.C42_assign",
    "Verif.Solver.C42_assign_partial",
    "Verif.Solver.C42_assign_violates",
    "Verif.Solver.C42_residue_violates"
   ],
   "note": "What reading and assigning do is characterised exactly, for all histories (Represents). Reading misses the bias and so never gives the permittivity; assigning subtracts the permittivity of the boundary instead of adding it, right only without electric boundary; a residue that was read before survives."
  },
  {
   "property": "C43",
   "status": "proved",
   "theorems": [
    "Verif.Solver.C43_faraday",
    "Verif.Solver.C43_ampere",
    "Verif.Solver.C43_magnetic",
    "Verif.Solver.C43_electric",
    "Verif.Solver.represents_history"
   ],
   "note": "The electric response holds if and only if the field solves the wave equation; the others hold for all states. The hypothesis Represents holds after any history of operations (represents_history)."
  },
  {
   "property": "C44",
   "status": "partial",
   "theorems": [
    "Verif.Solver.C44_response",
    "Verif.Solver.C44_reciprocal_partial",
    "Verif.Solver.C44_uniform_partial",
    "Verif.Solver.C44_violates",
    "Verif.Solver.C43_magnetic"
   ],
   "note": "The magnetic relation holds for all states. The electric relation holds exactly if exchanging the two coupling tensors does not matter for the field: proved for chiral reciprocal media and for uniform isotropic ones, refuted for a Tellegen medium that varies in space."
  },
  {
   "property": "C45",
   "status": "partial",
   "theorems": [
    "Verif.Solver.C45_poynting",
    "Verif.Solver.C45_scalar",
    "Verif.Solver.C45_divergence_partial",
    "Verif.Solver.C45_divergence_violates",
    "Verif.Solver.C45_force",
    "Verif.Solver.C45_stress",
    "Verif.Solver.C45_symmetric",
    "Verif.Solver.C45_trace",
    "Verif.Solver.C45_torque",
    "Verif.Solver.C45_energy",
    "Verif.Solver.C45_energy_partial",
    "Verif.Solver.C45_energy_violates"
   ],
   "note": "Proved: S, stress tensor (symmetric, trace), force as its divergence, energy density of exact solutions. Refuted: divS misses the factor k0; the energy density of fields that have not converged can be negative. S is zero in scalar calculations."
  },
  {
   "property": "C46",
   "status": "partial",
   "theorems": [
    "Verif.Solver.C46_product",
    "Verif.Solver.C46_positive",
    "Verif.Solver.C46_negative",
    "Verif.Solver.C46_tensor",
    "Verif.Solver.C46_tensor_violates",
    "Verif.Solver.C46_assign_partial",
    "Verif.Solver.C46_assign_negative_violates",
    "Verif.Solver.C46_assign_tensor_violates"
   ],
   "note": "The constructor is proved for numbers and tensors. Assigning has the same effect only for numbers with a real part that is not negative and without boundary; refuted for negative indices and for tensors that are not diagonal."
  },
  {
   "property": "C47",
   "status": "partial",
   "theorems": [
    "Verif.Mat.C47_scattering",
    "Verif.Mat.C47_array",
    "Verif.Mat.C47_array_ignored",
    "Verif.Mat.C47_deposition",
    "Verif.Mat.C47_calls",
    "Verif.Mat.C47_calls_array",
    "Verif.Mat.C47_switch",
    "Verif.Mat.C47_mixin_partial",
    "Verif.Mat.C47_mixin_violates",
    "Verif.Mat.C47_mixin_zero_violates"
   ],
   "note": "Proved for scattering and deposition matrices, for all histories of products, columns and caching switches. Refuted for the mixin by itself: without out argument a cached column raises."
  },
  {
   "property": "C48",
   "status": "partial",
   "theorems": [
    "Verif.Mat.C48_relation",
    "Verif.Mat.C48_exists",
    "Verif.Mat.C48_unique",
    "Verif.Mat.C48_involution",
    "Verif.Mat.C48_noise",
    "Verif.Mat.C48_power",
    "Verif.Mat.C48_odd",
    "Verif.Mat.C48_integer_violates"
   ],
   "note": "Proved for real and complex matrices of even size, with the singular value decomposition as specified by numpy. Refuted for integer matrices, of which the result is truncated."
  },
  {
   "property": "C49",
   "status": "proved",
   "theorems": [
    "Verif.Mat.C49_tikhonov",
    "Verif.Mat.C49_svd",
    "Verif.Mat.C49_exact",
    "Verif.Mat.C49_minimum",
    "Verif.Mat.C49_bounded",
    "Verif.Mat.C49_square"
   ],
   "note": ""
  },
  {
   "property": "C50",
   "status": "proved",
   "theorems": [
    "Verif.Mat.C50_entries",
    "Verif.Mat.C50_blocks",
    "Verif.Mat.C50_rebuild",
    "Verif.Mat.C50_odd"
   ],
   "note": ""
  },
  {
   "property": "C51",
   "status": "partial",
   "theorems": [
    "Verif.Mat.C51_columns",
    "Verif.Mat.C51_partial",
    "Verif.Mat.C51_element",
    "Verif.Mat.C51_many",
    "Verif.Mat.C51_rectangular_violates",
    "Verif.Mat.C51_empty_violates"
   ],
   "note": "Proved for square matrices and all indices made of integers, slices and new axes that select at least one column. Refuted for all rectangular matrices (every index with two elements, and every row, raises) and for empty selections."
  },
  {
   "property": "C52",
   "status": "proved",
   "theorems": [
    "Verif.Scattering.C52_swap",
    "Verif.Scattering.C52_involution",
    "Verif.Scattering.C52_sides",
    "Verif.Scattering.C52_field"
   ],
   "note": ""
  },
  {
   "property": "C53",
   "status": "partial",
   "theorems": [
    "Verif.Scattering.C53_sound",
    "Verif.Scattering.C53_members_partial",
    "Verif.Scattering.C53_members_one",
    "Verif.Scattering.C53_members_two",
    "Verif.Scattering.C53_members_zero",
    "Verif.Scattering.C53_order",
    "Verif.Scattering.C53_reverse_partial",
    "Verif.Scattering.C53_tolerance_violates",
    "Verif.Scattering.C53_reverse_violates",
    "Verif.Scattering.ofGrid_position",
    "Verif.Scattering.ofGrid_transverse",
    "Verif.Scattering.ofGrid_kFft",
    "Verif.Scattering.ofGrid_kShifted"
   ],
   "note": "All modes propagate, and are in raster order. Modes within the (absolute) tolerance of the limit are missing (refuted; exact condition proved for one and two transverse axes); reversal fails for the Nyquist frequency of coarse even grids (refuted)."
  },
  {
   "property": "C54",
   "status": "partial",
   "theorems": [
    "Verif.Scattering.C54_partial",
    "Verif.Scattering.C54_detect",
    "Verif.Scattering.C54_code",
    "Verif.Scattering.C54_longitudinal",
    "Verif.Scattering.C54_violates"
   ],
   "note": "Proved for all vectors of which each side is zero or has a mode with an amplitude above 1e-8, on grids for which C53_reverse_partial holds. Refuted for tiny amplitudes."
  },
  {
   "property": "C55",
   "status": "proved",
   "theorems": [
    "Verif.Beam.C55_add",
    "Verif.Beam.C55_zero",
    "Verif.Beam.C55_inverse",
    "Verif.Beam.C55_energy"
   ],
   "note": ""
  },
  {
   "property": "C56",
   "status": "partial",
   "theorems": [
    "Verif.Beam.C56_partial",
    "Verif.Beam.C56_homogeneous",
    "Verif.Beam.C56_violates"
   ],
   "note": "Proved for all histories in which no read or slice finds a pending distance other than 0 of at most 1e-8 m, and for homogeneous propagation after any reads of field_ft. Refuted otherwise: such a distance is not applied."
  },
  {
   "property": "C57",
   "status": "partial",
   "theorems": [
    "Verif.Beam.C57_uniform",
    "Verif.Beam.C57_partial",
    "Verif.Beam.C57_read_partial",
    "Verif.Beam.C57_tiny",
    "Verif.Beam.C57_short",
    "Verif.Beam.C57_significant",
    "Verif.Beam.C57_vectorial_violates",
    "Verif.Beam.C57_tiny_violates",
    "Verif.Beam.C57_short_violates"
   ],
   "note": "Proved for uniform slices and for scalar fields that are significant. Refuted for vectorial fields (projection), for tiny fields (zeroed) and for short distances."
  },
  {
   "property": "C58",
   "status": "partial",
   "theorems": [
    "Verif.Beam.C58_partial",
    "Verif.Beam.C58_collect",
    "Verif.Beam.C58_thin",
    "Verif.Beam.C58_again",
    "Verif.Beam.C58_violates"
   ],
   "note": "The first evaluation is right for homogeneous media. The second continues at the exit (refuted); all elements of list(beam) are the last section; slices of at most 10 nm are never propagated."
  },
  {
   "property": "C59",
   "status": "partial",
   "theorems": [
    "Verif.Subpixel.C59_exact",
    "Verif.Subpixel.C59_integer_partial",
    "Verif.Subpixel.C59_add_partial",
    "Verif.Subpixel.C59_inverse",
    "Verif.Subpixel.C59_zero",
    "Verif.Subpixel.C59_period",
    "Verif.Subpixel.C59_linear",
    "Verif.Subpixel.C59_energy",
    "Verif.Subpixel.C59_violates",
    "Verif.Subpixel.C59_large_violates",
    "Verif.Subpixel.C59_axes_violates"
   ],
   "note": "Proved exactly (trigonometric interpolation at the displaced positions) for shifts that are not mistaken for zero. Refuted for shifts of at most 1e-8 pixels, for axes of more than 6e8 pixels, and for the documented choice of axes."
  },
  {
   "property": "C60",
   "status": "partial",
   "theorems": [
    "Verif.Subpixel.C60_distance",
    "Verif.Subpixel.C60_error_partial",
    "Verif.Subpixel.C60_factor_partial",
    "Verif.Subpixel.C60_optimal_partial",
    "Verif.Subpixel.C60_recovers_partial",
    "Verif.Subpixel.C60_shift_partial",
    "Verif.Subpixel.C60_half_partial",
    "Verif.Subpixel.C60_fraction_partial",
    "Verif.Subpixel.C60_unique_partial",
    "Verif.Subpixel.C60_fraction_violates",
    "Verif.Subpixel.C60_point",
    "Verif.Subpixel.C60_zoom",
    "Verif.Subpixel.C60_wrap_violates",
    "Verif.Subpixel.C60_tiny_violates",
    "Verif.Subpixel.C60_point_violates",
    "Verif.Subpixel.C60_volume_violates",
    "Verif.Subpixel.C60_hypervolume_violates"
   ],
   "note": "Proved for shifts of any image by whole or half pixels, for precisions of whole or half pixels or of which half a pixel is a multiple: no whole shift and factor are better, copies are recovered without error, with the shift (modulo the size) and factor if the image has no symmetry. Shifts by other multiples of the precision are recovered if the correlation is largest, among half pixels, near the shift; refuted otherwise: with the default precision, an error of more than a third remains for a copy of an image of 10 pixels at a quarter of a pixel. Also refuted: negative shifts are reported as positive shifts of nearly twice the size, weak images give zero, the factor for point references, and volumes."
  },
  {
   "property": "C61",
   "status": "partial",
   "theorems": [
    "Verif.Subpixel.C61_partial",
    "Verif.Subpixel.C61_registered_partial",
    "Verif.Subpixel.C61_consistent_partial",
    "Verif.Subpixel.C61_violates",
    "Verif.Subpixel.C61_none_violates"
   ],
   "note": "Proved for all histories of reads and assignments of shift, for factors of more than 1e-8 in magnitude. Refuted for smaller factors; without any image reading recurses without end."
  },
  {
   "property": "C62",
   "status": "proved",
   "theorems": [
    "Verif.StopCriterion.C62_reuse"
   ],
   "note": ""
  },
  {
   "property": "C63",
   "status": "partial",
   "theorems": [
    "Verif.Mat.C63_violates"
   ],
   "note": "Refuted: for each matrix that is not square inv raises."
  },
  {
   "property": "C64",
   "status": "partial",
   "theorems": [
    "Verif.Mat.C64_partial",
    "Verif.Mat.C64_violates"
   ],
   "note": "With an array the product is right. Without array every product raises (refuted)."
  },
  {
   "property": "C65",
   "status": "partial",
   "theorems": [
    "Verif.Mat.C65_accepts",
    "Verif.Mat.C65_partial",
    "Verif.Mat.C65_violates"
   ],
   "note": "Exact condition of acceptance proved; square for arrays with at most two axes and no side. Refuted with side, or with more axes."
  },
  {
   "property": "C66",
   "status": "partial",
   "theorems": [
    "Verif.Scattering.C66_partial",
    "Verif.Scattering.C66_polarization",
    "Verif.Scattering.C66_transverse"
   ],
   "note": "Proved for vectors of which each side is zero or has a mode with an amplitude above 1e-8, on grids with an odd number of transverse samples or at least two per wavelength. The opposite cases are refuted by C54_violates and C53_reverse_violates."
  },
  {
   "property": "C67",
   "status": "partial",
   "theorems": [
    "Verif.Scattering.C67_front",
    "Verif.Scattering.C67_back_partial",
    "Verif.Scattering.C67_detectors",
    "Verif.Scattering.C67_order",
    "Verif.Scattering.C67_back_violates",
    "Verif.Scattering.C67_absorbed_violates"
   ],
   "note": "Proved for the front, the detectors and the order. Refuted for the back source, which is within the boundary unless the thickness is a multiple of the step."
  },
  {
   "property": "C68",
   "status": "partial",
   "theorems": [
    "Verif.Scattering.C68_partial",
    "Verif.Scattering.C68_violates"
   ],
   "note": "Proved for vectors of which each side is zero or has a significant current amplitude. Refuted for units of length in which the wavenumber over the step is small."
  },
  {
   "property": "C69",
   "status": "partial",
   "theorems": [
    "Verif.Beam.C69_partial",
    "Verif.Beam.C69_vectorial_partial",
    "Verif.Beam.wavevector_length",
    "Verif.Beam.C69_assign",
    "Verif.Beam.C69_transverse",
    "Verif.Beam.C69_violates"
   ],
   "note": "Proved for significant fields and distances. The documented removal of evanescent modes is refuted: they are kept without decay."
  },
  {
   "property": "C70",
   "status": "partial",
   "theorems": [
    "Verif.Beam.C70_partial",
    "Verif.Beam.C70_uniform",
    "Verif.Beam.C70_background",
    "Verif.Beam.C70_rounded",
    "Verif.Beam.C70_nearUniform",
    "Verif.Beam.C70_permittivity",
    "Verif.Beam.C70_violates"
   ],
   "note": "Proved for significant scalar fields and indices that vary by more than the tolerance. Refuted below the tolerance, over long distances."
  },
  {
   "property": "C71",
   "status": "partial",
   "theorems": [
    "Verif.Beam.C71_refines",
    "Verif.Beam.C71_values",
    "Verif.Beam.C71_partial",
    "Verif.Beam.C71_violates"
   ],
   "note": "The model with references refines that without. Arrays returned by field never change if there is more than one sample; those returned by field_ft do (refuted)."
  },
  {
   "property": "C72",
   "status": "partial",
   "theorems": [
    "Verif.Beam.C72_grids",
    "Verif.Beam.C72_partial",
    "Verif.Beam.C72_pad",
    "Verif.Beam.C72_violates"
   ],
   "note": "Proved for axes with the origin at the centre and the centre at an index. Refuted for other axes."
  },
  {
   "property": "C73",
   "status": "partial",
   "theorems": [
    "Verif.Beam.C73_passive",
    "Verif.Beam.C73_partial",
    "Verif.Beam.C73_permittivity",
    "Verif.Beam.C73_violates"
   ],
   "note": "Proved: passive slices never increase the energy (scalar and vectorial), transparent ones conserve it for significant scalar fields. Refuted for vectorial fields."
  },
  {
   "property": "C74",
   "status": "partial",
   "theorems": [
    "Verif.Solver.C74_odd_partial",
    "Verif.Solver.C74_nonmagnetic_partial",
    "Verif.Solver.C74_scalar",
    "Verif.Solver.C74_solver_partial",
    "Verif.Solver.C74_iterates_partial",
    "Verif.Solver.C74_violates",
    "Verif.Solver.C74_coupled_partial",
    "Verif.Solver.C74_exchanged",
    "Verif.Solver.C74_coupled_solver_partial",
    "Verif.Problem.C74_called_scalar",
    "Verif.Problem.C74_called_vectorial_partial",
    "Verif.Problem.C74_called_coupled_partial"
   ],
   "note": "Proved for odd grids, for grids on which opposite frequencies exist, and for scalar calculations on all grids. Refuted for all other grids, with any isotropic permittivity."
  },
  {
   "property": "C75",
   "status": "proved",
   "theorems": [
    "Verif.Solver.C75_balance",
    "Verif.Solver.C75_lossless",
    "Verif.Solver.C75_passive",
    "Verif.Solver.C75_bound",
    "Verif.Solver.C75_scalar",
    "Verif.Solver.C75_solver",
    "Verif.Solver.C75_coupled",
    "Verif.Solver.C75_coupled_passive",
    "Verif.Solver.C75_coupled_bound",
    "Verif.Solver.C75_coupled_solver",
    "Verif.Problem.C75_called",
    "Verif.Problem.C75_called_coupled",
    "Verif.Problem.C75_called_scalar"
   ],
   "note": ""
  },
  {
   "property": "C76",
   "status": "proved",
   "theorems": [
    "Verif.Solver.C76_run",
    "Verif.Solver.C76_fields",
    "Verif.Solver.C76_choice",
    "Verif.Solver.C76_derived",
    "Verif.Solver.C76_torque",
    "Verif.Solver.C76_solution"
   ],
   "note": ""
  },
  {
   "property": "C77",
   "status": "proved",
   "theorems": [
    "Verif.Solver.C77_backend",
    "Verif.Solver.C77_run",
    "Verif.Solver.C77_bias",
    "Verif.Solver.C77_derived",
    "Verif.Solver.C77_torque",
    "Verif.Solver.C77_divS",
    "Verif.Solver.C77_current",
    "Verif.Solver.C77_solution",
    "Verif.Solver.scaledGrid_eq"
   ],
   "note": "divS is a derivative per radian of the wave, so that it does not depend on the unit (C77_divS)."
  },
  {
   "property": "C78",
   "status": "proved",
   "theorems": [
    "Verif.Solver.C78_run",
    "Verif.Solver.C78_fields",
    "Verif.Solver.C78_next",
    "Verif.Solver.C78_superposition",
    "Verif.Solver.C78_solutions",
    "Verif.Solver.C78_derived",
    "Verif.Solver.C78_torque",
    "Verif.Solver.C78_solution"
   ],
   "note": ""
  },
  {
   "property": "C79",
   "status": "proved",
   "theorems": [
    "Verif.Solver.C79_run",
    "Verif.Solver.C79_field"
   ],
   "note": ""
  },
  {
   "property": "C80",
   "status": "proved",
   "theorems": [
    "Verif.Solver.C80_residue",
    "Verif.Solver.C80_exists",
    "Verif.Solver.C80_minimal"
   ],
   "note": ""
  },
  {
   "property": "C81",
   "status": "proved",
   "theorems": [
    "Verif.WorkArrays.C81_initial",
    "Verif.WorkArrays.C81_step",
    "Verif.WorkArrays.C81_accessors",
    "Verif.WorkArrays.C81_energy",
    "Verif.WorkArrays.C81_history"
   ],
   "note": ""
  },
  {
   "property": "C82",
   "status": "partial",
   "theorems": [
    "Verif.WorkArrays.C82_partial",
    "Verif.WorkArrays.C82_alias",
    "Verif.WorkArrays.C82_displacement_violates"
   ],
   "note": "Proved for E, B, H and source_distribution, and for D without FFTW or on a single point. Refuted for D with FFTW: it is the array for the input of Fourier transforms."
  },
  {
   "property": "C83",
   "status": "partial",
   "theorems": [
    "Verif.WorkArrays.C83_transversal",
    "Verif.WorkArrays.C83_longitudinal_partial",
    "Verif.WorkArrays.C83_undetermined",
    "Verif.WorkArrays.C83_longitudinal_violates"
   ],
   "note": "Proved for the transversal projection, and for the longitudinal one without FFTW. With FFTW, longitudinal_projection executes a plan for different arrays with the same array as input and output, of which the result is not specified."
  },
  {
   "property": "C84",
   "status": "partial",
   "theorems": [
    "Verif.Construct.C84_explicit",
    "Verif.Construct.C84_none",
    "Verif.Construct.C84_current",
    "Verif.Construct.C84_source",
    "Verif.Construct.C84_vectorial",
    "Verif.Construct.C84_documented",
    "Verif.Construct.C84_construct",
    "Verif.Construct.C84_replace_partial",
    "Verif.Construct.C84_history_partial",
    "Verif.Construct.C84_replace_violates"
   ],
   "note": "Proved for the choice of the number of components and the source that is used. Replacements are proved for solutions that were constructed with a source of the full shape; otherwise they raise (refuted)."
  },
  {
   "property": "C85",
   "status": "partial",
   "theorems": [
    "Verif.Construct.C85_elementwise",
    "Verif.Construct.C85_scalar",
    "Verif.Construct.C85_tensor",
    "Verif.Construct.C85_electric_scalar",
    "Verif.Construct.C85_electric_tensor",
    "Verif.Construct.C85_magnetic_partial",
    "Verif.Construct.C85_magnetic_one",
    "Verif.Construct.C85_magnetic_violates"
   ],
   "note": "Proved for electric boundaries, and for magnetic boundaries with a permeability in tensor form or in scalar calculations. Refuted for magnetic boundaries with a permeability in scalar form (the default) in vectorial calculations."
  },
  {
   "property": "C86",
   "status": "partial",
   "theorems": [
    "Verif.Problem.C86_construct",
    "Verif.Problem.C86_components",
    "Verif.Problem.C86_index",
    "Verif.Problem.C86_index_tensor",
    "Verif.Problem.C86_index_negative",
    "Verif.Problem.C86_index_default",
    "Verif.Problem.C86_index_rejects",
    "Verif.Problem.C86_current",
    "Verif.Problem.C86_current_read",
    "Verif.Problem.C86_magnetic_boundary",
    "Verif.Problem.C86_dielectric",
    "Verif.Problem.C86_unique",
    "Verif.Problem.C86_magnetic_unique",
    "Verif.Problem.C86_scalar_dielectric",
    "Verif.Problem.C86_scalar_unique",
    "Verif.Problem.C86_absorbing",
    "Verif.Problem.C86_uniform",
    "Verif.Problem.C86_magnetic",
    "Verif.Problem.C86_coupled",
    "Verif.Problem.C86_chiral",
    "Verif.Problem.C86_scalar",
    "Verif.Problem.C86_scalar_magnetic",
    "Verif.Problem.C86_boundary"
   ],
   "note": "Proved from the arguments of the constructor to the convergence of the field: for all materials without gain and without magneto-electric coupling, with uniform or varying permeability (vectorial), for scalar calculations, and with coupling for materials that absorb after the exchange of C89. The violations are those of C85, C87, C88 and C89."
  },
  {
   "property": "C87",
   "status": "partial",
   "theorems": [
    "Verif.Solver.C87_equation",
    "Verif.Solver.C87_converges",
    "Verif.Solver.C87_rate",
    "Verif.Solver.C87_absorbing",
    "Verif.Solver.C87_residual",
    "Verif.Solver.C87_tolerance",
    "Verif.Solver.C87_violates",
    "Verif.Problem.C87_decision",
    "Verif.Problem.C87_decision_tensor",
    "Verif.Problem.C87_identity",
    "Verif.Problem.C87_absorbs"
   ],
   "note": "Proved: exactly which materials are found not to be magnetic, the equation that is solved for these (the permeability of the first point everywhere), convergence to its solution, and a bound of the error in the given equation. The given equation itself is refuted for permeabilities that vary by less than the tolerance."
  },
  {
   "property": "C88",
   "status": "partial",
   "theorems": [
    "Verif.Solver.C88_equation",
    "Verif.Solver.C88_ignored",
    "Verif.Solver.C88_converges",
    "Verif.Solver.C88_rate",
    "Verif.Solver.C88_unique",
    "Verif.Solver.C88_absorbing",
    "Verif.Solver.C88_violates"
   ],
   "note": "Proved: scalar calculations solve the scalar wave equation for the permittivity corrected for the coupling, and the permeability 1 / beta. The given permeability is refuted when it varies: it is only used to choose beta."
  },
  {
   "property": "C89",
   "status": "partial",
   "theorems": [
    "Verif.Solver.C89_equation",
    "Verif.Solver.C89_converges",
    "Verif.Solver.C89_absorbing",
    "Verif.Solver.C89_isotropic",
    "Verif.Solver.C89_passive",
    "Verif.Solver.C89_uniform",
    "Verif.Solver.C89_reciprocal_partial",
    "Verif.Solver.C89_gain",
    "Verif.Solver.C89_violates"
   ],
   "note": "Proved for all coupling and permeability tensors: exactly which equations are solved (the coupling tensors are exchanged), that there is a unique solution and that the iteration converges to it exponentially when that material absorbs, and that it is the given material for reciprocal coupling. Refuted: for an absorbing Tellegen material the iteration converges to a field that does not satisfy the given equations; the exchange can cause gain."
  },
  {
   "property": "C90",
   "status": "partial",
   "theorems": [
    "Verif.Solver.C90_accuracy",
    "Verif.Solver.C90_rate",
    "Verif.Solver.C90_default",
    "Verif.Solver.C90_raises",
    "Verif.Solver.C90_ends",
    "Verif.Solver.C90_returns",
    "Verif.Solver.C90_no_source_violates",
    "Verif.Problem.C90_called",
    "Verif.Problem.C90_called_magnetic",
    "Verif.Problem.C90_called_scalar",
    "Verif.Problem.C90_called_coupled"
   ],
   "note": "Proved for all problems for which the iteration converges exponentially (from the arguments of the constructor in C90_called), if the solution is not 0. Refuted when the source is 0 and the initial field is not: solve then does not return."
  },
  {
   "property": "C91",
   "status": "partial",
   "theorems": [
    "Verif.Solver.C91_bound_partial",
    "Verif.Solver.C91_violates"
   ],
   "note": "Proved: in each problem the residue is bounded above and below by the error, with constants of the problem. Refuted: no constant holds for all problems."
  },
  {
   "property": "C92",
   "status": "partial",
   "theorems": [
    "Verif.GridArg.C92_from_ranges",
    "Verif.GridArg.C92_slices",
    "Verif.GridArg.C92_slice",
    "Verif.GridArg.C92_slice_empty",
    "Verif.GridArg.C92_solution",
    "Verif.GridArg.C92_solution_numbers",
    "Verif.GridArg.C92_bound_partial",
    "Verif.GridArg.C92_bound_violates",
    "Verif.GridArg.C92_bound_vectors_violates",
    "Verif.GridArg.C92_no_axes_violates"
   ],
   "note": "Proved for from_ranges and Solution, and for boundaries with one axis. Refuted for boundaries with several axes: only the first range is used, or an error is raised. Arrays without axes are rejected."
  },
  {
   "property": "C93",
   "status": "proved",
   "theorems": [
    "Verif.GridArg.C93_thickness",
    "Verif.GridArg.C93_raises",
    "Verif.GridArg.C93_vector",
    "Verif.GridArg.C93_linear",
    "Verif.GridArg.C93_absorbing"
   ],
   "note": ""
  },
  {
   "property": "C94",
   "status": "partial",
   "theorems": [
    "Verif.Solver.C94_scaling",
    "Verif.Solver.C94_zero",
    "Verif.Solver.C94_history",
    "Verif.Solver.C94_absorbing",
    "Verif.Solver.C94_history_violates"
   ],
   "note": "Scaling is proved for all media and callbacks that do not depend on the scale, among which the default. Independence of history is proved for problems that converge for every source, e.g. absorbing media, and refuted for a medium with gain: the first call increases the bias."
  },
  {
   "property": "C95",
   "status": "partial",
   "theorems": [
    "Verif.Mat.C95_function_partial",
    "Verif.Mat.C95_text_violates",
    "Verif.Mat.C95_keywords_violates",
    "Verif.Mat.C95_ufunc_partial",
    "Verif.Mat.C95_ufunc_violates"
   ],
   "note": "Proved: without strings and keywords, functions act on the arrays, in nested lists as well; point-wise functions do when only the first argument is a matrix. Refuted in all other cases: a RecursionError, whatever the limit."
  },
  {
   "property": "C96",
   "status": "partial",
   "theorems": [
    "Verif.Mat.C96_partial",
    "Verif.Mat.C96_violates",
    "Verif.Scattering.C96_default"
   ],
   "note": "Proved for functions that return vectors and for the default operators. Refuted for functions that return arrays with more axes: a RecursionError for every product."
  },
  {
   "property": "C97",
   "status": "partial",
   "theorems": [
    "Verif.Scattering.C97_linear_partial",
    "Verif.Scattering.C97_cached_partial",
    "Verif.Scattering.C97_cached_violates"
   ],
   "note": "Proved for vectors of which no amplitudes are taken for zero by np.allclose (absolute tolerance 1e-8). Refuted for a history with a tiny multiple of a basis vector."
  },
  {
   "property": "C98",
   "status": "partial",
   "theorems": [
    "Verif.Solver.C98_permutation",
    "Verif.Solver.C98_force",
    "Verif.Solver.C98_force_mirror_partial",
    "Verif.Solver.C98_mirror_partial",
    "Verif.Solver.C98_choice",
    "Verif.Solver.C98_torque_partial",
    "Verif.Solver.C98_torque_violates",
    "Verif.Solver.C98_mirror_violates"
   ],
   "note": "Proved for all permutations and, in scalar calculations, for all mirror images; in vectorial calculations for mirrored axes with an odd number of samples. Refuted: the torque has the wrong sign after exchanging two axes of any grid; on grids with an even number of samples along the mirrored axis the first iteration is already different."
  },
  {
   "property": "C99",
   "status": "proved",
   "theorems": [
    "Verif.Problem.C99_closed_form",
    "Verif.Problem.C99_scalar_closed_form",
    "Verif.Problem.C99_resonance",
    "Verif.Problem.C99_called",
    "Verif.Problem.C99_called_transparent",
    "Verif.Problem.C99_called_scalar_transparent",
    "Verif.Problem.C99_called_scalar",
    "Verif.Problem.C99_plane_wave"
   ],
   "note": ""
  },
  {
   "property": "C100",
   "status": "proved",
   "theorems": [
    "Verif.Solver.C100_progress",
    "Verif.Solver.C100_executions",
    "Verif.Problem.C100_called"
   ],
   "note": ""
  },
  {
   "property": "C101",
   "status": "partial",
   "theorems": [
    "Verif.Problem.C101_violates",
    "Verif.Solver.C90_accuracy",
    "Verif.Solver.C90_ends",
    "Verif.Problem.C90_called"
   ],
   "note": "Refuted for a material with gain and loss: solve returns for every tolerance although every iteration is further from the solution than the field 0. Proved without gain: C90."
  },
  {
   "property": "C102",
   "status": "proved",
   "theorems": [
    "Verif.Solver.C102_stops",
    "Verif.Solver.C102_accuracy",
    "Verif.Solver.C102_superposition",
    "Verif.Problem.C102_called",
    "Verif.Problem.C102_called_magnetic",
    "Verif.Problem.C102_called_scalar",
    "Verif.Scattering.C102_matrix",
    "Verif.Problem.C102_matrix_called",
    "Verif.Problem.C102_matrix_called_magnetic",
    "Verif.Problem.C102_matrix_called_scalar"
   ],
   "note": ""
  },
  {
   "property": "C103",
   "status": "proved",
   "theorems": [
    "Verif.Beam.C103_light",
    "Verif.Beam.C103_alternatives",
    "Verif.Beam.C103_axis",
    "Verif.Beam.C103_beam_axis",
    "Verif.Beam.C103_period"
   ],
   "note": ""
  },
  {
   "property": "C104",
   "status": "partial",
   "theorems": [
    "Verif.Beam.C104_arrays",
    "Verif.Beam.C104_functions",
    "Verif.Beam.C104_pointwise",
    "Verif.Beam.C104_start",
    "Verif.Beam.C104_read",
    "Verif.Beam.C104_zero_violates",
    "Verif.Beam.C104_material_partial",
    "Verif.Beam.C104_material_violates"
   ],
   "note": "Proved for fields. Refuted for materials: the documented functions of (y, x) raise a TypeError, only functions of all three coordinates are accepted. Refuted for a start with zeros: the array is real, so that a propagated section raises a TypeError, unless a complex dtype is given."
  },
  {
   "property": "C105",
   "status": "partial",
   "theorems": [
    "Verif.Beam.C105_slice",
    "Verif.Beam.C105_misfit",
    "Verif.Beam.C105_constant",
    "Verif.Beam.C105_slices",
    "Verif.Beam.C105_arrays_partial",
    "Verif.Beam.C105_number_violates",
    "Verif.Beam.C105_axis_violates",
    "Verif.Beam.C105_layers_violates"
   ],
   "note": "Proved for as many slices as samples, and for arrays when light propagates along the first axis. Refuted for other numbers of slices, which do not raise an error, and for arrays when light propagates along another axis: these are rejected, or layers along the first axis are used as layers along the propagation axis."
  },
  {
   "property": "C106",
   "status": "partial",
   "theorems": [
    "Verif.Subpixel.C106_all",
    "Verif.Subpixel.C106_channels",
    "Verif.Subpixel.C106_colours",
    "Verif.Subpixel.C106_violates",
    "Verif.Subpixel.C106_order_violates",
    "Verif.Subpixel.C106_nothing",
    "Verif.Subpixel.C106_axes",
    "Verif.Subpixel.C106_indices",
    "Verif.Subpixel.C106_whole"
   ],
   "note": "Proved for all axes (shapes). Refuted for some of the axes: every registration raises an error, unless the precision is 0 and there is a single channel. Refuted for axes in another order: the sizes of the axes are mixed up."
  },
  {
   "property": "C107",
   "status": "partial",
   "theorems": [
    "Verif.Mat.C107_columns",
    "Verif.Mat.C107_vector",
    "Verif.Mat.C107_accepts",
    "Verif.Mat.C107_literal",
    "Verif.Mat.C107_polarization_violates",
    "Verif.Mat.C107_operator_violates",
    "Verif.Mat.C107_literal_violates",
    "Verif.Mat.C107_literal_batch"
   ],
   "note": "Proved for vectors, matrices, and arrays with a last axis for the columns when the method is called. Refuted: the documented shape of a vector with polarizations, all arrays with three or more axes for the operator @, and the documented shapes for matrices with an array."
  },
  {
   "property": "C108",
   "status": "partial",
   "theorems": [
    "Verif.Mat.C108_adjoint",
    "Verif.Mat.C108_operator",
    "Verif.Mat.C108_assign",
    "Verif.Mat.C108_element",
    "Verif.Mat.C108_fixed",
    "Verif.Mat.C108_rmatvec_violates",
    "Verif.Mat.C108_left_violates"
   ],
   "note": "Proved for the adjoint, products of operators, and assignment. Refuted: rmatvec, and products of arrays and lists with a matrix, always raise an error."
  },
  {
   "property": "C109",
   "status": "proved",
   "theorems": [
    "Verif.Display.C109_interpolates",
    "Verif.Display.C109_uniform",
    "Verif.Display.C109_raises"
   ],
   "note": ""
  },
  {
   "property": "C110",
   "status": "partial",
   "theorems": [
    "Verif.Display.C110_bar",
    "Verif.Display.C110_title",
    "Verif.Display.C110_unit_violates",
    "Verif.Display.C110_colour_violates"
   ],
   "note": "Proved for the scale bar and the title. Refuted: units are never translated, and the colours are the opposite of those documented."
  },
  {
   "property": "C111",
   "status": "partial",
   "theorems": [
    "Verif.BeamC.C111_real",
    "Verif.BeamC.C111_distances",
    "Verif.BeamC.C111_axial",
    "Verif.BeamC.C111_absorption",
    "Verif.BeamC.C111_polarization_partial",
    "Verif.BeamC.C111_arguments",
    "Verif.BeamC.C111_oblique_violates",
    "Verif.BeamC.C111_gain_violates",
    "Verif.BeamC.C111_polarization_violates"
   ],
   "note": "Proved: real backgrounds, sums and reversal of distances, waves along the axis (all complex indices), decay of the energy. Refuted for all oblique waves in all absorbing backgrounds: they decay less than the axial wave instead of more, transparent materials amplify them, and their longitudinal component is not removed."
  },
  {
   "property": "C112",
   "status": "proved",
   "theorems": [
    "Verif.Mat.C112_stack",
    "Verif.Mat.C112_scattering",
    "Verif.Mat.C112_resonance",
    "Verif.Mat.C112_vacuum",
    "Verif.Mat.C112_lossless",
    "Verif.Mat.C112_transfer",
    "Verif.Mat.C112_inverse"
   ],
   "note": ""
  },
  {
   "property": "C113",
   "status": "partial",
   "theorems": [
    "Verif.Subpixel.C113_both",
    "Verif.Subpixel.C113_point",
    "Verif.Subpixel.C113_fine",
    "Verif.Subpixel.C113_template",
    "Verif.Subpixel.C113_order_violates",
    "Verif.Subpixel.C113_template_violates"
   ],
   "note": "Proved for two images, and for one image with its elements in raster order in memory. Refuted for one image with another order in memory, such as a transposed image: the point is written to a copy, the default image stays zero, and the result is a shift of 3/4 pixel, with a factor and error that are not numbers, whatever the image."
  },
  {
   "property": "C114",
   "status": "partial",
   "theorems": [
    "Verif.Solver.C114_periods",
    "Verif.Solver.C114_axes",
    "Verif.Solver.C114_constants",
    "Verif.Solver.C114_constants_periods",
    "Verif.Solver.C114_equation",
    "Verif.Solver.C114_scalar_equation",
    "Verif.Solver.C114_magnetic_axes_violates"
   ],
   "note": "Proved for complete executions: any number of periods with all materials, and uniform axes with the same constants of the preconditioner. Refuted for uniform axes with magnetic materials: the bias is larger with each additional axis, so that the iterations differ."
  },
  {
   "property": "C115",
   "status": "partial",
   "theorems": [
    "Verif.Solver.C115_reversal_partial",
    "Verif.Solver.C115_nonmagnetic_partial",
    "Verif.Solver.C115_equation_partial",
    "Verif.Solver.C115_equation_nonmagnetic_partial",
    "Verif.Solver.C115_gain_partial",
    "Verif.Solver.C115_gain_nonmagnetic_partial",
    "Verif.Solver.C115_standing_partial",
    "Verif.Solver.C115_violates",
    "Verif.Solver.C115_bias_violates"
   ],
   "note": "Proved for complete executions: scalar calculations on all grids, vectorial ones on grids with odd numbers of samples, and without magnetic contrast on all grids without an even axis next to another one. Refuted for even numbers of samples, where real fields carry power; and for the bias that the code selects for gain, which is 0.1 closer to zero than the conjugate."
  },
  {
   "property": "C116",
   "status": "partial",
   "theorems": [
    "Verif.Solver.C116_force",
    "Verif.Solver.C116_flux",
    "Verif.Solver.C116_real_partial",
    "Verif.Solver.C116_real_violates"
   ],
   "note": "Proved: the totals, for all states and grids; that nothing is dropped, for odd numbers of samples. Refuted for even numbers of samples: on two samples all forces are dropped."
  },
  {
   "property": "C117",
   "status": "proved",
   "theorems": [
    "Verif.Solver.C117_ends",
    "Verif.Solver.C117_returns",
    "Verif.Solver.C117_count",
    "Verif.Solver.C117_rate",
    "Verif.Solver.C117_constructed",
    "Verif.Solver.C117_open",
    "Verif.Solver.C117_scalar",
    "Verif.Problem.C117_called",
    "Verif.Problem.C117_called_layers",
    "Verif.Problem.C117_called_coupled"
   ],
   "note": "Explicit rate and number of iterations: for any state that converges at a rate, for vectorial and scalar calculations, for the constants that the code selects, and from the arguments of the constructor."
  },
  {
   "property": "C118",
   "status": "partial",
   "theorems": [
    "Verif.Dtype.C118_documented_partial",
    "Verif.Dtype.C118_extended_violates",
    "Verif.Dtype.C118_keeps_partial",
    "Verif.Dtype.C118_keeps_violates",
    "Verif.Dtype.C118_cross_partial",
    "Verif.Dtype.C118_cross_violates",
    "Verif.Dtype.C118_poynting",
    "Verif.Dtype.C118_modes",
    "Verif.Dtype.C118_roll",
    "Verif.Dtype.C118_promote"
   ],
   "note": "Proved for all types up to double precision, and for all cross products in the solver. Refuted: extended precision (another type than documented with NumPy, a TypeError with PyTorch), integers with more than 53 digits, and cross products of a real with a complex field, which raise a TypeError. Rounding is not modelled."
  },
  {
   "property": "C119",
   "status": "partial",
   "theorems": [
    "Verif.Dtype.C119_complex",
    "Verif.Dtype.C119_default_partial",
    "Verif.Dtype.C119_default_violates",
    "Verif.Dtype.C119_store",
    "Verif.Beam.C119_output",
    "Verif.Beam.C119_rest",
    "Verif.Beam.C119_long",
    "Verif.Beam.C119_output_violates"
   ],
   "note": "Proved for double precision and complex output arrays. Refuted for single precision (double precision is used) and real output arrays (the imaginary part is dropped); with fewer slices than samples the rest of the array is not written."
  },
  {
   "property": "C120",
   "status": "proved",
   "theorems": [
    "Verif.Solver.C120_returns",
    "Verif.Solver.C120_running",
    "Verif.Solver.C120_floor",
    "Verif.Solver.C120_exact",
    "Verif.Solver.C120_electric",
    "Verif.Solver.C120_count",
    "Verif.Solver.C120_contracts",
    "Verif.Solver.C120_constructed",
    "Verif.Solver.C120_scalar",
    "Verif.Solver.C120_coupled",
    "Verif.Problem.C120_called",
    "Verif.Problem.C120_called_coupled",
    "Verif.Problem.C120_called_chiral"
   ],
   "note": "For all sequences of bounded errors in the change, the sum and the norms: for any state whose exact iteration contracts, for absorbing vectorial and scalar media, for the constants that the code selects, and from the arguments of the constructor. Errors in the operators and overflow are not modelled."
  },
  {
   "property": "C121",
   "status": "proved",
   "theorems": [
    "Verif.Solver.C121_defect",
    "Verif.Solver.C121_material",
    "Verif.Solver.C121_permittivity",
    "Verif.Solver.C121_well_posed",
    "Verif.Solver.C121_scalar",
    "Verif.Solver.C121_balance",
    "Verif.Solver.C121_coupled",
    "Verif.Solver.C121_coupled_electric",
    "Verif.Solver.C121_coupled_size",
    "Verif.Problem.C121_sharp",
    "Verif.Problem.C121_called",
    "Verif.Problem.C121_called_coupled"
   ],
   "note": "For all materials of which one absorbs at every point, with the best constant; for all well-posed problems with some constant; and from the arguments of the constructor, with rounding errors in the iterations. For materials with magneto-electric coupling: for both fields together, or for the electric field if the permeability and one of the coupling tensors are exact."
  },
  {
   "property": "C122",
   "status": "partial",
   "theorems": [
    "Verif.Problem.C122_describes",
    "Verif.Problem.C122_form_partial",
    "Verif.Problem.C122_form_violates",
    "Verif.Problem.C122_waves",
    "Verif.Problem.C122_waves_scalar",
    "Verif.Problem.C122_index",
    "Verif.Problem.C122_violates",
    "Verif.Solver.C122_iterations"
   ],
   "note": "Proved: what the code makes of a refractive index with negative real parts, and that the form does not matter for positive real parts. Refuted for all uniform absorbing materials with a negative permeability or a negative index: no number of iterations reduces the error of the waves near the resonance. Refuted: the same negative index as a number and as a matrix gives fields of opposite sign."
  },
  {
   "property": "C123",
   "status": "proved",
   "theorems": [
    "Verif.Continuous.C123_interpolation",
    "Verif.Continuous.C123_bound",
    "Verif.Refinement.C123_displaced",
    "Verif.Continuous.C123_smooth",
    "Verif.Continuous.C123_derivative",
    "Verif.Continuous.C123_curl",
    "Verif.Continuous.C123_divergence",
    "Verif.Continuous.C123_backend",
    "Verif.Continuous.C123_laplacian",
    "Verif.Continuous.C123_faraday",
    "Verif.Continuous.C123_ampere",
    "Verif.Continuous.C123_gauss",
    "Verif.Continuous.C123_charge",
    "Verif.Continuous.C123_wave",
    "Verif.Continuous.C123_wave_uniform",
    "Verif.Continuous.C123_wave_everywhere",
    "Verif.Continuous.C123_scalar_wave",
    "Verif.Continuous.C123_scalar_everywhere",
    "Verif.Problem.C123_converges",
    "Verif.Problem.C123_unique",
    "Verif.Problem.C123_scalar_unique",
    "Verif.Problem.C123_called",
    "Verif.Problem.C123_coupled",
    "Verif.Problem.C123_called_coupled",
    "Verif.Problem.C123_called_everywhere",
    "Verif.Problem.C123_called_scalar",
    "Verif.Problem.C123_called_scalar_everywhere"
   ],
   "note": "For all grids with up to three axes. Materials are only known at the samples, so the constitutive relations and the wave equation for materials that are not uniform hold at the samples; Maxwell equations themselves hold everywhere."
  },
  {
   "property": "C124",
   "status": "partial",
   "theorems": [
    "Verif.Config.C124_no_gpu",
    "Verif.Config.C124_requires",
    "Verif.Config.C124_default",
    "Verif.Config.C124_cpu",
    "Verif.Config.C124_ordinal",
    "Verif.Config.C124_names",
    "Verif.Config.C124_load",
    "Verif.Config.C124_other_violates"
   ],
   "note": "Refuted only for devices other than GPUs with a number, such as cpu:0, which PyTorch accepts but the code never uses."
  },
  {
   "property": "C125",
   "status": "partial",
   "theorems": [
    "Verif.Balance.C125_poynting",
    "Verif.Balance.C125_samples",
    "Verif.Balance.C125_divS_partial",
    "Verif.Balance.C125_balance_partial",
    "Verif.Balance.C125_passive",
    "Verif.Balance.C125_violates"
   ],
   "note": "The balance is proved at all points of space; that of divS at the samples for fields that vary at most half as fast as the samples resolve, and refuted for others, as the product of two fields varies twice as fast."
  },
  {
   "property": "C126",
   "status": "partial",
   "theorems": [
    "Verif.Balance.C126_samples",
    "Verif.Balance.C126_lorentz",
    "Verif.Balance.C126_magnetic",
    "Verif.Balance.C126_f_partial",
    "Verif.Balance.C126_balance_partial",
    "Verif.Balance.C126_magnetic_partial",
    "Verif.Balance.C126_violates"
   ],
   "note": "As for C125: f is proved to be the Lorentz force for fields that vary at most half as fast as the samples resolve, and refuted for others."
  },
  {
   "property": "C127",
   "status": "partial",
   "theorems": [
    "Verif.Install.C127_import",
    "Verif.Install.C127_import_partial",
    "Verif.Install.C127_numpy",
    "Verif.Install.C127_start_partial",
    "Verif.Install.C127_mkl_violates",
    "Verif.Install.C127_fftw_violates",
    "Verif.Install.C127_fallback_violates",
    "Verif.Install.C127_other_violates",
    "Verif.Install.C127_environment",
    "Verif.Install.C127_threads_violates"
   ],
   "note": "Proved when every library works or is not installed. Refuted for libraries that are installed but raise an ImportError: MacroMax cannot be imported, or no back end is found. The variables for the number of threads are overwritten."
  },
  {
   "property": "C128",
   "status": "proved",
   "theorems": [
    "Verif.Refinement.C128_curl",
    "Verif.Refinement.C128_laplacian",
    "Verif.Refinement.C128_error",
    "Verif.Refinement.C128_exact",
    "Verif.Refinement.C128_scalar_error",
    "Verif.Refinement.C128_limit",
    "Verif.Refinement.C128_scalar_limit",
    "Verif.Refinement.C128_unique",
    "Verif.Refinement.C128_scalar_unique",
    "Verif.Refinement.C128_resonance_violates",
    "Verif.Refinement.C128_first_curl",
    "Verif.Refinement.C128_coupled_error",
    "Verif.Refinement.C128_coupled_limit",
    "Verif.Refinement.C128_coupled_unique",
    "Verif.Refinement.C128_flux",
    "Verif.Refinement.C128_coupled_flux",
    "Verif.Refinement.C128_between",
    "Verif.Refinement.C128_between_limit",
    "Verif.Refinement.C128_between_coupled_limit",
    "Verif.Problem.C128_called_coupled",
    "Verif.Problem.C128_called_scalar",
    "Verif.Problem.C128_called_scalar_limit",
    "Verif.Problem.C128_called_chiral",
    "Verif.Problem.C128_called_coupled_limit",
    "Verif.Problem.C128_called_flux_limit",
    "Verif.Problem.C128_called",
    "Verif.Problem.C128_called_limit",
    "Verif.Problem.C128_called_solve"
   ],
   "note": "For all exact fields with an absolutely convergent series; that such a field exists is proved in C130 for smooth materials and sources. C128_resonance_violates shows that the absorption is needed."
  },
  {
   "property": "C129",
   "status": "partial",
   "theorems": [
    "Verif.Torch.C129_mul",
    "Verif.Torch.C129_arrays",
    "Verif.Torch.C129_mul_raises",
    "Verif.Torch.C129_mul_violates",
    "Verif.Torch.C129_out",
    "Verif.Torch.C129_out_violates",
    "Verif.Torch.C129_assign",
    "Verif.Torch.C129_norm",
    "Verif.Torch.C129_eigenvalue",
    "Verif.Torch.C129_eigenvalue_violates",
    "Verif.Torch.C129_bias",
    "Verif.Torch.C129_roots",
    "Verif.Torch.C129_hermitian",
    "Verif.Torch.C129_history",
    "Verif.Torch.C129_fields"
   ],
   "note": "Refuted for products in which NumPy broadcasts rows or columns, for the content of out, and for the eigenvalues of matrices that are not Hermitian; the solver uses none of these."
  },
  {
   "property": "C130",
   "status": "proved",
   "theorems": [
    "Verif.Existence.C130_exists",
    "Verif.Existence.C130_scalar_exists",
    "Verif.Existence.C130_coupled_exists",
    "Verif.Existence.C130_lossless_violates",
    "Verif.Existence.C130_limit",
    "Verif.Existence.C130_coupled_limit",
    "Verif.Problem.C130_called_limit",
    "Verif.Problem.C130_called_coupled_limit",
    "Verif.Problem.C130_called_between",
    "Verif.Problem.C130_called_scalar_limit",
    "Verif.Problem.C130_called_scalar_between",
    "Verif.Problem.C130_called_coupled_between"
   ],
   "note": "Smooth means that the Fourier series of the fifth derivatives converge absolutely. C130_lossless_violates shows that the absorption is needed."
  },
  {
   "property": "C131",
   "status": "partial",
   "theorems": [
    "Verif.Display.C131_hsv2rgb",
    "Verif.Display.C131_hsv2rgb_stack",
    "Verif.Display.C131_hsv2rgb_alpha",
    "Verif.Display.C131_rgb2hsv",
    "Verif.Display.C131_rgb2hsv_alpha",
    "Verif.Display.C131_rgb2hsv_partial",
    "Verif.Display.C131_value",
    "Verif.Display.C131_opaque_violates",
    "Verif.Display.C131_transparent_violates",
    "Verif.Display.C131_rgb2hsv_stack_violates",
    "Verif.Display.C131_complex2rgb",
    "Verif.Display.C131_axis",
    "Verif.Display.C131_last_axis"
   ],
   "note": "Proved for hsv2rgb and complex2rgb; refuted for rgb2hsv, where it holds for opacities between the darkest and the brightest channel."
  },
  {
   "property": "C132",
   "status": "proved",
   "theorems": [
    "Verif.Existence.C132_smooth",
    "Verif.Existence.C132_scalar_smooth",
    "Verif.Existence.C132_coupled_smooth",
    "Verif.Existence.C132_rate",
    "Verif.Existence.C132_scalar_rate",
    "Verif.Existence.C132_coupled_rate",
    "Verif.Existence.C132_between",
    "Verif.Existence.C132_flux",
    "Verif.Problem.C132_called",
    "Verif.Problem.C132_called_solve",
    "Verif.Problem.C132_called_coupled",
    "Verif.Problem.C132_called_scalar"
   ],
   "note": "The constant is not given explicitly. Derivatives of order n means that their Fourier series converge absolutely."
  },
  {
   "property": "C133",
   "status": "partial",
   "theorems": [
    "Verif.Beam.C133_slices",
    "Verif.Beam.C133_partial",
    "Verif.Beam.C133_materials_partial",
    "Verif.Beam.C133_homogeneous",
    "Verif.Beam.C133_again",
    "Verif.Beam.C133_violates"
   ],
   "note": "Proved for the first call, for distances that are not within the tolerance of 10 nm; refuted for later calls, which continue behind the grid."
  },
  {
   "property": "C134",
   "status": "partial",
   "theorems": [
    "Verif.Problem.C134_values",
    "Verif.Problem.C134_materials",
    "Verif.Problem.C134_source",
    "Verif.Problem.C134_equivalent",
    "Verif.Problem.C134_constant",
    "Verif.Problem.C134_arrays",
    "Verif.Problem.C134_current",
    "Verif.Problem.C134_called",
    "Verif.Problem.C134_samples",
    "Verif.Problem.C134_exact",
    "Verif.Problem.C134_index",
    "Verif.Problem.C134_index_negative",
    "Verif.Problem.C134_index_tensor",
    "Verif.Problem.C134_scalar_source",
    "Verif.Problem.C134_called_scalar",
    "Verif.Problem.C134_samples_scalar",
    "Verif.Problem.C134_exact_scalar",
    "Verif.Problem.C134_samples_coupled",
    "Verif.Problem.C134_exact_coupled",
    "Verif.Problem.C134_exact_limit",
    "Verif.Problem.C134_number_violates",
    "Verif.Problem.C134_constant_violates",
    "Verif.Problem.C134_flat_violates"
   ],
   "note": "Proved for functions that are calculated with elementwise operations, on grids with an axis for each coordinate. Refuted for one-dimensional grids made of numbers, for functions that return a Python number, and for flat grids."
  },
  {
   "property": "C135",
   "status": "proved",
   "theorems": [
    "Verif.Solver.C135_values",
    "Verif.Solver.C135_accuracy",
    "Verif.Solver.C135_accuracy_scalar",
    "Verif.Solver.C135_loss",
    "Verif.Solver.C135_transposed",
    "Verif.Solver.C135_gain_bias",
    "Verif.Solver.C135_number",
    "Verif.Solver.C135_largest",
    "Verif.Solver.C135_gain",
    "Verif.Solver.C135_bias",
    "Verif.Solver.C135_bias_magnetic",
    "Verif.Solver.C135_rate",
    "Verif.Solver.C135_magnetic",
    "Verif.Solver.C135_absorbing",
    "Verif.Solver.C135_scalar",
    "Verif.Solver.C135_coupled",
    "Verif.Problem.C135_called_coupled",
    "Verif.Problem.C135_solves",
    "Verif.Problem.C135_solves_coupled",
    "Verif.Problem.C135_solves_scalar",
    "Verif.Problem.C135_construct",
    "Verif.Problem.C135_called",
    "Verif.Problem.C135_called_magnetic",
    "Verif.Problem.C135_called_scalar"
   ],
   "note": "The formula of mat3_eigh with exact arithmetic, including its comparisons with the precision; the rounding of each operation is not modelled. Double precision meets the condition for all permeabilities up to 200; single precision for a permeability of 1."
  },
  {
   "property": "C136",
   "status": "partial",
   "theorems": [
    "Verif.Kinds.C136_scalar",
    "Verif.Kinds.C136_argument",
    "Verif.Kinds.C136_stored",
    "Verif.Kinds.C136_number",
    "Verif.Kinds.C136_sound",
    "Verif.Kinds.C136_vector",
    "Verif.Kinds.C136_axes",
    "Verif.Kinds.C136_ft",
    "Verif.Kinds.C136_components",
    "Verif.Kinds.C136_any",
    "Verif.Kinds.C136_vector_violates",
    "Verif.Kinds.C136_scalar_violates",
    "Verif.Kinds.C136_any_violates"
   ],
   "note": "Proved for is_scalar in the form of to_matrix_field. Refuted for is_vector and is_matrix, which count the axes, so that every field in that form is a matrix and none is a vector; for is_scalar of arrays that are not in that form; and for the documentation of any. The solver only uses is_scalar, for arrays in that form."
  },
  {
   "property": "C137",
   "status": "partial",
   "theorems": [
    "Verif.FtArray.C137_ft",
    "Verif.FtArray.C137_ift",
    "Verif.FtArray.C137_inverse",
    "Verif.FtArray.C137_stock",
    "Verif.FtArray.C137_library_violates",
    "Verif.FtArray.C137_field_violates"
   ],
   "note": "Proved for arrays on the grid and for arrays that do not depend on the position. Refuted for arrays that depend on the position along some of the axes, which raise an AssertionError if pyfftw is installed, and for the fields that arrays with axes of length 1 represent elsewhere."
  },
  {
   "property": "C138",
   "status": "partial",
   "theorems": [
    "Verif.Bound.C138_background",
    "Verif.Bound.C138_absorbing",
    "Verif.Bound.C138_own",
    "Verif.Bound.C138_magnetic",
    "Verif.Bound.C138_without",
    "Verif.Bound.C138_undefined",
    "Verif.Bound.C138_order_violates"
   ],
   "note": "Proved for what the solver adds, and for the permittivity if Bound comes before Electric in the order of the classes; refuted for classes with Electric before Bound, which forget the background permittivity."
  }
 ]
}