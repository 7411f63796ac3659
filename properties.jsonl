{"id": "C01", "title": "Grid construction honours its arguments", "statement": "Whenever Grid(...) returns instead of raising, the grid has at least one sample per axis, every argument that was given is reproduced by the grid, and the documented relations hold: shape*step == extent == last + step*include_last - first, and center == first + (shape//2*center_at_index + (shape-1)/2*(1-center_at_index))*step.", "quantifier": "all combinations of given/omitted shape, step, extent, first, center, last, include_last, center_at_index, all real values, integer and floating point arguments", "why_tests_cant": "There are 64 combinations of omitted arguments times the two flags times all real values; the tests sample a few dozen integers.", "anchors": ["python/macromax/utils/ft/grid.py: Grid.__init__", "python/macromax/utils/ft/grid.py: Grid.first", "python/macromax/utils/ft/grid.py: Grid.extent"]}
{"id": "C02", "title": "Grid coordinates form the documented arithmetic progression", "statement": "Iterating a grid axis yields exactly shape values; with the origin at the centre the i-th one is first + i*step (centre value at index shape//2, or symmetric about the centre if center_at_index is False), and without it the same values are yielded in FFT order, starting with the centre value.", "quantifier": "all axis lengths (even, odd and 1), steps (positive, negative, zero), centres and flag settings", "why_tests_cant": "Parity and sign cases for every axis length; tests only look at lengths 1 to 5.", "anchors": ["python/macromax/utils/ft/grid.py: Grid.__getitem__", "python/macromax/utils/ft/grid.py: Grid.first", "python/macromax/utils/ft/grid.py: Grid.__iter__"]}
{"id": "C03", "title": "from_ranges inverts a grid", "statement": "For every uniformly spaced range, whether monotonic or in FFT order, Grid.from_ranges(range) is a grid whose coordinates are that same range again.", "quantifier": "all lengths >= 1, real centres and steps of either sign, both orderings", "why_tests_cant": "The detection of FFT order compares end points and middle points, the corner cases depend on the length and the sign; tests sample a few.", "anchors": ["python/macromax/utils/ft/grid.py: Grid.from_ranges", "python/macromax/utils/ft/grid.py: Grid.__getitem__"]}
{"id": "C04", "title": "Grid arithmetic acts pointwise on the coordinates", "statement": "The coordinates of grid + d, grid - d, grid * f, grid / f, -grid are the coordinates of grid with the same operation applied to each; shape and ordering flags are kept.", "quantifier": "all grids, offsets and factors", "why_tests_cant": "Universally quantified over real values, lengths and flags.", "anchors": ["python/macromax/utils/ft/grid.py: Grid.__add__", "python/macromax/utils/ft/grid.py: Grid.__sub__", "python/macromax/utils/ft/grid.py: Grid.__mul__", "python/macromax/utils/ft/grid.py: Grid.__truediv__", "python/macromax/utils/ft/grid.py: Grid.__neg__"]}
{"id": "C05", "title": "Frequency grid is the FFT-frequency grid", "statement": "grid.f has the coordinates of the discrete Fourier transform of that axis (integers in FFT order divided by the extent, zero first), grid.k the same times 2*pi, and taking the frequency grid twice gives back the shape and the step.", "quantifier": "all grids with non-zero step", "why_tests_cant": "All lengths and steps; parity-dependent.", "anchors": ["python/macromax/utils/ft/grid.py: Grid.f", "python/macromax/utils/ft/grid.py: Grid.k"]}
{"id": "C06", "title": "Axis selection and permutation of grids", "statement": "transpose reverses the axes and is an involution, swapaxes reverses the order of the given axes and keeps all others, project(axes_to_keep) keeps exactly the listed axes, project(axes_to_remove) keeps exactly the others in order; axes outside [-ndim, ndim) raise IndexError.", "quantifier": "all grids of any dimension, all lists of (negative) axes", "why_tests_cant": "Any number of axes and any index list.", "anchors": ["python/macromax/utils/ft/grid.py: Grid.transpose", "python/macromax/utils/ft/grid.py: Grid.swapaxes", "python/macromax/utils/ft/grid.py: Grid.project"]}
{"id": "C07", "title": "Grid equality and hashing", "statement": "Grid equality is an equivalence relation that holds exactly when shape, step, center, ordering flags agree; equal grids have equal hashes, so that grids can be used as dictionary keys.", "quantifier": "all pairs and triples of grids, scalar and multi-dimensional", "why_tests_cant": "Quantifies over all pairs of grids.", "anchors": ["python/macromax/utils/ft/grid.py: Grid.__eq__", "python/macromax/utils/ft/grid.py: Grid.__hash__", "python/macromax/utils/ft/grid.py: Grid.__repr__"]}
{"id": "C08", "title": "MutableGrid setters do what they say after any history", "statement": "After any sequence of assignments to a MutableGrid, the property that was assigned last reads back as assigned, and the other properties have changed only as documented (setting first moves the centre only, setting the step keeps the centre, ...). In-place operators update the grid and leave the variable bound to it.", "quantifier": "all sequences of assignments and in-place operations on all grids", "why_tests_cant": "Arbitrary operation sequences.", "anchors": ["python/macromax/utils/ft/grid.py: MutableGrid"]}
{"id": "C09", "title": "Flat/open and origin conversions only change the ordering", "statement": "as_flat, as_non_flat, as_origin_at_0, as_origin_at_center, mutable and immutable keep the multiset of coordinates and are inverse to each other; as_origin_at_0 is the ifftshift of the coordinates of as_origin_at_center.", "quantifier": "all grids", "why_tests_cant": "All lengths and parities.", "anchors": ["python/macromax/utils/ft/grid.py: Grid.as_flat", "python/macromax/utils/ft/grid.py: Grid.as_non_flat", "python/macromax/utils/ft/grid.py: Grid.as_origin_at_0", "python/macromax/utils/ft/grid.py: Grid.as_origin_at_center"]}
{"id": "C10", "title": "Omitted grid arguments get the documented defaults", "statement": "If nothing else determines it, the step is taken to be 1, then the centre 0 and the shape 1, as documented: every under-determined set of Grid arguments still yields a grid.", "quantifier": "all combinations of omitted arguments", "why_tests_cant": "64 combinations of omitted arguments and all values.", "anchors": ["python/macromax/utils/ft/grid.py: Grid.__init__"]}
{"id": "C11", "title": "dim.add, left_to and right_to deliver the requested number of dimensions", "statement": "left_to(arr, n) and right_to(arr, n) return an array with exactly n dimensions holding the same elements in the same order with singleton axes added or removed on the stated side; they raise when a non-singleton axis would have to be removed.", "quantifier": "all shapes, all n", "why_tests_cant": "All shapes of any rank.", "anchors": ["python/macromax/utils/dim.py: add", "python/macromax/utils/dim.py: left_to", "python/macromax/utils/dim.py: right_to"]}
{"id": "C12", "title": "dim.to_axis puts a vector along one axis", "statement": "to_axis(arr, axis, ndim) returns an array of rank ndim, with all elements of arr in order along the given (possibly negative) axis and singletons elsewhere.", "quantifier": "all vectors, axes and ranks", "why_tests_cant": "All ranks and axes including negative ones.", "anchors": ["python/macromax/utils/dim.py: to_axis"]}
{"id": "C13", "title": "round125 rounds to a 1-2-5 number", "statement": "round125(x) is zero for zero and otherwise sign(x) times 1, 2 or 5 times an integer power of ten; it is the number of that series nearest to x; 1-2-5 numbers are left unchanged, it is odd and monotonic and commutes with scaling by powers of ten.", "quantifier": "all real numbers", "why_tests_cant": "Quantifies over all reals; thresholds are irrational.", "anchors": ["python/macromax/utils/round125.py: round125"]}
{"id": "C14", "title": "Adaptive stop criterion stops only for a reason", "statement": "Adaptive(...) asks to stop only if the residue it measured is below the target or the iteration limit has been reached.", "quantifier": "all sequences of iteration numbers and residues, all limits and targets", "why_tests_cant": "The criterion carries state between calls; all histories.", "anchors": ["python/macromax/utils/stop_criterion.py: Adaptive"]}
{"id": "C15", "title": "Adaptive stop criterion enforces the iteration limit", "statement": "Whatever residues the solution reports, Adaptive(...) asks to stop at the latest when the iteration limit is reached, and never raises.", "quantifier": "all infinite residue sequences", "why_tests_cant": "Infinite executions.", "anchors": ["python/macromax/utils/stop_criterion.py: Adaptive.__call__"]}
{"id": "C16", "title": "hsv2rgb yields displayable colours", "statement": "For saturation and value in [0, 1] and any non-negative hue below 21, all three channels of hsv2rgb are between value*(1-saturation) and value; both bounds are attained; hue is periodic with period 1.", "quantifier": "all hues, saturations, values", "why_tests_cant": "All reals, six sectors and their boundaries.", "anchors": ["python/macromax/utils/display/hsv.py: hsv2rgb"]}
{"id": "C17", "title": "rgb2hsv and hsv2rgb are inverse", "statement": "hsv2rgb(rgb2hsv(r, g, b)) returns (r, g, b).", "quantifier": "all colours with channels in [0, 1]", "why_tests_cant": "Tests only use primary and secondary colours, which do not distinguish f from 1-f.", "anchors": ["python/macromax/utils/display/hsv.py: rgb2hsv", "python/macromax/utils/display/hsv.py: hsv2rgb"]}
{"id": "C18", "title": "complex2rgb output is in range and encodes phase and amplitude", "statement": "complex2rgb maps every complex field to channel values in [0, 1]; zero is black; the brightest channel is the (clipped) amplitude; the phase determines the hue and multiplying by a positive number below saturation changes the brightness only.", "quantifier": "all complex numbers, all normalizations", "why_tests_cant": "All complex numbers.", "anchors": ["python/macromax/utils/display/complex2rgb.py: complex2rgb"]}
{"id": "C19", "title": "grid2extent delimits the pixels", "statement": "grid2extent returns limits such that pixel i of n equal pixels between them is centred at coordinate i of the grid, for both display axes and both settings of origin_lower; a range with fewer than two points raises.", "quantifier": "all uniform ranges with at least two points", "why_tests_cant": "All lengths, steps and offsets.", "anchors": ["python/macromax/utils/display/grid2extent.py: grid2extent"]}
{"id": "C20", "title": "The absorbing boundary is exactly the region reported as beyond the bound", "statement": "between and beyond are complementary; a point is between if and only if it is at least the boundary thickness away from both ends on every axis; the extinction coefficient is zero at every point that is between and, if the extinction function is positive for positive depth, positive at every point beyond.", "quantifier": "all grids (either step direction), thicknesses and points", "why_tests_cant": "All grids, dimensions and thicknesses.", "anchors": ["python/macromax/bound.py: Bound.between", "python/macromax/bound.py: Bound.beyond", "python/macromax/bound.py: AbsorbingBound.extinction"]}
{"id": "C21", "title": "LinearBound profile", "statement": "The extinction coefficient of a LinearBound lies between 0 and the maximum, grows linearly with the depth in the boundary, is the maximum at the outermost points and does not decrease outwards.", "quantifier": "all grids, thicknesses and maxima", "why_tests_cant": "All grids and thicknesses.", "anchors": ["python/macromax/bound.py: LinearBound", "python/macromax/bound.py: AbsorbingBound.extinction"]}
{"id": "C22", "title": "Absorbing bounds never add gain and leave the interior unchanged", "statement": "The electric susceptibility of an absorbing bound has a non-negative imaginary part everywhere, is zero where the extinction is zero, and background plus susceptibility is the square of (refractive index + i*extinction).", "quantifier": "all backgrounds, extinction functions and grids", "why_tests_cant": "All real backgrounds and profiles.", "anchors": ["python/macromax/bound.py: AbsorbingBound.electric_susceptibility"]}
{"id": "C23", "title": "Fourier transform pair of the back end", "statement": "ift(ft(E)) == E and ft(ift(E)) == E for every field on a grid of any number of dimensions, the transform is linear and preserves energy up to the number of points.", "quantifier": "all grid shapes and complex fields", "why_tests_cant": "All shapes and fields.", "anchors": ["python/macromax/backend/__init__.py: BackEnd.ft", "python/macromax/backend/numpy.py: BackEndNumpy.ft", "python/macromax/backend/numpy.py: BackEndNumpy.ift"]}
{"id": "C24", "title": "Vector calculus identities of the back end", "statement": "curl_ft is i k x F and div_ft is i k . F with missing dimensions of the grid taken as translation invariant; the divergence of every curl is zero and the curl of every longitudinal field is zero.", "quantifier": "all grids of one to three dimensions, all vector fields", "why_tests_cant": "All fields and grids.", "anchors": ["python/macromax/backend/__init__.py: BackEnd.curl_ft", "python/macromax/backend/__init__.py: BackEnd.div_ft", "python/macromax/backend/__init__.py: BackEnd.cross"]}
{"id": "C25", "title": "Longitudinal and transversal projections", "statement": "The longitudinal and the transversal projection of a field add up to the field, each is idempotent, their composition is zero, they are orthogonal, the transversal part is divergence free and the longitudinal part curl free at every spatial frequency.", "quantifier": "all grids of one to three dimensions, all vector fields including the zero frequency", "why_tests_cant": "All fields; the zero-frequency branch is special.", "anchors": ["python/macromax/backend/__init__.py: BackEnd.longitudinal_projection_ft", "python/macromax/backend/__init__.py: BackEnd.transversal_projection_ft"]}
{"id": "C26", "title": "Roots of polynomials up to degree three", "statement": "calc_roots_of_low_order_polynomial returns all roots with multiplicity: the polynomial equals its leading coefficient times the product of (x - root).", "quantifier": "all complex coefficients of degree one, two and three", "why_tests_cant": "All complex coefficients, degenerate discriminants.", "anchors": ["python/macromax/backend/__init__.py: BackEnd.calc_roots_of_low_order_polynomial", "python/macromax/backend/__init__.py: BackEnd.evaluate_polynomial"]}
{"id": "C27", "title": "Eigenvalues of 3x3 matrices", "statement": "mat3_eigh builds the characteristic polynomial of each matrix: the values it returns are exactly the eigenvalues with their multiplicity, for Hermitian and arbitrary matrices.", "quantifier": "all complex 3x3 matrices", "why_tests_cant": "All matrices.", "anchors": ["python/macromax/backend/__init__.py: BackEnd.mat3_eigh"]}
{"id": "C28", "title": "Matrix-field algebra with scalar promotion", "statement": "mul, subtract, adjoint and ldivide treat a scalar field as that multiple of the identity matrix: the result equals that of the pointwise matrix operation on the promoted operands, whichever operand is scalar.", "quantifier": "all fields of 1x1 or 3x3 matrices and vectors", "why_tests_cant": "All operands and all scalar/matrix combinations.", "anchors": ["python/macromax/backend/__init__.py: BackEnd.mul", "python/macromax/backend/__init__.py: BackEnd.subtract", "python/macromax/backend/__init__.py: BackEnd.adjoint", "python/macromax/backend/__init__.py: BackEnd.is_scalar", "python/macromax/backend/__init__.py: BackEnd.to_matrix_field"]}
{"id": "C29", "title": "Back end selection", "statement": "load returns the first configuration in the list that can be loaded, falls back to NumPy if none can, and repeated calls give the same back end; every documented form of config is accepted by a later load.", "quantifier": "all configuration lists, all availability patterns, all histories of config and load calls", "why_tests_cant": "All histories and all availability patterns; needs hardware to test.", "anchors": ["python/macromax/backend/__init__.py: config", "python/macromax/backend/__init__.py: load"]}
{"id": "C30", "title": "assign broadcasts", "statement": "assign(arr, out) fills out with arr broadcast by the NumPy rules to the shape of out, and raises if arr cannot be broadcast.", "quantifier": "all array shapes", "why_tests_cant": "All shape combinations.", "anchors": ["python/macromax/backend/__init__.py: BackEnd.assign"]}
{"id": "C31", "title": "Wavelength, wavenumber and angular frequency are consistent", "statement": "However the frequency is specified, wavenumber = angular_frequency / c = 2*pi / wavelength for the values that the solution reports, with angular_frequency taking precedence over vacuum_wavelength over wavenumber.", "quantifier": "all positive values and combinations of given arguments", "why_tests_cant": "All values and combinations.", "anchors": ["python/macromax/solver.py: Solution.__init__", "python/macromax/solver.py: Solution.wavenumber", "python/macromax/solver.py: Solution.wavelength", "python/macromax/solver.py: Solution.angular_frequency"]}
{"id": "C32", "title": "A converged field solves the wave equation", "statement": "The iteration leaves a field unchanged if and only if the field satisfies the discretized macroscopic wave equation curl mu^-1 curl E - k0^2 epsilon E = source for the given material and source.", "quantifier": "all grids, all materials (scalar, isotropic, anisotropic), all sources, all admissible values of the internal bias", "why_tests_cant": "All materials and fields; the test suite compares a handful of analytic solutions.", "anchors": ["python/macromax/solver.py: Solution.__iter__", "python/macromax/solver.py: Solution.__prepare_preconditioner", "python/macromax/solver.py: Solution.__update_operators"]}
{"id": "C33", "title": "Adapting the bias does not change the problem", "statement": "When an iteration increases the internal bias because the update did not decrease, the represented permittivity, permeability, source and the set of exact solutions remain the same.", "quantifier": "all problem states and all sequences of bias changes", "why_tests_cant": "All histories.", "anchors": ["python/macromax/solver.py: Solution.__update_operators", "python/macromax/solver.py: Solution.__iter__"]}
{"id": "C34", "title": "In gain-free media the update never grows", "statement": "If the medium has no gain and the bias bounds the deviation of the permittivity, then the norm of consecutive field updates does not increase, so the error to any exact solution never grows.", "quantifier": "all grids, all passive materials including anisotropic ones, all sources and starting fields", "why_tests_cant": "Infinite families of media, infinite executions.", "anchors": ["python/macromax/solver.py: Solution.__iter__", "python/macromax/solver.py: Solution.__prepare_preconditioner"]}
{"id": "C35", "title": "The iteration converges to the exact solution", "statement": "In a medium without gain for which the wave equation has a unique solution, the iterated field converges to that solution from any starting field.", "quantifier": "all grids, all passive materials, all sources and starting fields", "why_tests_cant": "Infinite executions; convergence is a limit statement.", "anchors": ["python/macromax/solver.py: Solution.__iter__"]}
{"id": "C36", "title": "The bias selected on construction bounds the permittivity deviation", "statement": "The internal bias chosen when a problem is set up is strictly larger than the largest singular value of the deviation of the permittivity from its centre, as needed for convergence.", "quantifier": "all materials, boundary conditions, with and without gain", "why_tests_cant": "All materials.", "anchors": ["python/macromax/solver.py: Solution.__prepare_preconditioner", "python/macromax/solver.py: Solution.__increase_bias_to_limit_kernel_width"]}
{"id": "C37", "title": "Each iteration either decreases the update or leaves the field alone", "statement": "In every execution each iteration increments the iteration counter by one and either updates the field with a correction strictly smaller than the last accepted one, or leaves the field unchanged and multiplies the imaginary bias by 1.5.", "quantifier": "all executions from all states", "why_tests_cant": "All infinite executions.", "anchors": ["python/macromax/solver.py: Solution.__iter__"]}
{"id": "C38", "title": "Iterating past convergence is harmless", "statement": "Once the field has converged exactly, or if the source is zero, further iterations leave the field unchanged and do not raise.", "quantifier": "all problems with exact fixed points", "why_tests_cant": "The exact state is hard to reach in floating point tests, except for a zero source.", "anchors": ["python/macromax/solver.py: Solution.__iter__", "python/macromax/solver.py: Solution.relative_residue"]}
{"id": "C39", "title": "solve stops when asked to", "statement": "solve() evaluates the callback once after each iteration and returns at the first iteration for which it is false; with rtol and maxiter given it stops at the first iteration that reaches the tolerance or the maximum number of iterations.", "quantifier": "all callbacks, tolerances, iteration limits and residue sequences", "why_tests_cant": "All callbacks and residue histories.", "anchors": ["python/macromax/solver.py: Solution.solve", "python/macromax/solver.py: solve"]}
{"id": "C40", "title": "The residue describes the current field", "statement": "relative_residue (residue) always equals the norm of the last update divided by the norm of the current field; after assigning a new field or source it no longer reports the residue of the previous one.", "quantifier": "all histories of iterations, assignments and queries", "why_tests_cant": "All histories with a cached value.", "anchors": ["python/macromax/solver.py: Solution.relative_residue", "python/macromax/solver.py: Solution.E", "python/macromax/solver.py: Solution.source_distribution"]}
{"id": "C41", "title": "Field and source accessors are inverse to each other", "statement": "Reading E, source_distribution or j after assigning it returns the assigned value, whatever the wavelength, material and bias; j and source_distribution are related by the factor -1j*omega*mu_0, and the documented equivalence of current_density=J and source_distribution=1j*omega*mu_0*J holds.", "quantifier": "all values, materials and histories", "why_tests_cant": "All values and internal scaling states.", "anchors": ["python/macromax/solver.py: Solution.E", "python/macromax/solver.py: Solution.source_distribution", "python/macromax/solver.py: Solution.j", "python/macromax/solver.py: Solution.__init__"]}
{"id": "C42", "title": "The permittivity can be read back and replaced", "statement": "epsilon returns the permittivity that the solution was constructed with (or that was last assigned) without the boundary's contribution, and assigning it makes the solution represent the new permittivity plus that of the boundary.", "quantifier": "all permittivities, boundaries and bias values", "why_tests_cant": "All materials; no unit test reads it.", "anchors": ["python/macromax/solver.py: Solution.epsilon", "python/macromax/solver.py: Solution.mu", "python/macromax/solver.py: Solution.refractive_index"]}
{"id": "C43", "title": "Derived fields satisfy Maxwell's equations", "statement": "For an exact solution, B, H and D computed from E satisfy curl E = i omega B, curl H = -i omega D - j in the sign convention of the code, B = mu_0 mu H and D = epsilon_0 epsilon E.", "quantifier": "all non-chiral materials and sources", "why_tests_cant": "All materials; involves the normalization factors.", "anchors": ["python/macromax/solver.py: Solution.B", "python/macromax/solver.py: Solution.H", "python/macromax/solver.py: Solution.D"]}
{"id": "C44", "title": "Coupling tensors enter with the documented constitutive relations", "statement": "For bi-anisotropic media a converged field satisfies D = epsilon E + xi H and B = zeta E + mu H with H as returned by the solution.", "quantifier": "all xi, zeta, mu, epsilon", "why_tests_cant": "No test covers bi-anisotropic media.", "anchors": ["python/macromax/solver.py: Solution.__update_operators", "python/macromax/solver.py: Solution.H"]}
{"id": "C45", "title": "Energy, stress and force densities are physically well formed", "statement": "energy_density is real and non-negative, the stress tensor is real and symmetric with a trace of minus half the energy-density sum, S is half the real part of E x H*, and divS is the divergence of S.", "quantifier": "all fields", "why_tests_cant": "All fields; units enter.", "anchors": ["python/macromax/solver.py: Solution.S", "python/macromax/solver.py: Solution.energy_density", "python/macromax/solver.py: Solution.stress_tensor", "python/macromax/solver.py: Solution.divS"]}
{"id": "C46", "title": "Refractive index specification", "statement": "refractive_index=n is equivalent to epsilon=n^2 with mu given, such that epsilon*mu = n^2*mu; where the real part of the index is negative both are negated so that the product keeps its value, and assigning refractive_index later has the same effect as constructing with it.", "quantifier": "all complex refractive indices", "why_tests_cant": "All complex values.", "anchors": ["python/macromax/solver.py: Solution.__init__", "python/macromax/solver.py: Solution.refractive_index"]}
{"id": "C47", "title": "Caching of matrix columns is transparent", "statement": "Any sequence of matrix-vector products and toggles of the caching flag returns what the uncached linear operator returns.", "quantifier": "all histories of products, all linear operators, basis and non-basis vectors", "why_tests_cant": "All histories.", "anchors": ["python/macromax/matrix.py: CachingMatrix", "python/macromax/matrix.py: ScatteringMatrix._matvec", "python/macromax/matrix.py: DepositionMatrix"]}
{"id": "C48", "title": "Scattering and transfer matrices convert into each other", "statement": "convert maps a scattering matrix to the transfer matrix that relates the same in- and outgoing waves and back: the relations are equivalent and convert is an involution, whenever the inverted block is invertible.", "quantifier": "all square matrices of even size, over all in- and outgoing wave pairs", "why_tests_cant": "All matrices.", "anchors": ["python/macromax/matrix.py: convert"]}
{"id": "C49", "title": "inv with noise level is the Tikhonov inverse", "statement": "inv(A, n) equals (A^H A + n^2)^-1 A^H, hence the exact inverse of an invertible matrix for n = 0, and minimizes ||A x - b||^2 + n^2 ||x||^2.", "quantifier": "all square complex matrices, all noise levels", "why_tests_cant": "All matrices.", "anchors": ["python/macromax/matrix.py: inv"]}
{"id": "C50", "title": "Quarter matrices are the blocks of the scattering matrix", "statement": "The forward/backward transmission and front/back reflection matrices are the four blocks of the scattering matrix and together rebuild it; an odd size raises.", "quantifier": "all scattering matrices and vectors", "why_tests_cant": "All matrices.", "anchors": ["python/macromax/matrix.py: QuarterMatrix", "python/macromax/matrix.py: ScatteringMatrix.forward_transmission"]}
{"id": "C51", "title": "Indexing a matrix operator agrees with its array", "statement": "M[i, j] equals the (i, j) entry of np.asarray(M), whose columns are the products with the standard basis, for all matrix shapes.", "quantifier": "all linear operators, square or rectangular, all indices", "why_tests_cant": "All shapes.", "anchors": ["python/macromax/matrix.py: Matrix.__getitem__", "python/macromax/matrix.py: Matrix.__array__", "python/macromax/matrix.py: SquareMatrix"]}
{"id": "C52", "title": "Phase conjugation of detected fields", "statement": "detvec2srcvec is an involution that conjugates the amplitudes and exchanges the two sides, so that it maps the detected vector to the time-reversed source.", "quantifier": "all vectors", "why_tests_cant": "All sizes.", "anchors": ["python/macromax/matrix.py: ScatteringMatrix.detvec2srcvec"]}
{"id": "C53", "title": "Mode indices enumerate the propagating plane waves in order", "statement": "The transverse modes are exactly those whose transverse wavevector is shorter than the vacuum wavenumber, listed in increasing raster order, and reversing the list negates each transverse wavevector.", "quantifier": "all grids and wavenumbers", "why_tests_cant": "Parity of the grid and coarse sampling matter.", "anchors": ["python/macromax/matrix.py: ScatteringMatrix.__init__", "python/macromax/matrix.py: ScatteringMatrix.srcvec2freespace"]}
{"id": "C54", "title": "Empty space has the identity as scattering matrix", "statement": "If the sample is empty space so that the field equals the incident plane waves, ScatteringMatrix @ v returns v.", "quantifier": "all grids, all amplitude vectors, both sides and polarizations", "why_tests_cant": "All vectors and grids.", "anchors": ["python/macromax/matrix.py: ScatteringMatrix.srcvec2freespace", "python/macromax/matrix.py: ScatteringMatrix.detfield2detvec", "python/macromax/matrix.py: ScatteringMatrix._matvec"]}
{"id": "C55", "title": "Homogeneous beam propagation is a one-parameter group", "statement": "Propagating a BeamSection by a and then by b equals propagating by a+b, propagating by 0 does nothing, propagating by d and -d restores the field, and the energy of the section is conserved.", "quantifier": "all distances, fields and grids", "why_tests_cant": "All distances and histories.", "anchors": ["python/macromax/utils/beam.py: BeamSection.propagate", "python/macromax/utils/beam.py: BeamSection.field_ft"]}
{"id": "C56", "title": "Reading a beam section does not change it", "statement": "Any interleaving of reads of field and field_ft between propagation steps yields the same fields as propagating without reading (deferred propagation is invisible).", "quantifier": "all histories of reads, writes and propagation steps", "why_tests_cant": "All interleavings.", "anchors": ["python/macromax/utils/beam.py: BeamSection.field_ft", "python/macromax/utils/beam.py: BeamSection.field", "python/macromax/utils/beam.py: BeamSection.propagate"]}
{"id": "C57", "title": "Heterogeneous beam propagation is time-reversible", "statement": "Propagating through a slice by d and back by -d through the same slice restores the field.", "quantifier": "all refractive index distributions, fields and distances", "why_tests_cant": "All fields and materials.", "anchors": ["python/macromax/utils/beam.py: BeamSection.propagate"]}
{"id": "C58", "title": "Beam yields the field at the grid coordinates, every time", "statement": "The j-th section yielded by a Beam is the field propagated to the j-th coordinate of the grid along the propagation axis, each time the beam is iterated or evaluated.", "quantifier": "all grids, all numbers of evaluations", "why_tests_cant": "All histories of evaluations.", "anchors": ["python/macromax/utils/beam.py: Beam.__iter__", "python/macromax/utils/beam.py: Beam.field", "python/macromax/utils/beam.py: Beam.__init__"]}
{"id": "C59", "title": "Sub-pixel roll", "statement": "roll(arr, s) for integer s is the circular shift np.roll; rolling by s and then t equals rolling by s + t for all real shifts; rolling by the array size is the identity.", "quantifier": "all arrays, sizes and real shifts", "why_tests_cant": "All sizes and shifts.", "anchors": ["python/macromax/utils/ft/subpixel.py: roll", "python/macromax/utils/ft/subpixel.py: roll_ft"]}
{"id": "C60", "title": "Registration recovers shift and factor", "statement": "For a subject that is a circularly shifted and scaled copy of the reference, the registration returns an image equal to the reference, the scale factor, zero error and the shift. For any subject, no shift by whole pixels and no factor bring the subject closer to the reference, and error is the relative root-mean-square difference that remains.", "quantifier": "all references, shifts by whole or half pixels or by multiples of the precision, and non-zero factors", "why_tests_cant": "All images.", "anchors": ["python/macromax/utils/ft/subpixel.py: Reference.register", "python/macromax/utils/ft/subpixel.py: Registration"]}
{"id": "C61", "title": "Registration keeps image and original consistent", "statement": "In a Registration, original is the image shifted by shift and multiplied by factor, for every history of reading image and original (and their Fourier transforms) and of assigning shift, whether it was constructed with the original or the registered image.", "quantifier": "all histories", "why_tests_cant": "All histories.", "anchors": ["python/macromax/utils/ft/subpixel.py: Registration"]}
{"id": "C62", "title": "An Adaptive stop criterion can be used for several problems", "statement": "An Adaptive object that was used for one execution decides about a second execution, that starts with iteration 1, exactly as a new Adaptive object with the same arguments does.", "quantifier": "all histories of a first use, and all second executions", "why_tests_cant": "The state left behind by the first use depends on an arbitrary residue history.", "anchors": ["python/macromax/utils/stop_criterion.py: Adaptive"]}
{"id": "C63", "title": "inv pseudo-inverts rectangular matrices", "statement": "Matrix.inv(noise_level) returns the Tikhonov-regularized pseudo-inverse of the matrix with as many rows as the matrix has columns, also if it is not square.", "quantifier": "all shapes, matrices and noise levels", "why_tests_cant": "All shapes; tests only use square matrices.", "anchors": ["python/macromax/matrix.py: Matrix.inv"]}
{"id": "C64", "title": "A literal scattering matrix without array is the identity", "statement": "LiteralScatteringMatrix(side=n) @ v returns v, as documented for SquareMatrix and LiteralScatteringMatrix when no array is specified, and with an array it returns the product.", "quantifier": "all sides, arrays and vectors", "why_tests_cant": "All sides.", "anchors": ["python/macromax/matrix.py: LiteralScatteringMatrix", "python/macromax/matrix.py: SquareMatrix", "python/macromax/matrix.py: Matrix._matvec"]}
{"id": "C65", "title": "SquareMatrix accepts only square arrays", "statement": "The constructor of SquareMatrix raises a ValueError unless the array is side x side.", "quantifier": "all shapes of arrays, with any or no side", "why_tests_cant": "All shapes.", "anchors": ["python/macromax/matrix.py: SquareMatrix.__init__"]}
{"id": "C66", "title": "Source vectors are superpositions of plane waves", "statement": "srcvec2freespace returns the superposition of the propagating plane waves, with the amplitudes divided by the square root of the cosine of the angle of incidence, those of the second half of the vector in the opposite directions, and with polarizations that are rotated along the shortest path (transverse, and of the same magnitude).", "quantifier": "all grids, wavenumbers, vectors and sample points; scalar and vectorial", "why_tests_cant": "The parity of the grid, coarse sampling and small amplitudes matter.", "anchors": ["python/macromax/matrix.py: ScatteringMatrix.srcvec2freespace"]}
{"id": "C67", "title": "Source and detector planes are outside the boundaries", "statement": "The source planes are outside the absorbing boundaries, the detector planes are a wavelength further from the boundary (to within a sample), and for grids that are long enough all planes are in the grid and in that order.", "quantifier": "all thicknesses, steps, wavelengths and numbers of samples", "why_tests_cant": "Thicknesses that are not a multiple of the step matter.", "anchors": ["python/macromax/matrix.py: ScatteringMatrix.__init__"]}
{"id": "C68", "title": "Sources have the strength for unit amplitudes", "statement": "srcvec2source returns a source that is zero outside the source planes, and that emits in empty space the plane waves of srcvec2freespace with the same amplitudes.", "quantifier": "all grids, wavenumbers and vectors", "why_tests_cant": "The units of length matter.", "anchors": ["python/macromax/matrix.py: ScatteringMatrix.srcvec2source"]}
{"id": "C69", "title": "Homogeneous beam propagation is the superposition of propagating plane waves", "statement": "The field of a BeamSection that is propagated by z is the sum of the plane waves of its Fourier components, with wavevectors of the length of the wavenumber; only propagating modes are kept; the polarization of each wave is orthogonal to its wavevector; reading a field that was assigned gives it back.", "quantifier": "all grids, fields, distances and histories", "why_tests_cant": "All fields and sampling densities, including those with evanescent components.", "anchors": ["python/macromax/utils/beam.py: BeamSection.__init__", "python/macromax/utils/beam.py: BeamSection.field", "python/macromax/utils/beam.py: BeamSection.propagate"]}
{"id": "C70", "title": "A slice multiplies the field by its phase and attenuation", "statement": "Propagating over d through a refractive index n multiplies the field at each point by exp(i k (n/n_b - 1) d), and then propagates it over d in the background; a slice with the index of the background is homogeneous propagation.", "quantifier": "all complex refractive index distributions, fields and positive distances", "why_tests_cant": "All distributions, including those that vary little.", "anchors": ["python/macromax/utils/beam.py: BeamSection.propagate"]}
{"id": "C71", "title": "Fields that a beam section returned do not change later", "statement": "The arrays returned by field and field_ft keep their values, whatever is done with the section afterwards.", "quantifier": "all histories of operations", "why_tests_cant": "All histories; aliasing.", "anchors": ["python/macromax/utils/beam.py: BeamSection.field", "python/macromax/utils/beam.py: BeamSection.field_ft", "python/macromax/utils/beam.py: BeamSection.propagate"]}
{"id": "C72", "title": "A beam is sampled at the coordinates of its grid", "statement": "The three-dimensional grid of a Beam, and the transverse grid of its sections, have the coordinates of the grid that was specified, for grids with up to three axes.", "quantifier": "all grids, axes and settings of the origin", "why_tests_cant": "All combinations of grid settings.", "anchors": ["python/macromax/utils/beam.py: Beam.__init__", "python/macromax/utils/beam.py: BeamSection.__init__"]}
{"id": "C73", "title": "Passive slices do not add energy to a beam", "statement": "Propagation through a material without gain does not increase the energy of the section, and through a transparent material it conserves it.", "quantifier": "all passive refractive index distributions, fields and non-negative distances", "why_tests_cant": "All fields and materials.", "anchors": ["python/macromax/utils/beam.py: BeamSection.propagate", "python/macromax/utils/beam.py: BeamSection.field"]}
{"id": "C74", "title": "Sources and fields are reciprocal", "statement": "In materials with symmetric permittivity and permeability, and coupling tensors that are opposite transposes (e.g. chiral materials), the reaction of the field of a first source with a second source equals that of the field of the second source with the first, in solutions of the discretized wave equation and in the limit of the iteration.", "quantifier": "all grids, materials, sources", "why_tests_cant": "All sources and grid sizes; parity of the axes.", "anchors": ["python/macromax/solver.py: Solution.__update_operators", "python/macromax/backend/__init__.py: BackEnd.curl"]}
{"id": "C75", "title": "The energy balance of solutions", "statement": "For each solution, also with magneto-electric coupling, the power delivered by the source equals the power absorbed in the material: zero for lossless materials, and never negative for passive ones; the field is bounded by the source where the material absorbs.", "quantifier": "all grids, materials, sources and solutions", "why_tests_cant": "Inequality over all fields and materials.", "anchors": ["python/macromax/solver.py: Solution.E", "python/macromax/solver.py: Solution.j", "python/macromax/backend/__init__.py: BackEnd.curl"]}
{"id": "C76", "title": "Calculations do not depend on the position in the periodic volume", "statement": "Moving material, source and initial field circularly by a whole number of samples moves all fields of all iterations, including fluxes, energies, stresses, forces and torques, and changes neither the bias nor the residues nor the iteration at which an exception is raised.", "quantifier": "all grids, materials, sources, displacements and numbers of iterations", "why_tests_cant": "All displacements and executions.", "anchors": ["python/macromax/solver.py: Solution.__iter__", "python/macromax/solver.py: Solution.__update_operators", "python/macromax/backend/__init__.py: BackEnd.convolve"]}
{"id": "C77", "title": "Calculations do not depend on the unit of length", "statement": "When the grid, the wavelength and the thickness of the boundary are multiplied by the same factor all iterations and residues are the same; with currents divided by the factor the electric and magnetic fields, fluxes, energies, stresses and torques are the same, and the force density is divided by the factor.", "quantifier": "all grids, units, materials and numbers of iterations", "why_tests_cant": "All units and executions.", "anchors": ["python/macromax/solver.py: Solution.__init__", "python/macromax/solver.py: Solution.__increase_bias_to_limit_kernel_width", "python/macromax/backend/__init__.py: BackEnd.k2"]}
{"id": "C78", "title": "The field depends linearly on the source", "statement": "Multiplying source and initial field by a complex number multiplies the fields of all iterations, and multiplies powers, energies, stresses, forces and torques by the square of its absolute value; while the bias is not increased the iterations for a superposition are the superposition of the iterations; solutions can be superposed.", "quantifier": "all materials, sources, complex amplitudes and numbers of iterations", "why_tests_cant": "All amplitudes and executions.", "anchors": ["python/macromax/solver.py: Solution.__iter__", "python/macromax/solver.py: Solution.E", "python/macromax/solver.py: Solution.residue"]}
{"id": "C79", "title": "Scalar calculations are those of a transverse polarization", "statement": "For isotropic materials without magnetic contrast, all iterations of a scalar calculation equal those of the vectorial calculation with a source polarized along an axis in which the volume has no extent.", "quantifier": "all grids, isotropic materials, sources, and numbers of iterations", "why_tests_cant": "All executions of two different code paths.", "anchors": ["python/macromax/solver.py: Solution.__update_operators", "python/macromax/solver.py: Solution.__iter__", "python/macromax/solver.py: Solution.E"]}
{"id": "C80", "title": "The convolution kernel does not pass through the boundary", "statement": "The bias is such that the one-dimensional kernel decreases to 0.001 or less over each boundary with a thickness other than zero, and it is not increased more than that requires.", "quantifier": "all wavenumbers, boundaries and material constants", "why_tests_cant": "All values of four real parameters, including negative permittivities.", "anchors": ["python/macromax/solver.py: Solution.__increase_bias_to_limit_kernel_width"]}
{"id": "C81", "title": "Work arrays do not interfere", "statement": "Iterating, reading and assigning fields with the arrays that are shared and overwritten in place (Fourier transform buffers, FFTW that destroys its input) has the same effect as with values: no operation corrupts the field, the source or a result that is still needed, and programs that overwrite arrays that they have read do not change the solution.", "quantifier": "all media (magnetic or not), scalar and vectorial, all histories of operations, all alignments, and anything that FFTW may leave in its input", "why_tests_cant": "What FFTW destroys depends on its version, plan and alignment; all interleavings of operations.", "anchors": ["python/macromax/solver.py: Solution.__iter__", "python/macromax/solver.py: Solution.__update_operators", "python/macromax/backend/__init__.py: BackEnd.convolve, longitudinal_projection_ft, array_ft_input", "python/macromax/backend/numpy.py: fft_impl, ifft_impl"]}
{"id": "C82", "title": "Arrays that have been read keep their values", "statement": "An array that has been read from a solution keeps its values until the program that read it changes it.", "quantifier": "all getters E, B, H, D and source_distribution, and all later histories of operations", "why_tests_cant": "All later histories.", "anchors": ["python/macromax/solver.py: Solution.E, B, H, D, source_distribution", "python/macromax/backend/numpy.py: fft_impl, ifft_impl"]}
{"id": "C83", "title": "Projections with work arrays", "statement": "transversal_projection and longitudinal_projection return the projections of their argument, also when the Fourier transforms reuse arrays.", "quantifier": "all fields, grids and back ends", "why_tests_cant": "What FFTW does when its input is its output is not specified.", "anchors": ["python/macromax/backend/__init__.py: BackEnd.longitudinal_projection, transversal_projection, longitudinal_projection_ft, transversal_projection_ft"]}
{"id": "C84", "title": "Source arguments of the constructor and their replacement", "statement": "The arguments vectorial, current_density and source_distribution determine the number of field components and the source that the iteration uses as documented, and assigning source_distribution replaces that source.", "quantifier": "all shapes and values of the arguments, all grids, all sequences of assignments", "why_tests_cant": "All combinations of arguments, numbers of axes and shapes, and all sequences of assignments.", "anchors": ["python/macromax/solver.py: Solution.__init__, source_distribution", "python/macromax/backend/__init__.py: BackEnd.to_matrix_field, assign"]}
{"id": "C85", "title": "Boundaries are added to the material", "statement": "A material property that is given as a number or as a matrix for each point is used as such, and an electric (magnetic) boundary adds its susceptibility at each point, times the identity, to the permittivity (permeability).", "quantifier": "all grids, shapes that can be broadcast, values, and susceptibilities; scalar and vectorial calculations", "why_tests_cant": "All combinations of shapes; the effect on all matrix elements at all points.", "anchors": ["python/macromax/solver.py: Solution.__init__", "python/macromax/backend/__init__.py: BackEnd.to_matrix_field, eye", "python/macromax/bound.py: Electric, Magnetic"]}
{"id": "C86", "title": "From the arguments of the constructor to the field", "statement": "The state that the constructor prepares from its arguments (permittivity or refractive index, coupling tensors, permeability, boundary, source and initial field) has the given initial field, and its iterates converge to the field that satisfies the wave equation for the given material plus the boundary susceptibility and for the given source.", "quantifier": "all grids, arguments whose shapes can be broadcast, values, wavenumbers, and results of the optimizer", "why_tests_cant": "All materials, shapes of the arguments and iterations; tests compare a few analytical solutions with a tolerance.", "anchors": ["python/macromax/solver.py: Solution.__init__, __next__, E", "python/macromax/backend/__init__.py: BackEnd.to_matrix_field"]}
{"id": "C87", "title": "Materials that vary by less than the tolerance", "statement": "Material tensors that differ by no more than the tolerance from 0 or from a constant permeability are neglected only so far that the field still solves the given wave equation up to an error in proportion to the difference.", "quantifier": "all material tensors, grids, wavenumbers and sources", "why_tests_cant": "The decision has a threshold; the effect is on all fields and is bounded by the largest spatial frequency of the grid.", "anchors": ["python/macromax/solver.py: Solution.__init__ (__magnetic), __next__", "python/macromax/backend/__init__.py: BackEnd.allclose, is_scalar, first"]}
{"id": "C88", "title": "Permeability in scalar calculations", "statement": "Scalar calculations solve the scalar wave equation for the given permittivity and permeability.", "quantifier": "all permittivities, permeabilities and coupling constants, grids, wavenumbers, sources and values of beta", "why_tests_cant": "All media and fields; the effect of a varying permeability is not visible with uniform ones.", "anchors": ["python/macromax/solver.py: Solution.__init__, __next__", "python/macromax/backend/__init__.py: BackEnd.curl"]}
{"id": "C89", "title": "Maxwell's equations with magneto-electric coupling", "statement": "For materials with coupling tensors that do no work on the fields, there is a unique solution of Maxwell's equations with D = epsilon E + xi H and B = zeta E + mu H when the material absorbs, and the iteration converges to its electric field.", "quantifier": "all permittivities, coupling tensors and invertible permeabilities at all points, grids, wavenumbers, sources, initial fields, boundary thicknesses and results of the optimizer", "why_tests_cant": "All materials and infinite executions; no test has coupling tensors that vary in space.", "anchors": ["python/macromax/solver.py: Solution.__update_operators", "python/macromax/solver.py: Solution.__prepare_preconditioner", "python/macromax/solver.py: Solution.__iter__"]}
{"id": "C90", "title": "solve ends, and its tolerance bounds the error", "statement": "For a problem that absorbs, solve with a relative tolerance larger than 0 returns after a finite number of iterations, without exception. If it returns before the maximum number of iterations, then the relative error of the electric field, with respect to the solution of the wave equation, is at most a constant of the problem times the tolerance.", "quantifier": "all absorbing problems, grids, sources, initial fields, tolerances and limits", "why_tests_cant": "Concerns all problems and executions of unbounded length, and the exact solution is not known to a test.", "anchors": ["python/macromax/solver.py: Solution.solve", "python/macromax/solver.py: Solution.__iter__", "python/macromax/solver.py: Solution.relative_residue"]}
{"id": "C91", "title": "relative_residue is the error", "statement": "The relative residue that is reported after an iteration of an absorbing problem is an upper bound of the relative error of the electric field, up to a constant factor that is the same for all problems.", "quantifier": "all absorbing problems, grids, sources, initial fields and numbers of iterations", "why_tests_cant": "The factor must hold for all problems; the exact solution is not known to a test.", "anchors": ["python/macromax/solver.py: Solution.relative_residue", "python/macromax/solver.py: Solution.__iter__"]}
{"id": "C92", "title": "A grid can be given as a sequence of ranges", "statement": "Where a grid is expected, a sequence with a uniformly spaced range for each axis can be given instead, or for one axis a sequence of numbers. The grid then has these ranges as its coordinates. The ranges can be vectors or arrays with an axis for each axis of the grid, and for from_ranges also slices.", "quantifier": "all numbers of axes, ranges in monotonic or Fourier-transform order, and all forms of each range", "why_tests_cant": "The tests list a few forms for from_ranges in one and two dimensions; none passes ranges to a boundary.", "anchors": ["python/macromax/utils/ft/grid.py: Grid.from_ranges", "python/macromax/solver.py: Solution.__init__", "python/macromax/bound.py: Bound.__init__"]}
{"id": "C93", "title": "Thickness and extinction are given per side", "statement": "The thickness and the maximum extinction coefficient of a boundary can be a number for all sides, a pair for the front and the back of all axes, or an array [axis, side] of which singleton axes are repeated; any other shape raises a ValueError.", "quantifier": "all array shapes, values and numbers of axes", "why_tests_cant": "All shapes and numbers of axes.", "anchors": ["python/macromax/bound.py: Bound.__init__", "python/macromax/bound.py: AbsorbingBound.__init__", "python/macromax/bound.py: LinearBound.__init__"]}
{"id": "C94", "title": "Fields of a ScatteringMatrix do not depend on earlier calculations and scale with the source", "statement": "The field that source2detfield returns for a source is the same whatever calculations have been done before with the same Solution object, and multiplying the source by a number multiplies the field by it, after the same number of iterations.", "quantifier": "all media, grids, sources, complex factors, numbers of iterations, and histories of calls", "why_tests_cant": "All histories of calls and all sources.", "anchors": ["python/macromax/matrix.py: ScatteringMatrix.source2detfield", "python/macromax/solver.py: Solution.solve", "python/macromax/solver.py: Solution.__iter__", "python/macromax/solver.py: Solution.source_distribution", "python/macromax/solver.py: Solution.E"]}
{"id": "C95", "title": "NumPy functions of matrices act on their values", "statement": "A NumPy function of which arguments are, or contain, Matrix objects returns the function of their arrays, whichever of the arguments they are, also with keyword and string arguments.", "quantifier": "all NumPy functions, arguments (nested lists of any depth), keyword arguments, and recursion limits", "why_tests_cant": "All functions and all structures of the arguments; a recursion without end is refuted for every limit.", "anchors": ["python/macromax/matrix.py: Matrix.__array_ufunc__", "python/macromax/matrix.py: Matrix.__array_function__"]}
{"id": "C96", "title": "DepositionMatrix projects the internal field", "statement": "The product of a DepositionMatrix is the output operator applied to the internal field: for a function the elements that it returns, for the default operator what the detectors measure of the total field, i.e. the product of the ScatteringMatrix plus the detected incident waves.", "quantifier": "all functions, field sizes, vectors, solvers and recursion limits", "why_tests_cant": "All output functions, whatever the shape of their result.", "anchors": ["python/macromax/matrix.py: DepositionMatrix.__init__", "python/macromax/matrix.py: DepositionMatrix._matvec"]}
{"id": "C97", "title": "Products with a scattering matrix are linear, with and without caching", "statement": "When the field is a linear function of the source, the products of a ScatteringMatrix with vectors are those of one matrix. When it is proportional to the source, every history of products and changes of `caching` returns what would be returned without caching.", "quantifier": "all grids, sets of modes, polarizations, linear or homogeneous solvers, vectors, and histories", "why_tests_cant": "All vectors and histories of products.", "anchors": ["python/macromax/matrix.py: ScatteringMatrix._matvec", "python/macromax/matrix.py: ScatteringMatrix.srcvec2freespace", "python/macromax/matrix.py: ScatteringMatrix.srcvec2source", "python/macromax/matrix.py: ScatteringMatrix.detfield2detvec"]}
{"id": "C98", "title": "Calculations do not depend on the names and directions of the axes", "statement": "Permuting the axes of the grid and of all vectors and tensors, or taking a mirror image, permutes or mirrors all fields of all iterations: E, D, S, the source and the force density as vectors, B, H and the torque as axial vectors, the stress as a tensor, and the energy density and the divergence of S as numbers; the bias, the residue, the iteration numbers and the exceptions stay the same.", "quantifier": "all grids, materials including bi-anisotropic ones, sources, permutations, sets of mirrored axes and numbers of iterations, scalar and vectorial", "why_tests_cant": "All permutations, tensors, grid parities and executions.", "anchors": ["python/macromax/solver.py: Solution.__iter__", "python/macromax/solver.py: Solution.__update_operators", "python/macromax/solver.py: Solution.torque", "python/macromax/backend/__init__.py: BackEnd.curl_ft", "python/macromax/backend/__init__.py: BackEnd.longitudinal_projection_ft"]}
{"id": "C99", "title": "The field in uniform materials has a closed form and is found", "statement": "In a uniform isotropic material without a resonance on the grid the wave equation has exactly one solution: at every spatial frequency the transverse part of the source is divided by the difference of the squared wavenumbers and its longitudinal part by minus the squared wavenumber of the material. The constructor accepts the arguments that describe it, and the iteration converges to that solution from every initial field; exponentially when the material absorbs.", "quantifier": "all grids of up to three dimensions with non-zero steps, wavenumbers, permittivities other than zero without gain, positive permeabilities, sources, initial fields and forms of the arguments", "why_tests_cant": "All sources, spatial frequencies, materials and grids; the limit of an infinite iteration.", "anchors": ["python/macromax/solver.py: Solution.__init__", "python/macromax/solver.py: Solution.__iter__", "python/macromax/backend/__init__.py: BackEnd.longitudinal_projection_ft", "python/macromax/backend/__init__.py: BackEnd.curl_ft"]}
{"id": "C100", "title": "Iterations are not rejected for ever", "statement": "When an iteration would increase the change of the field it is rejected and only the bias is increased, by a factor 1.5. After finitely many such iterations one is accepted: the field changes, by less than the last time. Hence every execution either makes infinitely many changes of decreasing size, or comes to a change of exactly zero, after which the next iteration raises an exception.", "quantifier": "all grids, materials with and without gain, coupled or magnetic, sources, fields, biases with a non-zero imaginary part, and executions", "why_tests_cant": "A limit of an unbounded number of rejections for all materials.", "anchors": ["python/macromax/solver.py: Solution.__iter__", "python/macromax/solver.py: Solution.__update_operators", "python/macromax/solver.py: Solution.__init__"]}
{"id": "C101", "title": "A residue that tends to zero means that the field tends to a solution", "statement": "If the relative residue tends to zero then so does the mismatch of the wave equation, so that solve with a small tolerance returns a field close to a solution.", "quantifier": "all problems that the constructor accepts, all tolerances and executions", "why_tests_cant": "Limits of infinite executions, for all results of fmin.", "anchors": ["python/macromax/solver.py: Solution.__iter__", "python/macromax/solver.py: Solution.relative_residue", "python/macromax/solver.py: Solution.solve"]}
{"id": "C102", "title": "The fields from which a ScatteringMatrix is calculated are accurate", "statement": "With the default callback, source2detfield returns for every source, after at most 10^4 iterations and without an exception, whatever has been calculated before. It stops after the first iteration of which the residue is at most 10^-6, or at iteration 10^4. Unless 10^4 iterations were needed, the relative error of the field is at most 10^-6 times a factor that is the same for all sources; hence superpositions of sources give superpositions of fields up to errors of that order, and the products with the matrix are those with one exact matrix up to errors of that order times the largest amplitude.", "quantifier": "all grids, materials without gain for which there is no field without source (absorbing ones among them), magnetic or not, vectorial or scalar, all sources and all histories of earlier sources", "why_tests_cant": "A bound with one factor for all sources and histories.", "anchors": ["python/macromax/matrix.py: ScatteringMatrix.__init__", "python/macromax/matrix.py: ScatteringMatrix.source2detfield", "python/macromax/solver.py: Solution.solve"]}
{"id": "C103", "title": "The light and the background of a BeamSection are those of its arguments", "statement": "A given wavelength is used rather than a wavenumber, and a given refractive index rather than a permittivity. The accessors for the wavelength and wavenumber, in vacuum and in the background, and for the permittivity and refractive index return the given values and are consistent with each other; equivalent arguments give the same section. Light along the propagation axis repeats after the wavelength. The propagation axis is a negative index of the given axis, also when the grid has fewer than three axes.", "quantifier": "all complex wavelengths, wavenumbers, permittivities and indices; all axes and grids with up to three axes; all states", "why_tests_cant": "All complex arguments.", "anchors": ["python/macromax/utils/beam.py: BeamSection.__init__", "python/macromax/utils/beam.py: BeamSection.vacuum_wavelength", "python/macromax/utils/beam.py: BeamSection.wavelength", "python/macromax/utils/beam.py: BeamSection.background_permittivity", "python/macromax/utils/beam.py: Beam.__init__"]}
{"id": "C104", "title": "Fields and materials of a BeamSection can be given as arrays or functions", "statement": "A field or its Fourier transform that is given as an array is repeated along the axes on which it does not depend; it is scalar or vectorial according to its fourth axis from the right, and other shapes raise a ValueError. A function is called with the coordinates of the grid, and functions of fewer coordinates are those that do not depend on the others; this holds for materials as well, which can be functions of (y, x). A section can start with zeros, and be propagated.", "quantifier": "all grids, arrays with up to four axes of any shape, functions with any number of parameters, states and distances", "why_tests_cant": "All shapes and functions.", "anchors": ["python/macromax/utils/beam.py: BeamSection.field", "python/macromax/utils/beam.py: BeamSection.field_ft", "python/macromax/utils/beam.py: BeamSection.propagate", "python/macromax/utils/beam.py: BeamSection.__init__"]}
{"id": "C105", "title": "Beam.field uses the material at each point of the grid", "statement": "For a material that is given as a sequence of slices along the propagation axis, or as an array on the whole grid, the field at each point of the grid is that behind the slice of the material at that position. The refractive index is used if the permittivity is given as well. A material that does not fit the grid raises an error.", "quantifier": "all grids, propagation axes, numbers and shapes of slices, states", "why_tests_cant": "All shapes and numbers of slices.", "anchors": ["python/macromax/utils/beam.py: Beam.field", "python/macromax/utils/beam.py: Beam.__iter__", "python/macromax/utils/beam.py: BeamSection.propagate"]}
{"id": "C106", "title": "A Reference operates on the axes that it is given", "statement": "Reference(image, axes=axes).register(subject) registers images over the given axes, in any order; by default over all axes. The shift has one element per axis.", "quantifier": "all shapes of reference and subject, all axes and precisions", "why_tests_cant": "All shapes and selections of axes.", "anchors": ["python/macromax/utils/ft/subpixel.py: Reference.__init__", "python/macromax/utils/ft/subpixel.py: Reference.register", "python/macromax/utils/ft/subpixel.py: Reference.__zoom_ft"]}
{"id": "C107", "title": "Products with right-hand sides of the documented shapes", "statement": "A matrix can be multiplied with a vector of shape (N,), a matrix of shape (N, P), and with arrays of which the first axes are the side, the mode and the polarization; each column of the result is the product with that column, and the result has the same shape.", "quantifier": "all numbers of modes and polarizations, all shapes, all elements", "why_tests_cant": "All shapes.", "anchors": ["python/macromax/matrix.py: Matrix._matvec", "python/macromax/matrix.py: ScatteringMatrix._matvec"]}
{"id": "C108", "title": "Matrix objects have adjoints, can be multiplied from both sides, and can be changed if they have an array", "statement": "M.H is the adjoint of M, for which inner products agree; rmatvec multiplies with it. Arrays, lists and operators can be multiplied from the left. An assignment changes the selected elements and no others, and later products use them; scattering matrices cannot be changed.", "quantifier": "all linear matrices, all factors, all indices", "why_tests_cant": "All matrices and indices.", "anchors": ["python/macromax/matrix.py: Matrix._adjoint", "python/macromax/matrix.py: Matrix.__setitem__", "python/macromax/matrix.py: ScatteringMatrix.__setitem__", "python/macromax/matrix.py: Matrix.__array_ufunc__"]}
{"id": "C109", "title": "InterpolatedColorMap interpolates the given colours", "statement": "Each entry of the table of a colour map is the linear interpolation of the colours at the nearest given positions on both sides, per channel, with alpha if there is a fourth column; without positions the colours are at equal distances. Arguments that do not fit raise an error.", "quantifier": "all numbers of colours and table entries, all positions and colours", "why_tests_cant": "All colours and positions.", "anchors": ["python/macromax/utils/display/colormap.py: InterpolatedColorMap.__init__"]}
{"id": "C110", "title": "format_image_axes adds the documented scale bar", "statement": "A scale bar is added for positive scales only, with a length of 1, 2 or 5 times a power of ten and a label with that length and the unit, prefixed according to the order of magnitude; annotations are white if white_background is True and black otherwise; an empty title is not added.", "quantifier": "all scales, units and titles", "why_tests_cant": "All scales, units and titles.", "anchors": ["python/macromax/utils/display/format_image_axes.py: format_image_axes"]}
{"id": "C111", "title": "Complex wavenumbers and absorbing backgrounds", "statement": "A beam in a background with a complex refractive index propagates as plane waves with wavevectors of which the squared components add up to the square of the complex wavenumber. Fourier components are multiplied with exp(i k_z d), so that absorbing backgrounds attenuate all waves, transparent materials amplify none, propagation over a negative distance undoes propagation, and fields are perpendicular to their wavevectors. For real values nothing differs from a real background.", "quantifier": "all grids, complex wavenumbers and background indices, states of a section, distances, uniform materials and Fourier components", "why_tests_cant": "The tests use real backgrounds only; which waves are propagated incorrectly depends on the continuous values of the complex wavenumber and of the angle.", "anchors": ["python/macromax/utils/beam.py: BeamSection.__init__, wavenumber, __calc_propagator_ft, __transverse_projection_field_ft, propagate"]}
{"id": "C112", "title": "Transfer matrices of stacks, and the methods transfer and inv", "statement": "The product of the transfer matrices of two scatterers is the transfer matrix of one on top of the other; converting it gives the scattering matrix of the stack, unless the stack has a resonance without input. Vacuum has no effect, and stacks of lossless scatterers are lossless. S.transfer() does this for any scattering matrix object, and S.inv() inverts its products with vectors or raises a ValueError.", "quantifier": "all even sizes, complex scattering matrices with an invertible backward transmission, amplitudes of waves; matrix objects with an array or with a linear operator", "why_tests_cant": "The tests convert a few random matrices back and forth; that the product of transfer matrices describes the stack for all waves, and exactly when it can be converted, is a statement about all matrices.", "anchors": ["python/macromax/matrix.py: Matrix.inv, LiteralScatteringMatrix.transfer, inv, convert"]}
{"id": "C113", "title": "register(subject) without a reference locates the brightest point", "statement": "register(subject, reference) is the registration of the subject with the reference. Without a reference, it is the registration with a point in the first element: the shift is the position of the brightest pixel modulo the size of the image, or of a point that is at least as bright, and the factor has its phase. Without a subject, the shift is opposite to the position of the brightest pixel of the reference. The order of the elements in memory has no effect.", "quantifier": "all images that are not zero, all shapes, all orders of the axes in memory, all precisions of whole pixels or of which half a pixel is a multiple", "why_tests_cant": "All images and orders in memory; tests always give two images in raster order.", "anchors": ["python/macromax/utils/ft/subpixel.py: register", "python/macromax/utils/ft/subpixel.py: Reference.register"]}
{"id": "C114", "title": "Calculations do not depend on the number of periods, and uniform axes can be left out", "statement": "A calculation on several periods of a periodic structure and source gives, in each iteration, copies of all fields, fluxes, forces, energies and stresses that the calculation on one period gives, with the same residues, constants and exceptions. Where nothing depends on the position along some axes, the calculation with those axes gives copies of that without. The wave equation holds for copies if and only if it holds for the original.", "quantifier": "all numbers of axes, shapes, steps, numbers of periods, materials, sources, initial fields, and iterations; scalar and vectorial, magnetic or not", "why_tests_cant": "Tests compare a one-dimensional calculation with a two- or three-dimensional one on a few grids within a tolerance; all numbers of samples, periods and iterations are covered here, exactly.", "anchors": ["python/macromax/solver.py: Solution.__init__, __iter__", "python/macromax/backend/__init__.py: BackEnd.convolve, curl_ft, longitudinal_projection_ft, k"]}
{"id": "C115", "title": "Complex conjugation of a calculation reverses the time", "statement": "With conjugated permittivity, permeability, source, initial field and bias (and coupling tensors that are also negated), each iteration gives the conjugated electric and displacement fields, minus the conjugated magnetic fields and current, the opposite flux of energy, and the same energy density, stress, force, residue and exceptions. The wave equation holds for the conjugated problem if and only if it holds for the original. Media with gain hence converge with the conjugate of the bias for the absorbing medium, which is the one the code selects. Fields with one phase carry no power in materials without loss.", "quantifier": "all numbers of axes, shapes, steps, tensors, sources, initial fields, biases and iterations; scalar and vectorial, magnetic or not", "why_tests_cant": "Tests check gain for a single scatterer within a tolerance; here all materials and iterations are covered exactly, with the dependence on the parity of the number of samples.", "anchors": ["python/macromax/solver.py: Solution.__init__, __iter__, __set_materials, __increase_bias_to_limit_kernel_width", "python/macromax/solver.py: E, B, D, H, S, energy_density, stress_tensor, f", "python/macromax/backend/__init__.py: BackEnd.convolve, curl_ft, longitudinal_projection_ft"]}
{"id": "C116", "title": "Forces and flux add up to zero, and the parts that are dropped are rounding errors", "statement": "The force densities add up to zero over the calculation volume, and so does the divergence of the Poynting vector: the volume is periodic. Before the imaginary part is dropped, the divergence of the stress is real, up to rounding errors, as is divS.", "quantifier": "all states of the calculation, materials, boundaries, grids of up to three dimensions", "why_tests_cant": "Holds for all states, including those that have not converged; the imaginary part is only zero for odd numbers of samples, while tests look at converged fields that are smooth.", "anchors": ["python/macromax/solver.py: Solution.f, divS, stress_tensor, S", "python/macromax/backend/__init__.py: BackEnd.div"]}
{"id": "C117", "title": "The number of iterations is bounded by contrast and absorption, whatever the grid", "statement": "When the material absorbs at least \u03b4 at every point, every iteration reduces the error by a factor that is given by the bias, the contrast, and \u03b4. With the default initial field, solve(rtol=...) returns within 1 + A\u00b3(A\u2212\u03c3+4\u03b4)/(\u03b4(A\u2212\u03c3)\u00b3)\u00b7log((2+rtol)/rtol) iterations, with A the selected bias and \u03c3 the contrast; without absorbing layers A is \u03c3 + 0.05 divided by the permeability. The error is then at most q/(1\u2212q) times the tolerance. For magnetic materials and materials with magneto-electric coupling \u03c3 is the sum of the contrasts of the four tensors, weighted with powers of the largest wavenumber of the grid, and \u03b4 the absorption of the material with the coupling exchanged (C89).", "quantifier": "all grids, wavelengths, sources, materials with absorption (with and without magneto-electric coupling), tolerances, limits, and results of the optimization; scalar calculations for the rate", "why_tests_cant": "A test measures the number of iterations for a particular problem; the bound is the same for all grids and sources, and how it depends on contrast and absorption only follows from the contraction of the operator.", "anchors": ["python/macromax/solver.py: Solution.__iter__, Solution.solve, Solution.__prepare_preconditioner, __increase_bias_to_limit_kernel_width"]}
{"id": "C118", "title": "Calculations use the documented data type, and no digits or imaginary parts are lost", "statement": "Solution.dtype is np.complex64 or np.complex128, for every argument dtype, type of the source, and back end; without the argument the type has all values of the source. The cross product of vector fields of any types is their cross product. The tolerance for propagating modes is the square root of the precision.", "quantifier": "all data types of NumPy, all arguments, both back ends, all vector fields", "why_tests_cant": "Tests use complex128 nearly everywhere; combinations of types of source, argument and back end are not enumerated, and lost digits or imaginary parts only give warnings.", "anchors": ["python/macromax/solver.py: Solution.__init__, Solution.dtype", "python/macromax/backend/numpy.py: BackEndNumpy.allocate_array", "python/macromax/backend/torch.py: BackEndTorch.__init__, numpy_dtype, allocate_array", "python/macromax/backend/__init__.py: BackEnd.cross", "python/macromax/matrix.py: ScatteringMatrix.__init__", "python/macromax/utils/ft/subpixel.py: roll_ft"]}
{"id": "C119", "title": "The data type of beams, and fields that are written to a given array", "statement": "The data type of a section is that of the field that is given, made complex, and is the type of the fields that it returns. Beam.field(..., out) writes the same fields to out as are returned without it, whatever out contained.", "quantifier": "all data types of NumPy, scalar and vectorial, all materials, all contents and types of out", "why_tests_cant": "The tests do not use single precision for beams nor the argument out; what happens to earlier contents of out depends on the number of slices.", "anchors": ["python/macromax/utils/beam.py: BeamSection.__init__, dtype, field, field_ft, Beam.field"]}
{"id": "C120", "title": "Rounding errors do not accumulate", "statement": "Let every iteration make arbitrary errors in the change of the field, in its sum with the field, and in the norms of the change and the field, each at most \u03b7 times the norm of the solution. If an exact iteration brings fields together by a factor q and 18 \u03b7 (1 \u2212 q + rtol) \u2264 rtol (1 \u2212 q)\u00b2, then solve raises no exception and rejects no iteration; it returns when 2 (2 + rtol) q^l \u2264 rtol, and the error is at most (q rtol (\u2016E\u2016 + \u03b7\u2016exact E\u2016) + 2 \u03b7\u2016exact E\u2016)/(1 \u2212 q), however many iterations there have been. If the tolerance is less than a quarter of the errors, solve may never return.", "quantifier": "all sequences of rounding errors, also adversarial ones; all grids, sources, materials with absorption, with and without magneto-electric coupling, tolerances and limits; vectorial and scalar calculations", "why_tests_cant": "A test sees the rounding errors of one machine, library and problem. That none can make the adaptive iteration reject a step, never return, or drift away is a statement about all sequences of errors.", "anchors": ["python/macromax/solver.py: Solution.__iter__, Solution.solve, Solution.relative_residue"]}
{"id": "C121", "title": "Small errors in the data give small errors in the field", "statement": "Let a material absorb at least \u03b4 at every point. If another material differs from it by at most \u03b7 in the permittivity and by at most \u03b6 in the inverse permeability, then the fields that solve the wave equations for the two materials and for sources S and S' satisfy k\u2080\u00b2 \u03b4 \u2016E' \u2212 E\u2016 \u2264 \u2016S' \u2212 S\u2016 + k\u2080\u00b2 (\u03b7 + \u03b6 K\u00b2) \u2016E'\u2016, with K the bound on the wavenumbers of the grid; for errors in the permittivity alone the relative error is at most \u03b7/\u03b4, and no smaller bound holds. Without absorption the same holds with some constant instead of 1/(k\u2080\u00b2 \u03b4) for every problem that only has the solution 0 without source, and all sufficiently close materials have exactly one solution. What solve returns for data with errors, with rounding errors in the iterations, differs from the solution for the exact data by at most the sum of the bounds. With magneto-electric coupling, if at least \u03b4(|E|\u00b2 + |H|\u00b2) is absorbed, then \u03b4 times the norm of the difference of both fields is at most the norm of what the differences between the materials and the sources add to the displacement and the flux density.", "quantifier": "all grids, wavelengths, sources, anisotropic permittivities and permeabilities, errors of any size; scalar and vectorial fields; all arguments of the constructor that describe an absorbing problem without coupling", "why_tests_cant": "A test compares two given materials. That there is no pair of nearby materials on any grid for which the field changes by more is a statement about all of them.", "anchors": ["python/macromax/solver.py: Solution.__init__, Solution.solve, Solution.E"]}
{"id": "C122", "title": "Negative refractive indices", "statement": "A refractive index with a negative real part describes a material with negative permittivity and permeability. It does not matter whether the index is given as a number or as the same multiple of the identity matrix, and for uniform materials that absorb the iteration converges to the unique solution of the wave equation.", "quantifier": "all grids, arguments, sources, initial fields, results of the optimizer, numbers of iterations, spatial frequencies and polarizations", "why_tests_cant": "All materials, grids, initial fields and numbers of iterations; a test of a finite number of iterations cannot show that the error never decreases.", "anchors": ["python/macromax/solver.py: Solution.__init__ (refractive_index), __next__"]}
{"id": "C123", "title": "Maxwell's equations in continuous space", "statement": "For all values at the samples there is exactly one function of the position that varies slowly enough for the grid and has these values. The derivatives, curl, divergence and Laplacian that the library calculates in Fourier space are the samples of the derivatives of that function in the sense of analysis. The electric and magnetic fields, displacement and current density of all states of the solver, converged or not, interpolated in this way, satisfy Faraday's law, Ampere's law, conservation of charge and the absence of magnetic charge at all points of space. The field that the iterations converge to, uniformly in space, satisfies the wave equation with true derivatives at all samples, and at all points of space if the material is uniform.", "quantifier": "all grids with up to three axes and non-zero steps, all conventions for the origin, all values at the samples, all states, all points of space, all materials with a little absorption", "why_tests_cant": "All points of space between the samples, all grids and all fields; a derivative is a limit, that a test can only replace by a difference.", "anchors": ["python/macromax/utils/ft/grid.py: Grid.__getitem__, Grid.k", "python/macromax/backend/__init__.py: BackEnd.curl, BackEnd.div, BackEnd.curl_ft, BackEnd.div_ft", "python/macromax/solver.py: Solution.E, B, H, D, j, __next__"]}
{"id": "C124", "title": "Devices", "statement": "On machines without a GPU, PyTorch is never used with a GPU, for no configuration. Without a device the GPU is used if there is one, the processor is always available, GPU i is used if there are more than i and the default GPU otherwise, gpu means cuda, capitals do not matter, and without PyTorch NumPy is used. All devices that PyTorch accepts can be used.", "quantifier": "all machines, configuration lists, device names", "why_tests_cant": "All machines and configurations; tests run on the hardware that is there.", "anchors": ["python/macromax/backend/__init__.py: load", "python/macromax/backend/torch.py: BackEndTorch.__init__"]}
{"id": "C125", "title": "The local balance of energy", "statement": "At all points of space and for all states of the solver, converged or not, the divergence of the flow of energy Re(E x H*)/2 of the interpolated fields is the power that the currents deliver minus the power that the material absorbs. S is this flow at the samples, and divS times the wavenumber is its divergence. Once the field has converged, no more energy flows out of a sample without gain than the current delivers there.", "quantifier": "all grids with up to three axes, materials, sources, states, points in space", "why_tests_cant": "All fields and points of space; tests compare totals or a few plane waves that vary slowly.", "anchors": ["python/macromax/solver.py: Solution.S", "python/macromax/solver.py: Solution.divS", "python/macromax/solver.py: Solution.j", "python/macromax/backend/__init__.py: BackEnd.div"]}
{"id": "C126", "title": "Forces are Lorentz forces", "statement": "For all materials with a permeability of 1, all states and all points of space, the divergence of Maxwell's stress tensor of the interpolated fields is the Lorentz force (rho E* + J x B*)/2 on all charges and currents, those of the material included. stress_tensor is this tensor at the samples, and f is its divergence at the samples. For all other materials it is the force on these and on the magnetic charges and currents of the magnetization B - mu0 H.", "quantifier": "all grids with up to three axes, materials, sources, states, points in space", "why_tests_cant": "All fields and points of space.", "anchors": ["python/macromax/solver.py: Solution.stress_tensor", "python/macromax/solver.py: Solution.f", "python/macromax/backend/__init__.py: BackEnd.div"]}
{"id": "C127", "title": "Optional libraries never prevent calculations", "statement": "Whatever mix of mkl, mkl_fft, pyfftw and PyTorch is installed, working or broken, MacroMax can be imported, the Fourier transforms are those of the first library in the order mkl_fft, pyfftw, NumPy that works, and load returns the first configuration that can be loaded, NumPy at least. Variables of the environment that the user has set, such as OMP_NUM_THREADS, are kept.", "quantifier": "all combinations of installed libraries and exceptions that they raise, all configurations, all environments", "why_tests_cant": "Tests run with one set of installed libraries.", "anchors": ["python/macromax/utils/ft/ft_implementation.py", "python/macromax/backend/numpy.py: BackEndNumpy.__init__", "python/macromax/backend/__init__.py: load"]}
{"id": "C128", "title": "Fields converge to the exact solution when the grid is refined", "statement": "Let a permittivity, a uniform permeability, a source and a field in continuous space satisfy the wave equation with true derivatives, with a little absorption everywhere, and let the Fourier series of the second derivatives of the field converge absolutely. For all grids with the periods of the field, the field that the solver converges to for the samples of that material and source differs from the exact field, in root mean square, by at most 2 sqrt(3) / (mu k0^2 delta) times the part of the series that the grid does not resolve. So it is exact if the grid resolves the field, and the difference vanishes as the number of samples increases. With the stopping criterion of solve and rounding errors, the errors add. There is at most one such exact field. The same holds for materials that are magnetic, anisotropic, or couple the electric and magnetic fields, with an absorption in the electric and magnetic parts together, for which the series of the first derivatives suffice; and for the magnetic flux density that the solver calculates from the electric field. Between the samples, the function that interpolates the calculated field converges to the exact field as well, at the points of all displaced grids alike.", "quantifier": "all materials, sources and fields in space, all grids with up to three axes, all numbers of samples, tolerances and rounding errors", "why_tests_cant": "Tests compare a few grids with each other; the exact solution is a function of all points of space, and the limit needs all grids.", "anchors": ["python/macromax/solver.py: Solution.__init__", "python/macromax/solver.py: Solution.__iter__", "python/macromax/solver.py: solve", "python/macromax/backend/__init__.py: BackEnd.curl", "python/macromax/solver.py: Solution.B"]}
{"id": "C129", "title": "PyTorch and NumPy give the same results", "statement": "A problem that is solved with the back end for PyTorch instead of NumPy gives the same results. Products of matrices that can be multiplied and of scalars, assignments to fields, norms and the largest eigenvalues of Hermitian matrices are the same, or both raise an exception. The bounds from which the preconditioner is calculated are the same. Programs that iterate, read and assign find the same solution and read the same fields, although PyTorch does not write products of matrices into the array given as `out`.", "quantifier": "all arrays, all media, all histories of operations", "why_tests_cant": "Both libraries are rarely installed together, and a difference shows up only for some shapes or values; all histories of operations.", "anchors": ["python/macromax/backend/torch.py: BackEndTorch.mul, assign, sort, norm", "python/macromax/backend/__init__.py: BackEnd.mul, assign, sort, norm", "python/macromax/solver.py: Solution.__update_operators, Solution.__iter__"]}
{"id": "C130", "title": "There is exactly one exact field, and the solver converges to it", "statement": "Let a permittivity, a uniform permeability and a source be periodic functions of the position that vary smoothly, with a little absorption everywhere. Then exactly one field with an absolutely convergent series of second derivatives satisfies the wave equation in space, so the fields that the solver returns tend to a single function of the position when the grid is refined and the iterations are continued, and that function is the solution. The same holds for scalar fields, and for materials that are magnetic, anisotropic or couple the electric and magnetic fields. Without absorption there need not be any field: in vacuum, a source with the wavelength of the light in a period of one wavelength has none.", "quantifier": "all smooth materials and sources in space with up to three periodic axes, all grids, numbers of iterations and accuracies", "why_tests_cant": "That a function on all of space exists, and that it is the limit on all grids, cannot be observed on any finite number of grids.", "anchors": ["python/macromax/solver.py: Solution.__init__", "python/macromax/solver.py: Solution.__iter__", "python/macromax/solver.py: solve"]}
{"id": "C131", "title": "Opacity does not change colours", "statement": "hsv2rgb and rgb2hsv pass an opacity on unchanged, as fourth channel, and the other three channels do not depend on it; channels that are stacked in one array give the same result as separate arguments, along any axis. complex2rgb gives every pixel an opacity that is its brightness times the maximum opacity, and the same colour as without.", "quantifier": "all colours, opacities, numbers of channels, axes of the channels, complex numbers", "why_tests_cant": "All colours and opacities; the tests have no opacity.", "anchors": ["python/macromax/utils/display/hsv.py: hsv2rgb", "python/macromax/utils/display/hsv.py: rgb2hsv", "python/macromax/utils/display/complex2rgb.py: complex2rgb"]}
{"id": "C132", "title": "The smoother the material, the faster the convergence", "statement": "Let the material absorb everywhere a little, and let the material and the source be periodic functions of the position with derivatives of the order n + 5. Then the exact field has derivatives of the order n + 2, and the difference between the field that the iteration converges to and the exact field, in root mean square, is at most a constant times the n-th power of the distance between the samples: faster than any power if there are derivatives of all orders. The same holds for scalar fields, for the electric and magnetic fields in all linear materials, for the curl of the electric field, and for the interpolated field between the samples.", "quantifier": "all orders, all smooth materials and sources with up to three periodic axes, all grids with the same periods", "why_tests_cant": "One constant has to hold for all grids; a finite number of grids cannot distinguish rates.", "anchors": ["python/macromax/solver.py: Solution.__init__", "python/macromax/solver.py: Solution.__iter__", "python/macromax/backend/__init__.py: BackEnd.curl"]}
{"id": "C133", "title": "The field behind the material", "statement": "The section that Beam.beam_section_at_exit returns is the field after all slices of the material: the last slice of Beam.field. In a homogeneous material it is the incident field, propagated over the length of the grid. Asking for it has no influence on what is returned when asked again.", "quantifier": "all grids, fields, backgrounds, and materials given as refractive index or permittivity; all numbers of calls", "why_tests_cant": "All materials, lengths and numbers of calls; the tests ask once, for one grid.", "anchors": ["python/macromax/utils/beam.py: Beam.beam_section_at_exit", "python/macromax/utils/beam.py: Beam.__iter__", "python/macromax/utils/beam.py: Beam.field"]}
{"id": "C134", "title": "Functions of the position as arguments", "statement": "When the source, the permittivity, the coupling or the permeability is a function of the coordinates, then Solution solves the problem of which the material and the source at each point are the values of the functions at the coordinates of that point; a function is equivalent to the array of its values. The field that the iteration converges to differs from the exact solution, with these functions in space, by at most the terms that the grid cannot resolve.", "quantifier": "all functions of the coordinates with values that are numbers, vectors or matrices; all grids; all other arguments", "why_tests_cant": "The functions are arbitrary; the tests use one function on one grid.", "anchors": ["python/macromax/solver.py: Solution.__init__ (func2arr)", "python/macromax/utils/ft/grid.py: Grid.__iter__", "python/macromax/utils/ft/grid.py: Grid.__getitem__"]}
{"id": "C135", "title": "The iteration converges with the eigenvalues as they are calculated", "statement": "The bias that Solution selects uses the eigenvalues that mat3_eigh calculates with Cardano's formula, which is not exact: it can replace small numbers by zero. For all Hermitian matrices these values are within 4 sqrt(eps) of the eigenvalues, where eps is the precision of the data type, and none is less than the smallest eigenvalue, with both back ends. Therefore what is found to have gain has gain, the bias exceeds the largest singular value of the deviation of the material from its centre, and the iteration converges to the solution of the wave equation at an exponential rate, so that solve returns it for every tolerance, whenever 4 sqrt(eps) < (0.05 / mu)^2, and for magnetic media (1 + sigma_D)^2 sqrt(4 sqrt(eps)) < 0.05 beta. For scalar calculations there is no condition.", "quantifier": "all materials without gain, with or without coupling, grids, sources, initial fields, precisions eps <= 1/2, both back ends, and all results of the search for the centre", "why_tests_cant": "The error of the formula depends on the matrix; the tests check a few random matrices in double precision, and only one or two materials per solver test.", "anchors": ["python/macromax/backend/__init__.py: BackEnd.mat3_eigh", "python/macromax/backend/torch.py: BackEndTorch.sort", "python/macromax/backend/__init__.py: BackEnd.calc_roots_of_low_order_polynomial", "python/macromax/solver.py: Solution.__prepare_preconditioner (largest_eigenvalue, largest_singularvalue, has_gain)"]}
{"id": "C136", "title": "Tests for scalars, vectors and matrices", "statement": "is_scalar, is_vector and is_matrix tell whether an array has a number, a vector or a matrix per point of the grid; the Fourier transforms of the back end are over the axes of the grid and no others; vectorial determines the number of components; any tells whether there is a True element.", "quantifier": "all arrays with at most two axes more than the grid, all numbers of dimensions", "why_tests_cant": "All shapes and numbers of axes; the tests ask for a few arrays, and is_vector and is_matrix are not tested.", "anchors": ["python/macromax/backend/__init__.py: BackEnd.is_scalar", "python/macromax/backend/__init__.py: BackEnd.is_vector", "python/macromax/backend/__init__.py: BackEnd.is_matrix", "python/macromax/backend/__init__.py: BackEnd.ft_axes", "python/macromax/backend/__init__.py: BackEnd.vectorial", "python/macromax/backend/__init__.py: BackEnd.any"]}
{"id": "C137", "title": "Fourier transforms do not depend on the installed library", "statement": "ft and ift of the back end for NumPy are the discrete Fourier transform over the spatial axes and its inverse for every component of every array, whether or not pyfftw is installed; arrays with axes of length 1 stand for fields that do not depend on the position along these axes.", "quantifier": "all arrays with rows, columns and the axes of the grid, all grid shapes, both libraries", "why_tests_cant": "Only one of the libraries is installed when tests are run, and the tests transform arrays of a few shapes.", "anchors": ["python/macromax/backend/numpy.py: BackEndNumpy.__init__", "python/macromax/backend/numpy.py: BackEndNumpy.ft", "python/macromax/backend/numpy.py: BackEndNumpy.ift"]}
{"id": "C138", "title": "What a class of boundaries contributes", "statement": "The solver adds to the permittivity and to the permeability what the class of the boundary gives as electric and magnetic susceptibility, if the class has the mixin for it, and nothing otherwise; the permittivity of a boundary is the background permittivity that it was made with plus the susceptibility, and its permeability is one plus the susceptibility, for all classes that can be derived from those of bound.py.", "quantifier": "all orders of classes, all definitions in derived classes, all backgrounds and extinctions", "why_tests_cant": "The orders in which classes can be derived are unlimited; the tests use only the classes in bound.py, none of which is Magnetic.", "anchors": ["python/macromax/bound.py: Electric", "python/macromax/bound.py: Magnetic", "python/macromax/bound.py: Bound", "python/macromax/bound.py: PeriodicBound", "python/macromax/bound.py: AbsorbingBound.electric_susceptibility", "python/macromax/solver.py: Solution.__init__"]}
