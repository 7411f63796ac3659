# Formal model of MacroMax (python) in Lean 4

Status: planned before the proofs; updated after every milestone.

## Layout

* `lean/Verif/Num.lean` – numeric primitives of Python/NumPy that the code uses (floor division, `round`, `isclose`, `ifftshift` ...).
* `lean/Verif/Model/*.lean` – the model, function by function, each definition citing file and lines of /repo.
* `lean/Verif/Spec/*.lean` – small specifications, written without the model's helpers.
* `lean/Verif/Lemmas/*.lean` – helper lemmas.
* `lean/Verif/Props/*.lean` – the property theorems, named `Cxx_...`, with `example`s showing that hypotheses are satisfiable.

## Trusted base

* Lean's kernel; axioms `propext`, `Classical.choice`, `Quot.sound` only.  The axioms of each theorem are in the last section.
* The reading of the Python source by which the model was written (nothing was executed).
* Numbers are exact (an arbitrary ordered field, or the real and complex numbers). Overflow and NaN are not modelled, and rounding errors only
  in `Model/SolverRounding.lean` (the iteration of the solver with arbitrary errors in every pass), except where the code tests for them or where Python raises (division by zero on Python floats, `int(inf)`).
* External calls are modelled by what they are documented to compute: NumPy indexing/broadcasting, `numpy.fft`/`pyfftw`/`torch.fft`
  (the discrete Fourier transform), `numpy.linalg.svd/inv/solve`, `numpy.sqrt/log/exp`.

## Plan per property

| id | model | proof |
|----|-------|-------|
| C01, C10 | `Model/Grid.lean`: `Grid.__init__` branch by branch, arguments as options, integer/float dtype tag, errors as values | case analysis over the branches; negations with witnesses where a combination of arguments breaks the relation |
| C02–C06, C09 | axis coordinates, `from_ranges`, arithmetic, frequency grid, projection | algebra, list induction |
| C07 | `__eq__`, `__repr__` | equivalence; the hash part is violated (scalar against one-dimensional grid): negation |
| C08 | setters as a state machine | invariants over all assignment sequences; `__iadd__` returns None: negation |
| C11, C12 | shapes as lists | list reasoning; the removal on the right is wrong in the code: negation and partial theorem |
| C13 | real logarithm | monotonicity of log; "nearest" is violated: negation |
| C14, C15 | `Adaptive` as a state machine over residue streams | induction over executions; limit is violated: an infinite non-stopping execution |
| C16–C19 | colour conversion over an ordered field | case analysis; rgb2hsv is not the inverse: negation |
| C20–C22 | bound.py over an ordered field, any number of axes | algebra; negative steps are violated: negation |
| C23–C25 | discrete Fourier transform over finite grids; curl, div, projections | orthogonality of characters; linear algebra |
| C26, C27 | cubic formula over the complex numbers, with the threshold test of the code | polynomial identities |
| C28, C30 | matrix fields, broadcasting | linear algebra, lists |
| C29 | config/load state machine | induction over call histories |
| C31–C46 | solver: constructor logic, preconditioner, operators, iteration state machine, accessors | operator identities, Hilbert space argument for the contraction, state-machine invariants |
| C47–C54 | matrix.py | refinement of the cache; block algebra; mode enumeration |
| C74–C80 | the solver as above: reciprocity, energy balance, invariance under translation and change of unit, linearity, polarization, width of the kernel | bilinear forms of the Fourier transform; simulation between executions; real analysis |
| C81–C83 | `Model/WorkArrays.lean`: memory with the pre-allocated arrays, FFTW, NumPy or PyTorch, in-place operations | refinement of `Model/Solver.lean` with a frame condition per operation; induction over histories |
| C84, C85 | `Model/Construct.lean`: the constructor's arguments as arrays with any number of axes, NumPy's broadcasting | induction over shapes and over sequences of assignments |
| C86–C88 | `Model/Problem.lean`: the whole constructor, from the arguments to the state of the iteration, with the tolerances of `allclose` | composition of the theorems of C31–C46, C84 and C85; the equation for a medium that is replaced by a uniform one |
| C89 | the same model with coupling tensors; `Spec/Coupled.lean`: Maxwell's equations with both curls, and the absorbed power as a form in E and H | elimination of H; the Schur complement gives the sign and the contraction; the exchanged material |
| C90 | `Model/Solve.lean` on top of the model of the constructor; `Spec/Converges.lean`: what convergence means for an execution | contraction of every iteration; the change in the last iteration bounds the error; induction over the loop |
| C91 | as C90 | two-sided bound by the change per iteration; refutation by a family of uniform, nearly lossless media that is solved in closed form |
| C92, C93 | `Model/GridArg.lean`, `Model/GridSlice.lean`: arguments as numbers, slices and arrays with any number of axes | list inductions on top of C03; classification of the shapes that broadcast to `(ndim, 2)` |
| C94 | `Model/Detfield.lean`: `source2detfield` as `setSource`, `setE`, `solve` | `scaleState` commutes with the step, the residue and the loop; a rejected update leaves the field unchanged, which contradicts convergence |
| C95, C96 | `Model/MatNumpy.lean`: the calls with a limit for their depth; the closure of the constructor refers to the final value of the variable | induction on the limit; a specification of the replaced arguments that does not refer to the limit |
| C97 | `Setup.product`, `Setup.deposit` in `Model/Scattering.lean` with the solver as a parameter | the product without the tests for zeros is linear and equal to that of the code when no amplitudes are taken for zero; C47 |
| C98 | the existing model of the solver | a signed permutation of the components and bijections of points and frequencies that commute with the Fourier transform; the cross product changes with the determinant; `run_map` |
| C99 | the existing model of the constructor and the solver | the wave equation per spatial frequency; C86 for the convergence |
| C100 | the existing model of the solver | for a large bias both the preconditioner and the Green function tend to the identity, so the update tends to zero; rejected iterations only change the bias |
| C101 | the existing model of the constructor and the solver | C90 without gain; a medium with gain and loss of which all iterates are uniform fields, so that the error can be followed through all executions |
| C102 | the existing models of the solver and of `ScatteringMatrix.source2detfield` | one rate of convergence for all sources; the exact condition to stop; independence of history (C94) |
| C55–C58, C69–C73 | beam.py: `Model/Beam.lean` (state: Fourier transform and pending distance), `Model/BeamHeap.lean` (with references) | group action, refinement of the deferred propagation and of the references, invariants over histories |
| C103–C105 | beam.py: `Model/BeamArgs.lean` (the arguments, with arrays of any number of axes and functions) on top of `Model/Beam.lean` | a specification of broadcasting; refinement of the model for arrays with the shape of the section |
| C59–C61 | subpixel.py: `Model/Subpixel.lean` | discrete Fourier transform, least squares, invariants over histories |
| C106 | subpixel.py: `Model/SubpixelAxes.lean` (shapes for any choice of axes) | lists; the length of the shift against the number of axes of the error map |
| C107, C108 | matrix.py: `Model/MatProduct.lean` (arrays with more axes, adjoint, left products, assignment) | raster order of the axes; linear algebra; protocol of NumPy's operators |
| C109, C110 | colormap.py and format_image_axes.py: `Model/Annotate.lean` | an independent definition of interpolation; case analysis |
| C111 | beam.py with complex numbers: `Model/BeamComplex.lean` | refinement of the real model; the dispersion relation κ² + z² = k² as specification |
| C112 | matrix.py: `Model/MatTransfer.lean` (the methods) on top of `Model/MatConvert.lean` and `Model/MatOp.lean` | waves that are shared between scatterers; linear algebra |
| C113 | subpixel.py: `Model/SubpixelModule.lean` (`register`, order in memory, not-a-number) on top of `Model/Subpixel.lean` | the correlation with a point is the image |
| C114 | solver.py, backend/__init__.py: `Model/Solver.lean`, `Model/Bias.lean` on grids with other shapes and numbers of axes (`Lemmas/SolverCover.lean`) | the same values at points that have the same place in the unit cell |
| C115 | solver.py, backend/__init__.py: `Model/Solver.lean`, `Model/Bias.lean` with conjugated numbers (`Lemmas/SolverConj.lean`) | conjugated fields, opposite magnetic fields and flux |
| C116 | solver.py 911–975, backend/__init__.py 544–553: `Model/Solver.lean`, `Model/Backend.lean` | sums over all samples; imaginary parts |
| C117 | solver.py 313–471, 591–627, 1049–1130: `Model/Solver.lean`, `Model/Bias.lean` | `Spec/Rate.lean`: the rate and the number of iterations from bias, contrast, absorption, tolerance; with coupling `Spec/Coupled.lean` |
| C118 | solver.py 176–215, 646–648, backend/\*.py (data types, `cross`), matrix.py 455, subpixel.py 323–329: `Model/Dtype.lean` | `Spec/Dtype.lean`: digits, values and kinds of types |
| C119 | beam.py 149–151, 196–224, 282–318, 488–508: `Model/Dtype.lean` | `Spec/Dtype.lean` |
| C120 | solver.py 1027–1042, 1049–1130: `Model/SolverRounding.lean` | `Spec/Rounding.lean`: contraction, size of the errors |
| C121 | solver.py 120–293, 1027–1130: the equation that is solved, and what is returned, for data with errors | the balance of energy (C75) for the difference of two solutions, with coupling that of Maxwell's equations (`Spec/Coupled.lean`); injective linear maps on finite-dimensional spaces are bounded below; C120 |
| C122 | solver.py 213–246 (refractive index), 1027–1130 | the Fourier amplitudes of the error; arrays with a meaning (C85) |
| C123 | grid.py (`__getitem__`, `k`), backend/\_\_init\_\_.py (`curl`, `div`, `k2`), solver.py 646–760, 1049–1130 | `Spec/Continuous.lean`: derivatives as limits, sums of plane waves up to half a period per sample (for an even number of samples, half a period per sample is counted with the negative sign, as `numpy.fft` does) |
| C124 | backend/\_\_init\_\_.py 966–1000, backend/torch.py 25–60: `Model/Device.lean` | what the code asks from PyTorch about the machine is an argument; all exceptions of the constructor are caught |
| C125, C126 | solver.py 895–975: the existing model of `S`, `divS`, `stress_tensor` and `f` | `Spec/Balance.lean`: flows of energy and momentum as functions of the position; C123 for the curls; products of functions with half of the wavenumbers of the grid |
| C127 | utils/ft/ft\_implementation.py 23–58, backend/numpy.py 34–96, backend/\_\_init\_\_.py 964–1012: `Model/Install.lean` | importing and preparing a library is one step that succeeds or raises; configurations are dictionaries; what the number of threads does is not modelled |
| C128 | solver.py: the existing model of the constructor, the iteration and `solve` | `Spec/Refinement.lean`: the wave equation for functions of the position; Fourier series with absolutely convergent second derivatives; samples at the coordinates of the grid; the error in root mean square over the samples. That an exact solution with such a series is unique is proved here, that it exists in C130. For magnetic and coupled materials: Maxwell's two equations in space and series of first derivatives; the magnetic flux density is compared with the true curl of the field. `Spec/Between.lean`: values at the points of a displaced grid |
| C129 | backend/torch.py 104–113, 179–181, 220–249, 315–316: `Model/Torch.lean`; `Env.writes` in `Model/WorkArrays.lean` | the back end for NumPy is the specification; RuntimeErrors of PyTorch are `none`; methods that only call the same operation of another library are not repeated |
| C130 | as C128 | `Spec/Existence.lean`: a function is smooth if its Fourier series and those of its fifth derivatives converge absolutely; the equations in space are those of C128. Existence is proved with finitely many Fourier coefficients and bounds on derivatives that do not depend on their number |
| C131 | `Model/Channels.lean`: hsv.py and complex2rgb.py with any number of channels, opacity, and the axis of the channels | case analysis; rgb2hsv is refuted |
| C132 | as C128 | `Spec/Existence.lean`: derivatives of the order `n` have absolutely convergent Fourier series; the rate is stated for all grids with one constant |
| C133 | beam.py 445–463: `Model/BeamExit.lean` on top of `Model/Beam.lean` | the last slice of `Beam.field` (C58), the group of propagations (C55) |
| C134 | solver.py 166–185, 222–257: `Model/SolverFunctions.lean`; a function is a number of parameters and what it returns for arrays | a specification of functions that are calculated with elementwise operations of NumPy; C85, C128 for what follows |
| C135 | backend/\_\_init\_\_.py 670–723, torch.py 179–181, solver.py 313–471: `Model/EigenBias.lean`, `Model/EigenProblem.lean`; the eigenvalues are those of the formula of `Model/Roots.lean`, with its comparisons with the precision, where `Model/Bias.lean` uses the exact eigenvalues; each operation is exact | the distance between the values of the formula and the roots of the characteristic polynomial; C35, C87 for the iteration |
| C136 | backend/\_\_init\_\_.py 56–90, 218–220, 321–349: `Model/Kinds.lean`, arrays by their shape | the numbers of rows and columns per point (`Spec/Kinds.lean`) |
| C137 | backend/numpy.py 34–96, 113–137: `Model/FtArray.lean`, arrays with their shape and values; grids with at least one axis | the transform of a component is that of C23 |
| C138 | bound.py 19–105, 127–216, solver.py 241–253: `Model/BoundClass.lean`, the order of the classes of an object as a list, with classes of the user | the first definition in the order; what Python's orders satisfy |

Not expressible here: run time, memory use, how large the rounding errors of a particular library are, the quality of the approximation of a material or a source by its samples (that the derivatives are exact for the interpolated fields is C123),
graphics output. These are not in the property list.


## What is modelled, per source file

| source | modelled | not modelled |
|--------|----------|--------------|
| `utils/ft/grid.py` | constructor, coordinates, `from_ranges`, arithmetic, `f`/`k`, projections, equality/hash, `MutableGrid` | `__str__`, `meshgrid`-style helpers' array layout, immutability of NumPy views |
| `utils/dim.py` | shapes and element order | dtypes, views versus copies |
| `utils/round125.py`, `utils/display/*.py` | `round125`, `hsv2rgb`, `rgb2hsv`, `complex2rgb`, `grid2extent`, the tables of `InterpolatedColorMap`, what `format_image_axes` adds to the axes | drawing (matplotlib) |
| `utils/stop_criterion.py` | all | the format of log messages |
| `bound.py` | all, pointwise; the arguments grid, thickness, maximum extinction, and functions; the classes and mixins, and classes derived from these | |
| `backend/__init__.py` | Fourier transforms as exact sums; `curl`, `div`, `longitudinal_projection`, `transversal_projection`, `cross`, `outer`, `norm`; matrix fields `mul`, `ldivide`, `inv`, `subtract`, `adjoint`, `eye`; `calc_roots_of_low_order_polynomial`, `evaluate_polynomial`, `mat3_eigh`; `assign`, `to_matrix_field`; `config`, `load`; the data types of calculations and of `cross` | rounding, other dtypes |
| `backend/numpy.py`, `backend/torch.py` | as above; the arrays that FFTW overwrites (what it leaves in its input, and which arrays are aligned, are parameters) | devices, data movement; `np.einsum(out=)` is taken to be as if its output did not overlap with its input |
| `solver.py` | frequency arguments, shapes and conversion of the constructor's arguments, boundaries, `__prepare_preconditioner` (the choice of alpha and beta: the result of `fmin` is a parameter), `__increase_bias_to_limit_kernel_width`, `__update_operators`, `__iter__`, accessors | logging, the compute cost; material arrays of which the first two axes are neither 1, 1 nor n, n (an error in the model) |
| `matrix.py` | `ScatteringMatrix`: mode enumeration, `srcvec2freespace`, `srcvec2source`, `detfield2detvec`, `detvec2srcvec`, source and detector planes, what `_matvec` computes (the solver as a parameter); caching (`CachingMatrix`, `ScatteringMatrix`, `DepositionMatrix`), `inv` (given a singular value decomposition as numpy specifies it), the conversion between scattering and transfer matrices, `__getitem__`, `__array__`, `__array_ufunc__`, `__array_function__`, `source2detfield`, the operators of `DepositionMatrix`, the constructor of `SquareMatrix`, the quarter matrices, products from both sides, adjoints, assignment of elements, the methods `transfer` and `inv` | logging |
| `utils/beam.py` | `BeamSection` (field, field_ft, propagate, projection, tolerances, references to arrays), the grids of `Beam`, iteration and evaluation; the arguments for the light, the background, the field and the material (numbers, arrays and functions) | fields with more than four axes, functions with default values or variable arguments, an `out` of another shape, `lru_cache` of the propagator (a pure function), caching of grids |
| `utils/ft/subpixel.py` | `roll_ft`, `roll`, `Registration` (state, reads, assignment of shift), `Reference` and `register` for a single channel (all axes), with all its stages; the shapes for any choice of axes and any number of channels; the module function `register`, with the order of arrays in memory and results that are not numbers | values for multiple channels, `__str__`, `__array__`, `register()` without images |

## Findings: where the code violates a property

Every finding is a theorem (suffix `_violates` or named in MANIFEST.json), not just a remark, unless marked (remark).

* **Grid**: `last` is ignored when shape, step and centre are given, and truncated or rounded in several integer cases; `Grid(first, step)` and all
  constructor calls without shape, extent and step raise; `==` broadcasts, so it is not transitive and does not agree with `hash`; the
  in-place operators of `MutableGrid` return `None`, so `g += 1` replaces `g` by `None`; assigning to the centre of an integer grid truncates.
* **dim.add / right_to**: removing trailing singleton axes keeps exactly the axes it should drop (dim.py 48); `left_to` drops non-singleton axes of empty arrays.
* **to_axis**: a negative axis raises for matrices, and any axis raises for scalars.
* **round125**: not always the nearest number of the series (6.9 becomes 10); everything under 1e-10 becomes 1e-10; ties alternate per decade.
* **Adaptive**: the iteration limit is never enforced when the residue grows and the limit is 52 or more; a repeated residue or a zero target raise OverflowError.
* **hsv2rgb**: negative hues give channels out of range. **rgb2hsv** mirrors the middle channel. **complex2rgb** raises TypeError for
  integer arrays with normalization.
* **rgb2hsv, opacity**: the opacity takes part in the maximum and minimum over the channels: every opaque colour gets a value of 1 and another hue, e.g. dark red becomes orange
  (C131_opaque_violates); every transparent colour gets a saturation of 1 (C131_transparent_violates). The opacity in a stack of four channels is not returned (C131_rgb2hsv_stack_violates).
* **bound.py, grid**: a boundary that is given a sequence of ranges has one axis: `Grid.from_ranges(grid)` misses the star of solver.py 145 (C92_bound_violates).
  A vector with one thickness per axis raises for three or more axes, and is read as [front, back] for two (C93_vector).
* **matrix.py, source2detfield**: in a medium with gain the first calculation increases the bias of the Solution object, which is not reset; a second calculation for the same source gives another field when the callback stops it before convergence (C94_history_violates).
* **matrix.py, `__array_function__`**: strings are sequences of strings, so every string argument (`np.linalg.norm(S, 'fro')`) and every keyword argument (`np.sum(S, axis=0)`: the keys are converted as well) raises a RecursionError (C95_text_violates, C95_keywords_violates).
* **matrix.py, `__array_ufunc__`**: only the first argument is replaced by an array, even if it is not the matrix: `np.add(S, S)` and `array - S` raise a RecursionError (C95_ufunc_violates).
* **matrix.py, DepositionMatrix**: the lambda that ravels results with several axes calls the variable to which it is assigned, which is rebound to the LinearOperator: every product raises a RecursionError (C96_violates).
* **matrix.py, caching**: after a product with a basis vector that is multiplied with 1e-8 or less, the cached column, and thus all later products with that basis vector, contain the incident wave (C97_cached_violates); this follows from the absolute tolerance of `np.allclose` in `srcvec2freespace` (C54_violates).
* **solver.py 977–995, torque**: the three off-diagonal elements of the symmetric stress tensor are returned. They are not the components of an axial vector: after exchanging two axes, or after a quarter turn, the torque has the wrong sign (C98_torque_violates).
* **backend, mirror images**: on grids with an even number of samples the highest frequency along an axis is given one sign only, so that the vectorial field of a mirrored source is not the mirror image of its field (C98_mirror_violates); compare C74_violates.
* **bound.py, classes**: the mixin `Electric` defines a background permittivity of zero, so a class that is derived from `Electric` before `Bound` forgets the background permittivity that it was made with
  (C138_order_violates); without a susceptibility of its own the solver raises a TypeError, while with `Bound` first it is zero (C138_undefined). A susceptibility without the mixin is ignored (C138_without).
* **bound.py**: with a negative step `between` is False everywhere and `LinearBound` does not absorb; grids made of scalars raise IndexError in `extinction`.
  On grids with `origin_at_center=False` the centre and its neighbour are taken for the edges: nothing is between the boundaries and `LinearBound` absorbs more than its maximum in the middle (C20_origin_violates, C21_origin_violates).
* **data types**: complex numbers of extended precision are not converted (another type than documented with NumPy, a TypeError with PyTorch; C118_extended_violates); `cross` of a real and a complex field raises a TypeError, because the result is allocated with the type of the first (C118_cross_violates); single precision is not kept by beams (C119_default_violates).
* **mul(left, right, out)**: when one factor is a scalar, `out` is multiplied in place by the left factor and the right factor is not used; the result is wrong unless `out` is the right factor.
* **ldivide**: a scalar numerator field that varies in space with a matrix denominator raises, or, when the sizes happen to agree, divides by mixing up axes.
* **config/load**: the documented form with a list of dictionaries makes every later `load` raise AttributeError; a file with one dictionary raises
  TypeError (line 949 tests the function `config` instead of the file contents); each `load` lengthens the caller's or the global list by three (harmless: proved).
* **solver, local balance**: `divS` and `f` are derivatives of the samples of products of fields; where E and H vary more than half as fast as the samples resolve these differ from the true derivatives, so that energy and momentum
  are not conserved per sample (C125_violates, C126_violates), although they are in total (C75, C116).
* **devices**: names with more than four characters are assumed to start with `cuda:`, so that `cpu:0` or `mps:0` are never used (C124_other_violates).
* **installed libraries**: a `mkl_fft` or `pyfftw` that is installed but raises an ImportError prevents the import of MacroMax; with a working `mkl_fft` and a broken `pyfftw` the NumPy back end, which should always be available, raises (C127_mkl_violates, C127_fftw_violates, C127_fallback_violates). `OMP_NUM_THREADS` and its like are overwritten (C127_threads_violates).
* **solver, gain**: when the medium has gain but no loss the bias is conjugated *before* 0.05 is added to its imaginary part, so it no longer bounds the deviation (C36_gain_violates).
* **solver, permeability**: for a uniform scalar permeability only the real part of 1/mu is used, so with a complex mu another equation is solved
  (C32_complex_permeability_violates); with a negative mu the iteration never comes closer (C35_negative_permeability_violates). For all uniform
  absorbing materials with a negative permeability, as called, no number of iterations reduces the error of the transverse waves near the resonance (C122_waves, C122_index).  The same index with a negative real
  part gives fields of opposite sign if it is given as a number or as a matrix (C122_form_violates; solver.py 232 has a TODO).
* **solver, iteration**: at an exact solution, and for a zero source, the second iteration raises ZeroDivisionError. `rtol` and `maxiter` of `solve` are ignored
  unless `callback=None` is passed explicitly; `maxiter=0` makes one iteration. The cached residue survives assignments of field and source; it raises for a zero field.
* **solver, current density**: the documented relation of `current_density` to `source_distribution` has the opposite sign of the code.
* **assign**: arrays whose lengths divide those of the grid are silently repeated instead of rejected; one-dimensional vectors are read as functions of the last axis of space.
* **solver, permittivity**: `epsilon` misses the bias `alpha * beta`, so it never returns what was given; assigning to it subtracts the permittivity of the boundary instead
  of adding it, and keeps a residue that was computed before. Assigning `refractive_index` squares elements instead of matrices and does not treat negative indices as
  the constructor does. (remark) Assigning a Python number with an electric boundary raises AttributeError; the term of the coupling tensors is
  added to all elements of the permittivity, not only to its diagonal, when it is stored as a scalar.
* **solver, coupling**: under the curl the two coupling tensors are exchanged, so the documented constitutive relation holds only if that makes no difference (C44_response, C44_violates).
* **solver, derived fields**: `divS` misses a factor `k0` (it is a derivative per radian); `S` is zero in scalar calculations because the curl of a scalar field is 0;
  `energy_density` can be negative in vacuum until the iteration has converged.
* **solver, reciprocity**: on grids with an even number of samples along an axis, next to another axis with more than two samples, the curl treats the Nyquist frequency as negative only,
  so solutions are not reciprocal, not even in a uniform isotropic material (C74_violates). They are on odd grids, and for scalar calculations. Both are proved from the arguments of
  the calls (C74_called_scalar, C74_called_vectorial_partial, and C74_called_coupled_partial with coupling).
* **back end, arrays**: with FFTW the array that `D` returns is the input of the Fourier transforms: it changes with later operations (C82_displacement_violates). `longitudinal_projection` runs FFTW
  with the same array as input and output, for which the plan was not made, so FFTW does not specify the result (C83_longitudinal_violates). The iteration and all other accessors are not affected (C81).
* **solver, constructor**: the source is stored with the shape that it was given, so if it was a number, or had a single component in a vectorial calculation, then a source with the documented
  shape can not be assigned later: ValueError (C84_replace_violates). With a `Magnetic` boundary in a vectorial calculation a scalar permeability, the default included, is added to all nine
  elements of the tensor instead of to its diagonal, which gives a singular permeability inside the boundary (C85_magnetic_violates). No boundary in bound.py is `Magnetic`; it is for user classes.
* **solver, tolerances**: `allclose` has an absolute tolerance of 1e-8 and a relative one of 1e-5. Materials with smaller coupling or variation of the permeability are solved with the permeability
  of the first point everywhere; the field does not solve the given equation (C87_violates). The error is bounded by the variation times the square of the largest wavenumber (C87_residual).
* **solver, scalar magnetic**: in scalar calculations the curl is 0, so that a permeability that varies with the position only influences the constant `beta`, and not the equation
  that is solved (C88_equation, C88_violates).
* **solver, coupling**: the terms with xi and zeta are exchanged in the operator of the iteration (C89_equation). It converges to the solution for reciprocal coupling (C89_reciprocal_partial)
  and for uniform isotropic materials (C89_uniform), but for an absorbing Tellegen material that varies in space to another field (C89_violates). The exchange can turn a material that absorbs into one
  with gain (C89_gain).
* **solver, tolerance of solve**: without a source, and an initial field that is not 0, `solve` does not return for small tolerances, because the residue is relative to the norm of the field,
  which vanishes exponentially (C90_no_source_violates). For all other absorbing problems it returns (C90_ends, C90_returns).
* **solver, relative_residue**: it is the relative change in the last iteration. For every number C there is an absorbing problem, with the constants that the
  code selects, of which the relative error exceeds C times the residue after every iteration (C91_violates). Within one problem the two are proportional (C91_bound_partial).
* **solver.py 1083–1096, gain**: in a uniform material that absorbs one polarization and amplifies another (ε = diag(i, −i, i)) every iteration increases the error. The code notices that the
  changes grow and increases the bias, again and again, which makes the changes smaller but not the error: the residue tends to zero, and `solve` returns for every tolerance, with a field that
  satisfies the wave equation worse than the field 0 does (C101_violates, for all grids, boundaries, results of `fmin` and tolerances). Without gain this does not happen (C90).
* **roots**: the quadratic formula is not invariant under scaling: with coefficients under the square root of the precision a root is wrong (roots 1 and 2 become 2 and about 0);
  the cubic formula is wrong when all roots are within the square root of the precision of each other, e.g. for `diag(-u, 0, u)`, because `numpy.sign` is used instead of
  the `sign` without zero. With torch only the real parts of roots are returned. (remark) `add_roots` modifies the caller's array when it has the data type of the back end.
* **PyTorch**: `mul` raises for products in which NumPy broadcasts a row or column (C129_mul_violates), leaves `out` as it was for matrices (C129_out_violates), and the eigenvalues of matrices that are not Hermitian are wrong
  (C129_eigenvalue_violates). None of these affects the solver. (remark) `source_distribution` and `epsilon` return tensors instead of NumPy arrays.
* **matrix, cache**: `CachingMatrix` without an `out` array raises once the requested column is in the cache. (remark) `dict.values()[0]` in the same branch is not valid Python 3.
* **matrix, conversion**: the transfer matrix of an integer array is truncated to integers, because the result is allocated with `np.empty_like`; `inv` of a matrix that is not square raises.
  Every index with two elements, and every row, of a matrix that is not square raises (the identity has the wrong side, 144), and so does a selection of no columns. `LiteralScatteringMatrix`
  without array is not the identity: products raise. `SquareMatrix` accepts arrays that are not square when `side` is the number of columns, or when they have more than two axes.
  (remark) `__array__` does not accept a dtype, and `ScatteringMatrix.__array__` takes it as `out`; a sequence of ranges as grid fails in `ScatteringMatrix`; the documentation of the front
  and back reflection classes is exchanged; `DepositionMatrix` recurses without end for multi-dimensional output operators.
* **matrix, modes**: modes are compared with an absolute tolerance, so the list is empty when the unit of length is small; on coarse grids with an even number of samples the Nyquist mode
  has no opposite and is not reversed (C53).
* **matrix, small amplitudes**: a side of the source vector of which all (angle-corrected) amplitudes are at most 1e-8 is dropped from `srcvec2freespace`, so the incident field is not subtracted
  and appears as reflection (C54_violates); the same test is applied to the current density, so with a small unit of length there is no source at all (C68_violates).
* **matrix, planes**: the back source is one sample too far: within the absorbing boundary, unless its thickness is a multiple of the step (C67).
* **matrix, products**: the documentation of `_matvec` allows a vector as an array of shape (2, M, P), but it is read as P columns and raises TypeError (C107_polarization_violates); with `@` scipy rejects all
  such arrays (C107_operator_violates), and matrices with an array do not reshape them (C107_literal_violates). Products with an array or list on the left always raise, although the documentation says
  that a matrix "can be multiplied from the left or right" (C108_left_violates), and so does `rmatvec` (C108_rmatvec_violates).
* **beam, state**: a pending distance of at most 10 nm is not applied by reads and slices, and is dropped by the latter; so slices of at most 10 nm never propagate (C56_violates, C57_short_violates, C58_thin).
  Fields of which all Fourier components are at most 1e-8 read as zero, and a slice sets them to zero (C57_tiny_violates). A second evaluation of a `Beam` starts at the exit, and `list(beam)` has
  the same object in all places (C58).
* **beam, physics**: evanescent components are kept without decay although the documentation says that they are removed (C69_violates); variations of the index of at most 1e-5 are ignored (C70_violates);
  each slice projects vectorial fields, so energy is lost and the propagation cannot be reversed (C57_vectorial_violates, C73_violates).
* **beam, arrays and grids**: `field_ft` returns the array that later operations overwrite (C71_violates); `origin_at_center` and `center_at_index` of the grid are not used (C72_violates).
  `Beam(grid)` without field raises TypeError although the field is documented as optional (C104_start). Sections that start with zeros have a real array, and raise TypeError once propagated (C104_zero_violates).
* **beam, materials**: the documented functions of (y, x) raise TypeError (C104_material_violates). With fewer slices than samples the field is zero behind the others, and more slices are ignored (C105_number_violates).
  An array on the whole grid is always taken to have its slices along the first axis, so that for propagation along another axis it is rejected (C105_axis_violates), or its layers are used as layers along the
  propagation axis (C105_layers_violates).
* **beam, exit**: `beam_section_at_exit` continues with the state that an earlier evaluation left, so a second call gives the field at twice the length of the grid (C133_violates, C133_again).
* **back end, tests**: `is_vector` is False and `is_matrix` True for every field in the form of `to_matrix_field` (C136_vector_violates); `is_scalar` is False for a scalar field that is not in that form
  (C136_scalar_violates); `any` does not do what it says (C136_any_violates). The solver is not affected.
* **grid, swapaxes**: an empty list of axes and slices raise an IndexError (C06_swapaxes_violates).
* **back end, Fourier transforms**: arrays that have axes of length 1 as well as longer axes raise an AssertionError if `pyfftw` is installed, and only then (C137_library_violates). An array with axes
  of length 1 is not transformed as the constant field that it represents in products (C137_field_violates).
* **solver, functions**: for a one-dimensional grid that is made of numbers, functions raise TypeError, because `*grid` then gives all coordinates as separate arguments (C134_number_violates). A function for the
  permittivity or permeability that returns a Python number raises AttributeError (C134_constant_violates). With flat grids a function is only evaluated on the diagonal (C134_flat_violates).
* **grid, equality**: a grid with one axis is equal to any grid without axes (C07_empty_violates).
* **sub-pixel roll**: shifts of at most 1e-8 pixels, and shifts by pixels along axes of more than 6e8, do nothing (C59_violates, C59_large_violates); the documentation says that shifts without axes apply to the
  left-most axes, but they apply to the right-most (C59_axes_violates).
* **registration**: with a precision of whole pixels the size is added to shifts in the second half, where it should be subtracted (C60_wrap_violates); subjects with a root-sum-square of at most 1e-8 give an
  infinite factor and a zero image (C60_tiny_violates); with point references the sub-pixel search divides by 1 instead of by the number of pixels, so the factor is too small (C60_point_violates);
  with three axes the sub-pixel search raises ValueError (C60_volume_violates). An exact copy, displaced by a quarter of a pixel, of a real image of 10 pixels with a faint background and a wave with a
  period of 5/2 pixels is registered with an error of more than 1/3: the search starts at the wrong half pixel (C60_fraction_violates). A factor of at most 1e-8 gives a zero image (C61_violates). A `Registration` without image recurses without end (C61_none_violates).
  (remarks) If half a pixel is not a multiple of the precision, the sub-pixel search starts at a rounded position, so an exact copy is not registered without error. `Reference()` without `ndim` raises TypeError.
* **registration, axes**: `Reference` has arguments for the axes, but when these are not all axes the registration raises an error, unless whole pixels with precision 0 are asked for a single channel
  (C106_violates, C106_channels). Axes in another order are used with each other's sizes (C106_order_violates).
* **register without reference**: the point is written to `reference.ravel()`, which is a copy if the subject is not in raster order in memory (such as a transposed image). The reference is then zero, and the
  result is a shift of 3/4 pixel along each axis for all subjects, with a factor and an error that are not numbers (C113_order_violates, C113_template_violates).
* **bias, uniform axes** (solver.py 407): for magnetic materials the bias depends on axes along which nothing changes, and on their steps: it is larger for each additional axis with a step that is not zero, so that a two- or three-dimensional
  calculation of a one-dimensional problem takes other iterations than the one-dimensional calculation (C114_magnetic_axes_violates).  The constants of non-magnetic problems do not change (C114_constants).
* **bias, gain** (solver.py 463–470, 591–612): for dielectrics with gain and without loss the code conjugates the bias, and then adds at least 0.05 to its imaginary part, which is negative.  The bias is hence closer to zero by 0.1 than that with
  which the conjugated problem converges (C115_bias_violates; C115_gain_partial for the conjugated bias).
* **even numbers of samples**: the highest frequency of an axis with an even number of samples is its own opposite, so that first derivatives of real fields are not real.  Real fields then carry power in vacuum (C115_violates), and
  forces are dropped as rounding errors (solver.py 971–973, C116_real_violates: on two samples all forces are, for all states).
* **display, axes**: `format_image_axes` never translates the unit to another prefix, although the documentation says so (C110_unit_violates), and its colours for a white background are the opposite of those
  documented (C110_colour_violates).
* **beam, absorbing background**: the imaginary part of the axial component of the wavevectors is dropped and the vector is normalized with absolute values.  In every absorbing background all oblique
  waves decay less than the axial wave instead of more (C111_oblique_violates), transparent materials amplify them (C111_gain_violates), and the projection on the transverse plane is not a projection
  (C111_polarization_violates).

<!-- axioms begin -->
## Axioms per theorem
Made with `#print axioms` for all theorems of MANIFEST.json. Those that are not named below depend on `propext`, `Classical.choice` and `Quot.sound` (1007 of 1072 theorems).
* none: Grid.C01_ndim_given, Dtype.C119_default_partial, Dtype.C119_default_violates, Mat.C95_ufunc_violates
* `propext`: Mat.C107_literal, Mat.C107_literal_batch, Dtype.C118_documented_partial, Dtype.C118_extended_violates, Install.C127_numpy, Kinds.C136_any_violates, Mat.C65_violates, Mat.C95_ufunc_partial, Mat.C96_violates
* `Quot.sound`, `propext`: Grid.C01_axis, Grid.C01_axis_error, Grid.C01_broadcast, Grid.C01_given, Grid.C01_last_ignored, Grid.C01_len, Grid.C01_multidimensional, Grid.C02_axisShape, Grid.C05_zero_step, Grid.C07_empty_violates, Grid.C08_dtype, Grid.C08_in_place, Grid.C08_in_place_none, Grid.C08_step, Subpixel.C106_colours, Subpixel.C106_nothing, Subpixel.C106_order_violates, Mat.C107_literal_violates, Mat.C107_operator_violates, Mat.C107_polarization_violates, Mat.C107_vector, Display.C109_raises, Grid.C10_no_default, Dim.C11_left_to_empty_violates, Dim.C11_left_to_raises_partial, Dim.C11_left_to_remove, Dim.C11_right_to_remove_ndim, Dim.C11_right_to_remove_partial, Dim.C11_right_to_violates, Install.C127_import, Install.C127_import_partial, Dim.C12_to_axis_scalar_violates, Display.C131_hsv2rgb, Display.C131_hsv2rgb_alpha, Display.C131_hsv2rgb_stack, Display.C131_opaque_violates, Display.C131_rgb2hsv_stack_violates, Display.C131_value, Kinds.C136_any, Kinds.C136_sound, Kinds.C136_vector, Display.C19_short, Bound.C20_complementary, Bound.C20_scalar_grid_violates, Config.C29_rejects, Mat.C47_calls, Mat.C47_calls_array, Mat.C47_mixin_violates, Mat.C47_mixin_zero_violates, Mat.C50_odd, GridArg.C92_no_axes_violates, Mat.C96_partial
<!-- axioms end -->
