# Formal model of snompy

Lean 4.33.0 with Mathlib. `lake build` in `lean/` checks everything. Sources:

| file | contents |
|---|---|
| `Verif/Py.lean` | exceptions, finite/non-finite numbers |
| `Verif/NumPy.lean` | the numerical interface one Python function is written against |
| `Verif/Scalar.lean` | that interface for scalars |
| `Verif/Double.lean` | that interface for scalars in double precision: rounding, overflow, NaN |
| `Verif/NDArray.lean` | that interface for n-dimensional arrays: shapes, broadcasting, padding, axis-0 reductions |
| `Verif/Model/Stack.lean` | the numerical methods of `Sample`: interface and propagation matrices, quasistatic and far-field coefficients, charge averages, permittivity models |
| `Verif/Model/SampleObj.lean` | the class `Sample` as a mutable object: construction, validation, assignment, derived attributes, `bulk_sample` |
| `Verif/Model/Memory.lean` | the same object when arrays are pieces of memory that the user may write into |
| `Verif/Model/Demod.lean`, `Fdm.lean`, `Pdm.lean` | demodulation and the two tip models |
| `Verif/Model/Inversion.lean` | inversion through the Taylor series, with masked arrays |
| `Verif/Model/Defaults.lean`, `Session.lean` | `snompy.defaults`; programs that change the defaults and call the functions |
| `Verif/Model/Cache.lean` | `functools.cache` around `laggauss` |
| `Verif/Model/Version.lean` | `snompy/_version.py`: strings, running git, version pieces, styles, `get_versions` |
| `Verif/Model/Counts.lean` | the functions with a count argument for everything Python can pass as a count |
| `Verif/Model/Masked.lean` | the arithmetic of `numpy.ma` in `permitivitty` |
| `Verif/Model/Versioneer.lean` | the release part of `versioneer.py`: JSON, the version file, `get_versions` of `setup.py`, importing the file |
| `Verif/Model/Install.lean` | the installer of `versioneer.py`: `configparser`, `get_config_from_root`, `do_setup`, `do_vcs_install`, `scan_setup_py` |
| `Verif/Model/Commands.lean` | `versioneer.py`: `get_cmdclass` and the commands `version`, `build_py`, `build_ext`, `build_exe`, `py2exe`, `sdist`, on files with hard links |
| `Verif/Model/Examples.lean` | the numerical part of `docs/examples/scripts/inversion.py` and (point dipole half) `si_approach.py` |
| `Verif/Model/ExampleSpectra.lean` | the numerical part of `docs/examples/scripts/t_dependent_spectra.py` |
| `Verif/Spec/*.lean` | small independent specifications used by the property theorems |
| `Verif/Lemmas/*.lean` | helper lemmas |
| `Verif/Props/*.lean` | the property theorems (one `C..` section per property, each with an `example`) |

## How the code is modelled

*One definition per function, five readings.* Every Python function is written once, against an
interface (`RealOps`, `CplxOps`) that offers the numpy operations the function uses: `+ - * /`,
`log`, `exp`, `sqrt`, `abs`, `clip`, `where`, power, padding of a grid in front of all
axes, and reduction along that axis. The interface has five instances:

* scalars (`FP ℝ`, `FP ℂ`): real and complex numbers, or the non-finite marker;
* arrays (`PyM (NDArray (FP ℝ))`, ...): arrays of arbitrary shape with numpy broadcasting, where
  incompatible shapes raise;
* double precision (`F64 L`, `C128 L`): IEEE 754 binary64 scalars, see below;
* integers (`IntN w`, `IntC w`): numpy integers of `w` bits that wrap around, next to scalars. The literals `0`, `1`, `2`, `4` and `16` count as integers, and so does a default value equal to one of them;
* signed zeros (`SgR`, `SgC`): scalars with the sign bits of their parts. The bits follow IEEE 754 and the formulas of numpy's complex arithmetic; only bits of zeros have an effect.

The numerical properties (C09–C55) are proved for the scalar reading; the vectorisation
properties (C58–C62) prove that the array reading gives, at every index, the scalar reading of the
entries at this index. The same definition is used in both, so a wrong formula cannot be hidden in
one of them.

*Numbers.* In the first two readings floating-point rounding is not modelled: values are exact real or complex numbers.
A division by zero or a logarithm of a non-positive number gives `FP.nan`, which stands for any
non-finite floating-point value and is absorbing. (IEEE arithmetic may turn an infinity back into
a finite number, for instance `1/inf = 0`; the model calls this `nan`. No theorem claims a
finite value in such a case.) `_MAX_EXP_ARG` is the exact logarithm of the largest double.

*Double precision* (`Verif/Double.lean`). The third reading computes with IEEE 754 binary64 numbers: every operation rounds to
nearest, ties to even, overflows to an infinity and underflows gradually; infinities and NaN follow the standard, so
`1/inf` is 0 here. Complex division is Smith's method, as in numpy. `exp`, `log`, `sin` and `cos` are those of an arbitrary
library whose results are within `2⁻⁵²` of the exact ones, relatively (`Libm`); theorems hold for every such library.
Simplifications: zeros have no sign; a product of two 2×2 matrices is two rounded products and a rounded sum per entry, without the
fused multiply-add some BLAS libraries use; sums run from the first to the last term; complex square roots, powers and logarithms
are the exact ones, rounded. C82, C83, C92, C93, C100, C101, C113 and part of C94 are about this reading; everything else is about the other two.

*Exceptions.* Functions that can raise return `PyM α = Except PyErr α`; the order of the checks
in the code is the order in the model.

*Mutable state.* `snompy.defaults` is an explicit argument (the value it has when the call is
made). `Sample` is a record with the private fields of the class, and each property setter
is a state transition that returns the new object together with the exception, if any: Python assigns
`self._t_stack` before the check, so the state changes also when the setter raises.

*The class `Sample`* (`Model/SampleObj.lean`). Stacks with a leading layer axis are lists of arrays
of a common shape, one per layer; the empty list is numpy's `array([])`. A value assigned to a stack
property is either something that can be unpacked with `*` or something that cannot (`None`, a number).
`eps_env` has no setter in the code and none in the model. The scalar and array readings of the
numerical methods take a `Stack`, the plain data of a valid object (`SampleObj.stack`).

*Memory* (`Model/Memory.lean`). Everywhere else arrays are values. Here an array object is a block of memory with a shape and a map from
indices to positions (any strided view); a program allocates arrays, writes into any array it has got hold of, constructs samples and
assigns to them. `np.asanyarray` of the list that `np.broadcast_arrays` returns, and `np.array(nu_vac)`, copy; the getters and a plain
assignment to `nu_vac` do not. Simplifications: every layer of a stack has its own block (in numpy the stack is one block); real arrays passed as
permittivities are complex ones. C88 justifies treating samples as values.

*Inversion* (`Model/Inversion.lean`). Array code throughout, so only the array reading exists.
Simplifications: `beta_threshold` is a number, not an array; any non-finite coefficient of a polynomial of degree
two or more makes the root finder raise `LinAlgError`; the division by `1 - beta` at `beta = 1` follows
IEEE for the comparisons that are made with its result (see `Quot0`, `imagNonneg`, `absGeOne`). `apply_along_axis` takes the length
of the new axis from the first column, repeats a later result of length one, and raises for other lengths.

*Defaults and programs* (`Model/Session.lean`). A program is a list of assignments to `snompy.defaults` and of
calls; the semantics threads the defaults object through it.

*The quadrature cache* (`Model/Cache.lean`). A program is a tree of questions to the cache.
The cache is keyed as in CPython's C implementation: a plain `int` is its own key, everything else is
wrapped, and equal numbers of different type share a wrapped key. The cached arrays are values (nothing in
snompy writes into them).

*The version number* (`Model/Version.lean`). Strings are lists of characters; dictionaries with fixed keys are structures with
optional fields, and looking up a missing key raises. The operating system is a parameter (`Sys`): what starting a process
does, which bytes it prints, how they decode, the environment, `__file__`, and the Unicode table of decimal digits outside
ASCII. Simplifications: POSIX paths only; `verbose` printing is left out; dates are strings, as in the code;
the regular expressions are written out and, for the one with a choice, proved equivalent to its definition (`matchDescribe_iff`).
What git prints is specified in `Spec/Git.lean` from git's manual pages.

*The example scripts* (`Model/Examples.lean`). `scipy.optimize.minimize` is a parameter: an arbitrary function from the objective
and the initial guess to a point or an exception; theorems that need more of it say so in a hypothesis (a residual of at most `δ`).
`np.linspace` is exact. Only the point dipole half of `si_approach.py` is modelled: with the default complex `g_factor` the finite
dipole curve is not real, and nothing is claimed about its modulus. Plotting is left out.

*The commands* (`Model/Commands.lean`). The classes that are extended are arbitrary programs on the files; a path leads to a numbered file, so that a file can have several
names; `open(..., "w")` writes to the file that is there, `unlink` removes a name. Simplifications: what is printed is left out except by `version`; no symbolic links; paths are compared as strings;
the version dictionary is the one of C96.

*The installer* (`Model/Install.lean`). The files are a function from paths to contents; every function returns the files as they
are when it ends, whether it returns or raises, so theorems can say what a failed run leaves behind. Lines, fields and the meaning of `MANIFEST.in` and
`.gitattributes` are specified in `Spec/Install.lean` without the functions of the model. Simplifications: POSIX; files can be read and decoded; different
paths are different files; option names are lower-cased in ASCII only; values with a percent sign are interpolated by a parameter.

*Outside oracles.* `numpy.polynomial.laguerre.laggauss` is a parameter: a function from the order to
a list of nodes and weights. Theorems that need its defining property assume it explicitly
(`GaussLaguerre n rule`: `n` positive nodes, positive weights, exact for degree below `2n`), and
`Lemmas/LaguerreExists.lean` proves that such a rule exists for every positive order, so the assumption is satisfiable; it determines the rule up to the order of the nodes (C130).
In the double-precision reading the nodes and weights are the exact ones rounded to double.
`Polynomial.roots` is modelled by a parameter that returns the roots
with multiplicity in an arbitrary order (`Solver.Correct`; a correct solver is constructed in `Lemmas/ExactSolver.lean`);
`argsort` by a parameter that returns any permutation which sorts.

## Not modelled

Rounding and overflow outside of C82, C83, C92-C94, C100, C101, C113 and C120, signed zeros outside of C124, integer overflow outside of C123, dtype promotion other than
real-to-complex, warnings,
performance, masked-array arithmetic other than in `permitivitty` (C99), infinite counts, complex-valued lengths or momenta.

## Trusted base

* Lean's kernel. Axioms used by the theorems: only `propext`, `Classical.choice`, `Quot.sound`
  (checked with `#print axioms` for every theorem in MANIFEST.json, see `tools/axioms.sh`).
* The hand translation from Python to Lean; each definition cites the lines it models.
* Our reading of numpy: broadcasting, `reshape`, `stack`, `trapezoid`, `sum(axis=0)`, `where`,
  `take_along_axis`, boolean indexing, `apply_along_axis`, principal `sqrt`, and of `functools.cache` in CPython.
* For C82, C83, C92-C94, C100, C101, C113 and C120: that numpy's arithmetic is IEEE arithmetic with the simplifications named above.
* For C124: that numpy multiplies complex numbers by the four-product formula, divides them by Smith's method, and that `np.sqrt` of a
  complex number follows the rules of C99 for `csqrt`, with signed zeros. Real operands of complex operations become complex first, as in numpy and in
  Python before 3.14.
* For C99: our reading of `numpy.ma` (`_MaskedBinaryOperation`, `_DomainedOperation`, `_DomainSafeDivide`).
* For C96–C98: our reading of `json`, `re` and Python string literals. Strings are lists of Unicode scalar values (no lone surrogates);
  JSON is objects of strings, `null`, `true` and `false`; the project root and the configuration are given; `\N{...}` escapes are an error.
* For C103: our reading of `configparser` (`ConfigParser._read` of Python 3.11 with its default options), of the lines of `MANIFEST.in` and of `.gitattributes`.
* Where a theorem assumes `Env.RuleOk`, `Env.Rules` or `Solver.Correct`: that numpy's `laggauss`, `eigvals` and `argsort` do what
  their documentation says (exactly, since rounding is not modelled).

## Properties and how each is to be proved

* **C01** Exactly one of eps_stack / beta_stack. Model of `Sample.__init__`/`bulk_sample` with optional arguments; case analysis.
* **C02** Layer-count invariant over every history. State machine of the object; invariant by induction over assignment lists.
* **C03** A rejected assignment leaves the sample unchanged. False of the code. Prove that a rejected assignment always stores the value and exhibit a sample that is left inconsistent; prove the conditional statement that does hold (accepted assignments, and rejected ones restored by re-assigning the old value).
* **C04** beta_stack survives construction. Induction over the stack; scalar reading of `cumprod` and `refl_coef_qs_single`.
* **C05** eps_stack survives a trip through beta_stack. Induction over the stack.
* **C06** eps_env is the first layer. State machine plus the scalar-environment case of the array setter.
* **C07** An array-valued environment reaches every beta-built sample elementwise. False of the code. Array model of `eps_stack *= eps_env` with a real layer axis; concrete witness; positive theorem for scalar (or fewer-axes) environments.
* **C08** multilayer tells whether there is a finite layer. From the invariant of C02.
* **C09** Bulk reflection is the same at every momentum. Direct computation.
* **C10** At zero momentum only the environment and the substrate matter. Product of interface matrices telescopes; induction over the stack.
* **C11** The stack reflection obeys the layer-by-layer recursion. Independent recursive specification; induction over the stack from the substrate.
* **C12** A zero-thickness layer is invisible. Interface matrices compose multiplicatively; induction for the position.
* **C13** Splitting a layer changes nothing. Propagation matrices compose additively while not clipped; counterexample beyond.
* **C14** Reciprocity of the stack. Determinant is multiplicative; mirror image by transposition-like symmetry.
* **C15** Passive stacks never amplify. Invariant on the effective permittivity of the stack below each interface.
* **C16** Dielectric stacks reflect less than everything. Same, with right half-plane as invariant set; Cayley transform.
* **C17** At large momentum only the top interface matters. Bound on the recursion of C11.
* **C18** Quasistatic reflection depends only on q*t and permittivity ratios. Structural induction.
* **C19** Bulk far-field reflection is the Fresnel formula. Direct computation from the 2-layer matrix and Snell's law.
* **C20** At normal incidence p and s reflection differ only by sign. `T(1/a) = a^{-1} σ T(a) σ`; induction.
* **C21** The square-root branch inside the stack is irrelevant. `T(a) X = T(-a)`; induction.
* **C22** Energy conservation in lossless stacks. `Tᴴ σ_z T = a σ_z`; induction.
* **C23** The far field tends to the quasistatic limit. Equality at `nu_vac = 0` directly; limit by continuity of every entry.
* **C24** Far-field argument validation. Case analysis on the optional arguments.
* **C25** nu_vac has no effect for bulk samples. Homogeneity in `nu_vac`; counterexample with explicit `q`.
* **C26** theta_in is the angle of incidence in the environment. Snell's law theorem for `eps_env = 1`; counterexample for `eps_env = 4`.
* **C27** Far-field results depend only on nu*t and q/nu. Homogeneity of the square root under positive scaling.
* **C28** Charge-averaged reflection of a bulk sample is its reflection coefficient. `Σ w x = 1` pulled through the sum.
* **C29** Image charge of a bulk sample. `Σ w = Σ w x = 1`.
* **C30** The charge average is an average. Convex combination.
* **C31** Potential, field, image charge and charge average are consistent. Algebra on the two sums.
* **C32** All FDM methods agree on bulk samples. C28/C29 and equality of the two geometry functions at `d_image = z_Q`.
* **C33** FDM inversion is the inverse of the FDM. Möbius map algebra with explicit guards.
* **C34** PDM inversion is the inverse of the PDM. Same.
* **C35** Length units do not matter. All lengths enter through ratios; uses C18 for the samples.
* **C36** FDM method selection. Case analysis.
* **C37** A sample identical to the environment gives no signal. β = 0 in the formulas; demod of a constant (C42).
* **C38** A retracted tip sees no sample. Asymptotics of `log(a/(b+4z)) * (c - z/L)`; limit of a Möbius map.
* **C39** The PDM approach curve decays. Elementary estimates on `(r/(r+z))^3/4`.
* **C40** Tip polarizability resolution. Case analysis; limit.
* **C41** PDM on a multilayer sample sees only the substrate. C10.
* **C42** Demodulation of polynomials is the exact Fourier coefficient. Orthogonality of roots of unity; polynomials in `cos θ` lie in a finite span of exponentials.
* **C43** Algebra of demodulation. Finite sums.
* **C44** Harmonics alias at n_trapz. `exp(i N θ_k) = (-1)^N`.
* **C45** Demodulation converges to the lock-in integral. Uniform continuity; Riemann-sum estimate.
* **C46** The tip never goes below z_tip. `-1 ≤ cos ≤ 1`, evaluation at `θ = 0, ±π`.
* **C47** The FDM Taylor series converges to eff_pol_n. Geometric series remainder; limit.
* **C48** The PDM Taylor series converges to eff_pol_n. False of the code as documented: prove the limit is `eff_pol_n / alpha_tip`, and a witness where the two differ.
* **C49** n_tayl is the number of Taylor terms. Degree of the polynomial with the coefficients of `taylor_coef`.
* **C50** Inversion soundness. Model of the column-wise selection; invariants of permutations and filters.
* **C51** Inversion completeness. Same: multiset equality.
* **C52** Shape and order of the inversion result. Counting argument on columns sorted by validity; sortedness from the argsort law.
* **C53** Taylor inversion undoes the Taylor model. C49–C51.
* **C54** Lorentz and Drude permittivities are passive. Imaginary part of a reciprocal; limit.
* **C55** Lorentz/Drude argument handling. Case analysis, algebra.
* **C56** Explicit arguments shield a call from snompy.defaults. Functions applied to two default records give the same result.
* **C57** The quadrature cache is invisible. State machine of the cache; induction over calls; counterexample for float keys.
* **C58** Broadcasting is order-independent. Broadcast of shapes is a commutative idempotent monoid with an absorbing failure; the shape of each polymorphic function is computed. `C58_refl_coef_qs` to `C58_pdm_eff_pol_n_taylor` (`Spec/Shaped.lean`) state it for the functions of the package: clashing shapes raise, and for others the result has the broadcast shape, or the call raises what it raises for the entries at every index (for example for an unknown method). So "raises exactly when the shapes do not broadcast" holds up to exceptions that have nothing to do with shapes.
* **C59** Vectorised demod = scalar demod elementwise. Logical relation between array and scalar reading.
* **C60** Vectorised sample methods = scalar methods elementwise. Logical relation.
* **C61** Vectorised effective polarizability = scalar elementwise. Logical relation.
* **C62** Vectorised Taylor series = scalar elementwise. Logical relation.
* **C63** The quadratures converge to the integrals over momentum. Existence of Gauss rules by the spectral theorem; a positive rule exact on polynomials converges on exponentials (Taylor polynomials sandwich `exp(-c x)`), then by Weierstrass on functions continuous up to infinity.
* **C64** Far away a layered sample looks like its substrate, in contact like its top layer. Continuity of the reflection coefficient at `q = 0` and the bound of C17, under a finite sum.
* **C65** A passive stack reflects and transmits no more energy than it receives. Energy flux `Re(E H*)` along the stack is monotone; induction from the substrate.
* **C66** From the constructor to the result everything is elementwise. The constructor broadcasts without changing entries; then C60–C62.
* **C67** A passive tip over a passive sample absorbs. `1/α_eff = 1/α - κ β` for the PDM; imaginary part of a Möbius map for the FDM.
* **C68** Approach curves decrease and contrast increases. Products of positive monotone factors; `x/(1-y)` is monotone.
* **C69** Taylor inversion of eff_pol_n converges. Hurwitz's theorem from the maximum modulus principle and isolated zeros; completeness (C51) turns roots into results.
* **C70** Results do not depend on the sign convention for time. Conjugation commutes with every operation; the phase of `demod` changes sign, which its evenness in `n` undoes.
* **C71** The Taylor series of a layered sample. False of the code: prove the limit it has, and that it differs whenever the charge average varies over the stroke; concrete slab.
* **C72** Approach curves and contrast at every harmonic: the geometry functions have Taylor series with alternating signs around the highest tip position (`Lemmas/AltSeries.lean`); products and geometric series keep this, and the sampled harmonics of `(1 - cos θ)^k` all have the sign `(-1)^n`.
* **C73** Higher harmonics are smaller: the sampled harmonics of `(1 - cos θ)^k` decrease with the order up to half the number of samples.
* **C74** git's answers are understood. Facts about splitting at the last hyphen, stripping and decimal numbers; case analysis over tag and head.
* **C75** The version number of a working tree. C74 and rendering; cancellation of prefixes and suffixes without `+`, `.` and hyphens.
* **C76** Every style shows what its documentation says. Templates as data; each style against its template.
* **C77** Version numbers in archives. Splitting inverts joining; the minimum of a merge sort.
* **C78** A failing git never prevents the import. False of the code: a witness; prove the conditional statement by following every command.
* **C79** Running commands. Induction over the list of commands.
* **C80** Post-releases. Splitting at `.post`; false of the code in corners: witnesses.
* **C81** Keywords in files and versions in directory names. Folding over lines; last component of paths.
* **C82** Thick layers do not overflow. False of the code: a suspended film with `q t ≥ 710`; the argument of the exponential is clipped so that it is the largest double, and the next product overflows. Every step in double precision is followed through the overflow; NaN is absorbing in the quadrature and in the FDM. Partial: one layer between media of increasing permittivity, where the entry that overflows is multiplied by numbers below 1/2.
* **C83** Rounding errors of the quasistatic coefficients. Every entry of the matrix product has an error of at most `(1+u)^k - 1` times the bound `growth`; induction over the layers, for any arithmetic whose operations have small errors (`Arith`), instantiated with real and with complex double precision (Smith's division).
* **C84** Half- and quarter-wave layers. False of the code with `nu_vac` the wavenumber `1/λ` of the documentation: the phase of a layer lacks `2π`. Witness: every half-wave film. Partial: with `nu_vac = 2π/λ`, from the transfer matrix of a layer whose phase is a multiple of `π` or `π/2`.
* **C85** The transfer matrix is the recursion of Airy and Parratt. The spec (`Spec/Bounces.lean`) adds the interfaces from the substrate upwards; induction over the layers. The sum over all internal reflections is a geometric series; it converges by passivity.
* **C86** Energy, total reflection and Brewster's angle. The flux of the field is conserved by every lossless layer, evanescent ones included; induction over the layers. Brewster: squares of the Fresnel numerator.
* **C87** Spectra of Lorentz oscillators and Drude metals. Real and imaginary part of the oscillator; limits; a list of chained calls by induction.
* **C88** Samples do not share memory. Simulation between programs on memory and programs on values, by induction over the program; separation invariant (no two layers share a block) for writes through arrays that a sample hands out.
* **C89** Demodulation converges geometrically. The signal as a function of phase is analytic in a strip; shifting the contour bounds its harmonics, Mathlib's Fourier series turns the trapezia into the sum of the aliased harmonics, a geometric series bounds the error. For the models the strip comes from compactness or, for the conducting sphere, from an explicit ellipse.
* **C90** Error of the truncated Taylor series, from the demodulated remainder of C47. For the default tip both geometry functions are bounded by 0.541 (through bounds on log 2 and cos 0.06), so 16 terms are within 6·10⁻⁵; the inversion returns values that reproduce the signal in the full model up to 7·10⁻⁵.
* **C91** What `bulk_sample` builds: the stored stack, entry by entry, from either argument; no finite layers; the reflection coefficient comes back. Added after two seeded faults (layers exchanged, keyword arguments dropped) went unnoticed.
* **C92** Rounding errors of `pdm.eff_pol` and `pdm.eff_pol_n`. Every operation adds a relative error of a few units of roundoff (`Near`), the subtraction `1 - f β` amplifies what has accumulated by the condition number of the model, and the demodulation (phases, carrier, averages of neighbours, running sum, division) adds at most `58 |n| + 3 N + 120` units of roundoff. With C89 this bounds the distance of what the program returns from the ideal lock-in signal. Simplifications on top of those of `Verif/Double.lean`: the phases of `np.linspace` are the exact ones, rounded once, and `np.sum`'s pairwise order is replaced by left-to-right order, which has the larger error bound.
* **C93** Rounding errors of `fdm.eff_pol` and `fdm.eff_pol_n`. As C92; the new steps are the logarithm (absolute error: the relative error of its argument plus a few units of its size), the subtraction `g - p` and the division by `ln(4L/r)`, which is why the unit of the errors of the geometry function is the product `Fdm.size` of the bounds of its factors and not its value. The default `g_factor` is taken as the exact `0.7 e^{0.06i}`, rounded once; Python computes it from a rounded exponential and product, one more unit of roundoff.
* **C94** The default finite dipole tip and an ideal lock-in amplifier. C89's bound on an ellipse that reaches 5 nm below the oscillation, where `|1 - β f₁| ≥ 0.267` (explicit bounds of `g - p` and of the complex logarithm); `cosh ρ = 5/4` for amplitudes up to 20 nm, `13/12` up to 60 nm. With C93 this bounds the distance of what the program returns from the ideal lock-in signal.
* **C95** Approach curves over absorbing samples, and with the default tip (whose `g_factor` has a phase). FDM: the slope of `|α_eff|²` is a sum of products of numbers in sectors of the complex plane (`Verif/Lemmas/Approach.lean`), so a condition on the phases of `g - p` and `1/β - f₁` suffices; for the default tip it covers dielectrics, weak absorbers (the sample of the test suite included) and good conductors up to 100 nm. PDM: an exact condition for every complex `β` and `α_tip`.
* **C96–C98** Releases (`versioneer.py`, used by `setup.py`): the version file of a distribution gives back every version dictionary (JSON text, regular expression, text mode), an unpacked source distribution keeps its version wherever it is, what is rebuilt from it is the same file; `setup.py` and the package agree in a source tree; an installed package reports the version it was built with if the strings need no escapes (partial: false for the tag `1"`).
* **C99** Recovered permittivities (`permitivitty` of the masked array that an inversion returns, as in the tests and in `docs/examples/scripts/inversion.py`): exactly which entries are masked, every visible permittivity reproduces the signal and meets the criteria, the true permittivity is among them.
* **C100** Round trips between permittivities and reflection coefficients in double precision: `permitivitty` has fourteen correct digits; what comes back differs from what was put in by at most `2e-14 (1+|β|)²` and `1e-14 (1+γ) |ε|`, `γ = |ε-ε_i| (1/|ε| + 1/|ε_i|)`; the test's tolerance holds for every environment between 0.9 and 1.1.
* **C101** The inverse functions in double precision: `refl_coef_qs_from_eff_pol` of both models against the reflection coefficient with the given polarisability, and `eff_pol` followed by its inverse against the reflection coefficient of the sample (`4e-13 (1/|f| + (1+|β|)²)` for the PDM, `5e-12 (1+|β|)³ (1+size₀+size₁)²/|f₀|` for the FDM; `4e-8` for the default tip within 120 nm of any sample with `|β| ≤ 1`).
* **C102** Counts that are not positive integers: `n_trapz` and `n_tayl` as integers of either sign, booleans and floats, in `demod`, `eff_pol_n`, `taylor_coef`, `eff_pol_n_taylor` and the inversions. Which values raise (before the function is called), which give the results for natural numbers, and which silently give zero, NaN or an array without solutions.
* **C103** The installer of `versioneer.py` (`python versioneer.py setup`), with `configparser`: what it writes, that a second run changes nothing, what is left if it fails, and what it does in this repository.
* **C104** What a signal says about the sample: for weak reflection the signal determines the reflection coefficient and errors spread with a known factor; lossless dielectrics are determined without further conditions; and a lossless metal can have exactly the signal of a dielectric.
* **C105** The search for a permittivity in `docs/examples/scripts/inversion.py`: each position once, each result from its own signal and guess, which exception wins, what is minimised, and what a small residual says about the permittivity found.
* **C106** The point dipole curves of `docs/examples/scripts/si_approach.py`: real, positive, starting at 1 and strictly falling, for every lossless dielectric, and for the script as it stands.
* **C107** The harmonics rebuild the signal: the inverse transform at the sampled heights, energy, the cosine series with its error, and that the harmonics together determine the sample (one alone does not, C104).
* **C108** No passive sample resonates under a tip with `Im g > 0` that stays close to the surface: the signals are numbers, whatever the layers. The condition on the tip is exact for bulk samples.
* **C109** `t_dependent_spectra.py`: the shape of the spectra and each of their entries as a ratio of scalar calls.
* **C110** Harmonic `n` is `Aⁿ/(2ⁿ n!)` times the derivative of order `n` of the approach curve at some height of the oscillation (Chebyshev interpolation and Rolle's theorem), and at small amplitudes at the lowest height.
* **C111** Above a film the quadratures over momentum tend to the potential and the field of the series of image charges of the textbook, up to the clipped exponent (less than 2⁻²⁰⁴⁶ times a constant); all images together carry the charge of the substrate alone.
* **C112** The commands of `setup.py` (`get_cmdclass`): which there are and what they extend; that `build_py`, `build_ext` and `sdist` put the version of the project into the distribution and touch no other file, hard links included; what `build_exe` and `py2exe` leave behind.
* **C113** `lorentz_perm` and `drude_perm` in double precision: rounding errors in terms of the condition number of the denominator, which is always small for a metal; the computed permittivity of a passive material is passive.
* **C114** `lorentz_perm` and `drude_perm` are the response of damped oscillators and of free carriers: every driven motion ends up in the motion they describe, they are the transform of the response to a kick (causality), the imaginary part is the absorbed energy, and the absorption integrates to the amplitude and to the static permittivity (Kramers and Kronig). Spec: `Spec/Oscillator.lean` has only the equations of motion.
* **C115** How the signal depends on the tip. Point dipole model: the signal divided by `alpha_tip` depends only on `alpha_tip * beta`, the harmonics grow with `alpha_tip` and with `eps_tip`, and `1/alpha_tip = 1/alpha_eff + beta/(16π(r+z)³)` calibrates a tip. Finite dipole model: the harmonics grow with a real `g_factor` and the effective polarizability with `L_tip`; a known sample determines `g_factor` except in one case, which is named.
* **C116** Thin films and film polaritons. To first order in its thickness `t` a film changes `refl_coef_qs` by `2 q t K`, the charge average by `2 t K / z` (half of that with `n_lag = 1`) and the signal accordingly, with `K = e (f² − s²) / (f (s + e)²)`. The reflection coefficient is not finite exactly where the film guides a wave; for a lossless film this is the dispersion relation, in closed form.
* **C117** The coefficients solve the field equations. `Spec/Fields.lean` states electrostatics and Maxwell's equations in a layered medium as differential equations with continuity at the interfaces, without any mention of reflection or matrices. The values of `refl_coef_qs`, `trans_coef_qs`, `refl_coef` and `trans_coef` are the amplitudes of every solution with a source above, such a solution exists, and the coefficients are not finite exactly if there is a solution without a source. Found on the way: the quasistatic coefficients are those of the displacement; the potential is reflected with `−r` and transmitted with `t·env/sub`.
* **C118** The models are self-consistent electrostatics. `Spec/Electrostatics.lean` states Laplace's equation, Coulomb's law and the interface conditions in three dimensions. The charge above a bulk sample needs the image charge `−β` (`C118_image`); `alpha_tip` is the polarizability of the sphere in vacuum (`C118_sphere`, `C118_conductor`); `pdm.eff_pol` and `fdm.eff_pol` with each method are the unique solution of the self-consistency equations of dipole or charges and images (`C118_pdm`, `C118_fdm_*`). The geometry functions of the FDM are an approximation that is taken from the documentation and not derived.
* **C119** The examples of the documentation. The outputs in the docstrings of `refl_coef_qs_single` and `demod` and in `docs/guide/sample.rst` are those of the model, up to the digits shown (`C119_single`, `C119_demod`, `C119_bulk`, `C119_suspended`). Two are not: `C119_far`, `C119_pmma`. Outputs of `shape` beyond these, and the figures, are not covered.
* **C120** Fresnel coefficients in double precision. `refl_coef` and `trans_coef` of a bulk sample, evaluated in IEEE doubles, differ from Fresnel's coefficients by a few hundred units of the last place times `K S^2` (`C120_bulk`). `K` is the condition number of the perpendicular wavevectors and `S` that of the denominator. A lossless environment above an absorbing or lossless substrate has `S^2 = 2` (`C120_passive`), and total reflection has modulus 1 up to rounding (`C120_total`). `C120_angle` reduces `theta_in` to `q`. `K` cannot be left out: `C120_critical`. The permittivities, `nu_vac` and their inverses are bounded by `2^60`, so nothing overflows. Multilayers are not covered.
* **C121** Finely layered samples. A film of thickness `T` is cut into `N` slices, and the slice at depth `y` is made of media `eps_i(y)` that take fractions `f_i` of it. As `N` grows, the coefficients of the model tend to those of a graded film that is anisotropic: `eps_along = sum f_i eps_i` and `1 / eps_across = sum f_i / eps_i` (`C121_static`, `C121_light_p`, `C121_light_s`). The equations of the film are in `Spec/Graded.lean`, and the theorems say that any solution of them gives the limit. One entry in the list is the staircase approximation of a graded profile. Constant media are a superlattice: quasistatically it is one isotropic film of permittivity `sqrt(eps_along eps_across)` and thickness `T sqrt(eps_along / eps_across)` (`C121_superlattice`), which disappears in a medium that matches it (`C121_matched`). No rate of convergence is given.
* **C122** Continuity. If the arguments of a call tend to limits and the call with the limits returns a number, then the calls return numbers from some point on and these tend to it. `F` in the theorems is any filter, so that the statement covers sequences, one-sided limits and neighbourhoods. Samples may have any number of layers, and optional arguments may be left out. The harmonic of `fdm.eff_pol_n_taylor` is fixed, because the code compares it with zero. For light the media must not amplify (`C122_light`): the square root has its branch cut on the negative axis, and a substrate that reflects totally has its permittivity there. `C122_jump` has a substrate for which any amount of gain changes the coefficient from `-i` to nearly `i`.
* **C123** Integer arguments. numpy arrays of signed integers of `w` bits keep their type in sums, products and powers, and wrap around without an error. `Verif/Ints.lean` reads the same functions with such operands, for every `w`. If the integers are below the stated bounds, a call returns what it returns for floats of the same values: `lorentz_perm` and `drude_perm`, the coefficients for light and of electrostatics, the image charges, and both tip models with their harmonics, Taylor series and inverses. For wavenumbers the bound is that the square fits, that is 3037000499 for `int64` and 46340 for `int32`; `C123_drude_wraps` shows that every larger wavenumber gives a wrong permittivity. `C123_light_wraps` and `C123_pdm_wraps` have further calls that go wrong. `eps_stack` is always complex (`sample.py:149`), so permittivities do not wrap.
* **C124** Signed zeros. `Verif/Signed.lean` reads the same functions with numbers whose zeros have a sign. The root `np.sqrt(eps*nu**2 - q**2)` of a medium (`sample.py:343-346`) has the other sign exactly if `eps.real < 0` and `eps.imag` is `-0.0` (`SgEps.Below`, `C124_media`). Layers between the outer media never matter, and outer media matter only if `Below` holds for one of them (`C124_same`). A bulk sample with one such medium has the reciprocal reflection coefficient (`C124_metal`), for a metal without loss in a lossless environment the complex conjugate, which differs (`C124_lossless`). `permitivitty(beta)` makes such a permittivity from every real `beta > 1` (`C124_beta_eps`), so `bulk_sample(beta=2)` and `bulk_sample(eps_sub=-3)` differ for light (`C124_beta`); `Model/OfBeta.lean` is the scalar form of `SampleObj.init`, see `C124_ofBeta`. `lorentz_perm` and `drude_perm` never return `-0.0` there (`C124_lorentz`, `C124_drude`). Electrostatic coefficients, image charges and both tip models with harmonics, Taylor series and inverses do not see the signs (`C124_qs`, `C124_fdm`, `C124_pdm`).
* **C125** Analytic dependence (`Spec/Analytic.lean`: `IsAnalytic`). With `𝕜 = ℂ` it means holomorphic. Wherever they are finite, the electrostatic coefficients of any layers, the reflection coefficient seen by the tip, and both tip models with harmonics and Taylor series are holomorphic in all permittivities, `g_factor`, `eps_tip` and `alpha_tip` (`C125_qs` ... `C125_pdm_taylor`), for the methods `bulk` and `Q_ave`. The coefficients are real-analytic in `q` and the thicknesses too, away from the clipping of the exponential (`C125_thickness`). For bulk samples both tip models and the inverses are analytic in every argument (`C125_bulk_fdm` ... `C125_inverse`), with the derivatives of `C125_slope`. For light the branch cut of the root matters only in the outer media (`C125_light`). The method `multi` takes absolute values: it is real-analytic while the image charges are not zero (`C125_multi`), but the depth of the image charge is not holomorphic (`C125_depth`). `lorentz_perm` and `drude_perm` are analytic in all their arguments, so the near-field spectra of Lorentz oscillators are real-analytic in the frequency (`C125_lorentz`, `C125_drude`, `C125_spectrum`).
* **C126** Inverse problem of the layers. Below the exponent limit, `refl_coef_qs` at infinitely many momenta determines the number of layers, all permittivities and thicknesses, and the substrate (`C126_unique`): numerator and denominator are analytic in `q`, so they agree at all momenta; the limit `q → ∞` gives the top medium, the rate of approach its thickness, and what remains is the reflection of what lies below. The conditions (`Visible`): positive thicknesses, neighbours that differ, no neighbours of opposite permittivity. For dielectrics see `C126_dielectric`. Layers `-eps`, `eps` of the same thickness cancel at every momentum (`C126_lens`, the perfect lens), and beyond the exponent limit the thickness of a film has no effect (`C126_limit`).
* **C127** Approach curves and layers. `refl_coef_qs_above_surf` is a positive combination of the reflection coefficients at the momenta `x_i / (2 z)`. Its values at arbitrarily large heights determine the layers and the substrate for every correct rule of every order (`C127_average`): the leading term of the difference of two reflection coefficients at small momenta cannot cancel in a positive combination. The potential alone or the field alone suffice (`C127_surf`), and so do infinitely many heights in any range in which the exponents are not limited (`C127_range`, `C127_dielectric`) or the approach curve of the finite dipole model with `Q_ave` (`C127_fdm`). The point dipole model sees only the substrate (C41).
* **C128** How many measurements determine the parameters. `pdm.eff_pol` at three heights determines the radius and the polarisability of the tip and the quasistatic reflection coefficient of the sample (`C128_pdm`). Two heights do not: there are two lossless tips and samples with the same signals (`C128_two_heights`), and over a sample without contrast the radius has no effect at any height (`C128_blind`). `lorentz_perm` at five frequencies determines the strength, the damping, the high-frequency permittivity and the square of the resonance frequency (`C128_lorentz`); its sign has no effect (`C128_sign`). With a known tip, five signals of the point dipole model over the material suffice (`C128_spectrum`).
* **C129** Rounding errors of `refl_coef_qs_above_surf` and of the finite dipole model with method `Q_ave` (`Spec/Average.lean`: correct rules with at most 10⁶ nodes, heights away from overflow). Above a film of any thickness between a thinner and a denser medium the average, computed with real or with complex doubles, is within `4·10⁻¹² + N·10⁻¹⁵` of the exact one (`C129_film`, `N` nodes). The signal at one height is then within that times a condition number (`C129_tip`), and so are the harmonics (`C129_harmonics`); with the default tip, height and rule the first five harmonics are within `3.1·10⁻¹⁰` (`C129_default`). For `n ≤ 20` layers of increasing permittivity the error of the average is below `2ⁿ·1.5·10⁻¹¹ + N·10⁻¹⁵` (`C129_layers`, `C129_layers_harmonics`), as long as the layers are not so thick that the exponentials are clipped.
* **C130** What is assumed of `laggauss` determines it. The nodes of every rule meeting `GaussLaguerre n` are the zeros of the Laguerre polynomial, each once (`C130_nodes`), between `1/n` and `4n - 2` (`C130_bounds`). For every positive order there is exactly one rule with ascending nodes (`C130_unique`). In exact arithmetic the order of the nodes does not matter for averages, surface potentials and fields, and images (`C130_average`, `C130_surface`).
* **C131** Geometric convergence of demodulation from real analyticity. `demod` and `eff_pol_n` converge geometrically with the number of samples for every signal that is real-analytic on the closed range of the oscillation (`C131_signal`, `C131_model`); no complex continuation has to be given. This applies above layers to the methods `Q_ave` and `multi` wherever they return numbers (`C131_average`, `C131_image`), as long as no momentum of the rule passes the point where `q·t` starts to be clipped (`NoKink`; at that point the function has a kink). Above passive layers that are not thick there are no other conditions for `Q_ave` (`C131_passive`, with the default tip `C131_default`).
* **C132** Dielectric samples whose permittivity increases with depth. The reflection decreases with the momentum, starting from the value of the substrate alone, and stays above that of the first interface (`C132_reflection`). Hence the charge average increases with the height (`C132_average`); the image lies at least as deep below the surface as the charge is above it, and its charge is at least the charge average, with upper bounds for both (`C132_image`). The default method for layers then always returns a number (`C132_number`), and `eff_pol_n` converges geometrically (`C132_demod`, with all defaults `C132_default`).
* **C133** Dielectric samples (real positive permittivities in any order) respond more when any permittivity is raised. With the same thicknesses, `refl_coef_qs` grows with the permittivity of every layer and of the substrate and falls with that of the environment (`C133_reflection`, strictly for `q > 0`, positive thicknesses and any change), and lies between the bulk reflections of the smallest and the largest permittivity (`C133_between`). The charge average, the surface potential and the surface field (`C133_surface`) and `eff_pol` with `Q_ave` and a real `g_factor` (`C133_tip`) inherit this. If the permittivity increases with depth, thicker layers lower the reflection and the charge average (`C133_thickness`).
* **C134** The opposite order of C132: real permittivities that decrease with depth, below an environment that is not denser than the substrate (for example a free-standing membrane). `refl_coef_qs` grows with the momentum from the value of the substrate to at most that of the top layer, and its ratio to the momentum falls (`C134_reflection`, from the convexity of sinh and from `tanh(p) q ≥ tanh(q) p`). So the charge average falls with the height (`C134_average`), and Chebyshev's sum inequality for the rule puts the image between the surface and the mirror position, `0 ≤ d ≤ z_Q`, with a charge between 0 and the charge average (`C134_image`). Hence the default method for layers returns a number for any `g_factor` that is not real (`C134_number`), and `eff_pol_n` converges geometrically in `n_trapz` (`C134_demod`, and with all defaults `C134_default`).

## Seeded faults

`seeded/LOG.jsonl` has one line for every edit of the model that was tried with `tools/mutate.py` in a scratch copy. How to read it:

* `failed` lists the theorems of the manifest that depend on a proof that broke, directly or through lemmas. `own_proof_broke` lists those whose own proof broke. In the first 259 attempts these are 3908 and 261 entries, and in 136 attempts only proofs of lemmas broke.
* A broken proof is not a refutation. A theorem listed in `failed` may still be true of the edited model: the tool makes no attempt to repair a lemma. The log therefore shows with certainty only which theorems did *not* notice an edit. It does not show that every theorem in `failed` rules the edit out.
* Five attempts broke no theorem. W04 and W05 led to C91. X02 and X21 do not change what the modelled program can do. D12 (`inf - inf = 0`) does not break the claim that the log gives for it: the `nan` above thick films comes from `inf / inf`. The value of `inf - inf` is now fixed by an example in `Double.lean` only.
* E07 (`n` left out of the padding in `demod`) did not break C58 although its claim is then false: no theorem of C58 mentioned the model. The theorems about the functions were added for this reason. `tools/reach.py` checks that every property has a theorem whose statement mentions the model; C58 was the only one that had none.
* Identifiers that end in `b` had been used before by another batch. E07b is E07 again, after C58 was tightened.
* The attempts E07b and Y01-Y14 were built against C58-C62 and C131-C134 only, so `failed` lists no other theorems. Of Y01-Y14 the edits Y03 and Y05-Y09 were not built for lack of time. Y05-Y09 were tested in floating point only and are not in the log.
* An example of a failure that means nothing: Y12 lists `C58_fdm_eff_pol`, but the sign that it changes cannot change a shape. Likewise Y11 lists the theorems of C132 and C134, but no counterexample to the conclusions that were tested was found for it.
* `tools/refute.py` looks for counterexamples to the conclusions of C132-C134 on edited formulas, in floating point. It found none for the formulas of the model. Of the edits Y04-Y11 and Y14 it found none for Y06 and Y08, so these say nothing about C132-C134 even if proofs break, and for Y11 only the strict part of C133 is violated.

## The project's tests and the properties behind them

Each test in `snompy/tests` checks a few values of something proved here for all values. The tests are not part of the model.

| Tests | Properties |
|---|---|
| `test_demodulate.py` (constant, linear, broadcasting) | C42, C58, C59 |
| `test_eff_pol.py`: approach curves decay | C39, C68, C72, C95 |
| harmonics decay | C73 |
| broadcasting of all signals | C58, C59, C61, C62, C66 |
| multi same as bulk for one interface | C32 |
| Taylor series same as bulk, its approach curve | C47, C48, C90 |
| `refl_coef_qs_from_eff_pol` and `_n` undo the models | C33, C34, C50–C53, C69, C101 |
| rejection of unphysical permittivities | C50, C52 |
| `test_fdm.py`: errors for methods | C36 |
| `test_pdm.py`: tip material | C40, C115 |
| `test_sample.py`: errors of the constructor | C01, C02 |
| errors of `transfer_matrix` | C24, C25 |
| multilayer flag | C08 |
| conversions between `eps` and `beta` | C04, C05, C100 |
| shapes of outputs | C60, C66 |
| bulk reflection is flat | C09 |
| quadratures agree with integrals | C31, C63 |
| broadcasting of the image charge | C58, C60 |
| `lorentz_perm` and `drude_perm` | C55 |

## Where the code and its documentation disagree

(each is proved as a theorem about the model; see the named property)

1. C03: a rejected assignment to a `Sample` property is stored nevertheless.
2. C07: an `eps_env` array is matched against the layer axis when a sample is built from `beta`.
3. C13: `np.clip` on `q*t` breaks layer splitting for extremely large `q*t`.
4. C19: `docs/guide/far-field.rst` exchanges the p and s Fresnel formulas relative to the code.
5. C25: the comment "nu_vac has no effect for bulk samples" is false when `q` is given.
6. C26: `theta_in` is the vacuum angle, not the angle in the environment.
7. C29/C32/C37: `method='multi'` is not finite for a sample without contrast.
8. C38: the FDM tends to 1/2, not 1, far from the sample.
9. C40: `pdm` raises when both `eps_tip` and `alpha_tip` are given; the docstring says `eps_tip` is ignored.
10. C41: `pdm` silently ignores the layers of a multilayer sample.
11. C48: the PDM Taylor series lacks the factor `alpha_tip`.
12. C49: `n_tayl` is the number of terms, not the maximum power.
13. C57: `n_lag=32.0` raises, unless a numpy integer 32 was used before (a plain `int` 32 has another cache key).
14. C05: a vanishing permittivity above the substrate does not survive a trip through `beta_stack`.
15. C06: assigning `beta_stack` does not keep an array environment that reaches the layer axis of the new stack.
16. C47: harmonics that are multiples of `n_trapz` alias with the constant term (their series does not tend to `eff_pol_n`).
17. C51/C52/C53: when several columns are inverted in one call, `apply_along_axis` takes the number of roots from the first
    column: if this has none, the solutions of all others of degree one are dropped; a linear column beside a first column of higher degree has its
    solution repeated; other mixtures raise.
18. C53: when the signal does not depend on `beta` (an odd harmonic without tapping), every `beta` is a solution and none is returned.
19. C67: at distances between about `g L` and `L` the FDM over an absorbing sample has a negative imaginary part (with real `g`): the geometry function changes sign.
20. C69: `pdm.refl_coef_qs_from_eff_pol_n` does not invert `pdm.eff_pol_n` even in the limit of many terms (the factor `alpha_tip` of 11.).
21. C71: `fdm.eff_pol_n_taylor(method='Q_ave')` evaluates the charge average at the lowest tip position only, `fdm.eff_pol_n(method='Q_ave')` at every one, so the series does not converge to it.
22. C78: when `git show` or `git rev-list` fails, `get_versions` raises `AttributeError` or `TypeError` instead of falling back.
23. C80: `pep440_split_post` returns `None`, not -1, without a post-release; `pep440-pre` raises for `1.0.post1+x` and loses text after a second `.post`.
24. C76: the docstring of `render_pep440_post` omits `+gHEX` for untagged repositories.
25. C77: `strip("()")` also removes a parenthesis that ends a tag; an empty date raises `IndexError`; tags are ordered as strings, so `0.10` comes before `0.9`.
26. C74: an untagged commit is named by seven digits of its hash even where git abbreviates to more; a branch called `HEAD` cannot be told from a detached head.
27. C82: the clip of `q*t` at `_MAX_EXP_ARG` does not prevent overflow: above a suspended film with `q*t ≥ 710` `refl_coef_qs` is 0 or `nan` instead of the
    reflection of the surface, and one such node of the quadrature makes `refl_coef_qs_above_surf` and the FDM `nan`.
28. C84: `nu_vac` is documented as a wavenumber in inverse metres (and used so in `docs/examples/scripts/inversion.py`), but the phase of a layer is
    `nu_z * t` without `2π`; half- and quarter-wave layers behave as such only for `nu_vac = 2π/λ`.
29. C88: the constructor copies `nu_vac`, an assignment `sample.nu_vac = a` does not: later changes of `a` change the sample.
30. C98: `write_to_version_file` puts JSON into a string literal that is not raw: a tag such as `1"` (legal in git) gives a package whose import raises `JSONDecodeError`,
    although the same file is read correctly by `setup.py`; three apostrophes in a tag end the literal, and the rest of the tag is run as a program.
31. C102: `n_trapz = -1` is not refused: `demod`, and with it `eff_pol_n` of both models, return zero for every sample and harmonic (`-2` and below raise `ValueError`, floats such as `32.0` raise `TypeError`,
    0 gives NaN). `n_tayl` is not checked at all: zero and negative numbers make `eff_pol_n_taylor` return zero, fractions are rounded up, and `n_tayl = 1` makes the inversions return an array without solutions.
32. C103: the installer appends to `MANIFEST.in` and `.gitattributes` without looking whether their last line is complete: `graft snompy` without a newline becomes `graft snompyinclude versioneer.py`
    (`C103_glued`), and every further run appends again. A line of `.gitattributes` for `snompy/_version.pyi` is taken for the line of `snompy/_version.py` (`C103_lookalike`). An option that is missing
    in `setup.cfg` becomes the prefix `None` (`C103_none`). A version control system other than git empties the version file before the installer raises (`C103_other_vcs`). Run in another directory, it
    writes its files there and then raises (`C103_elsewhere`). In this repository it would append a second `__version__` to `snompy/__init__.py` (`C103_repo`).
33. C104: `docs/examples/scripts/inversion.py` searches for *the* permittivity of a signal. There may be several: in the point dipole model every weak enough dielectric has, at each of the harmonics 1 to 3, exactly
    the signal of some lossless metal (`C104_ambiguous`). What a signal does determine is in `C104_pdm_unique`, `C104_fdm_unique` and `C104_dielectric_*`.
34. (Read off the text, without a theorem.) The scripts in `docs/guide/demodulation` call `snompy.reflection` and `snompy.fdm.bulk`, which no longer exist. `fourier_*.py` draws `components[n] * exp(i n t)` beside the total signal;
    by C107 the components add up to the signal only with the factor 2 for `n ≥ 1`.
35. C108: if `Im g_factor < 0`, or `Im g_factor > 0` and the tip is so far away that `r + 4 z + 2 d_Q1 r > 4 L` (for the default tip beyond 290 nm), the FDM has a spurious pole: some absorbing bulk sample has no finite
    `eff_pol` (`C108_bulk_iff`). Nothing in the code warns about it.
36. C112: without `versionfile_build` in `setup.cfg`, `build_py` works, but `build_ext` raises `TypeError` (`C112_no_build`). If freezing a program fails, `build_exe` and `py2exe` do not restore the version file of the
    project, and from then on the project keeps this version whatever git says (`C112_exe_failed`); they work only in the directory of the project (`C112_exe_elsewhere`), and replace a class of the user instead of
    extending it, as the docstring promises (`C112_replaces`). With `cx_Freeze`, also a `build_py` of the user is dropped (`C112_commands`).
37. C113: close to a resonance with little damping `nu_j**2 - nu_vac**2` loses about half of the bits (`C113_cancellation`); `(nu_j - nu_vac) * (nu_j + nu_vac)` would not. On an undamped resonance the
    result is `inf+nanj` (`C113_pole`).
38. C118: `surf_pot_and_field` and `docs/guide/fdm.rst` speak of potential and field "at the sample surface"; the values are those of the image charge at the position of the charge (times `−4π`). At the surface the
    potential is twice and the field four times as large (`C118_where`). Both choices give the depth and charge of the image of a bulk sample correctly.
39. C118: `alpha_tip` from `eps_tip` is the polarizability in vacuum, whatever the environment of the sample; in an environment `eps_env` it is the one of a sphere of permittivity `eps_env * eps_tip`
    (`C118_sphere_env`), while the permittivities of the sample are absolute.
40. `docs/guide/fdm.rst` has the image charges `Q_0' = -β Q_0` and `Q_1' = β Q_1`; by `C118_image` the first sign is the right one for both.
41. C119: `docs/guide/far-field.rst` shows `fff_si = 1.173379…` for the reflection weight `c_r = 0.9`. The code gives `1.5616…`; the number shown is that of `c_r = 0.3` (`C119_far`).
42. C119: the values of `eps_pmma` in `docs/guide/sample.rst` are not those of the strength `4.2e8` of the example, but those of `0.014 * 1738e2**2` (`C119_pmma`); the real parts differ in the third decimal.
43. C120: near the critical angle `refl_coef` loses half of its digits. `eps nu^2 - q^2` cancels before the square root is taken: with `eps_stack = (2, 1 + 2^-29)`, `nu_vac = 1` and `q = 1 + 2^-30` the value computed is 1 up to `1e-13`, while Fresnel's coefficient differs from 1 by more than `1e-9` (`C120_critical`).
44. C122: `refl_coef` jumps when a totally reflecting medium gets gain instead of loss, however little. `eps_stack = (5, 3)` with `nu_vac = 1`, `q = 2` and `polarization='s'` gives `-i`, and `(5, 3 - i d)` gives values that tend to `+i` as `d` tends to 0 (`C122_jump`): for a medium with gain the principal root in `transfer_matrix` is the wave that grows away from the interface.
45. C123: integer arrays wrap silently. A wavenumber of 1738 cm⁻¹ is 173800 m⁻¹, and as a numpy `int32` its square wraps to 141668928 instead of 30206440000, so `drude_perm` is off by a factor of about 200 in its second term. With `int64` this happens from 3037000500 on. `refl_coef(q=0, nu_vac=np.int64(2**32))` is nan (`C123_light_wraps`), and `pdm.geom_func` with `int32` lengths that add up to 2048 divides by zero (`C123_pdm_wraps`).
46. C124: the sign of a zero imaginary part decides the branch of the root in `refl_coef` and `trans_coef`. `eps_sub=-3` and `beta=2` describe the same substrate, but `(1 + beta)/(1 - beta)` gives `-3-0j`, whose root is taken below the cut. `bulk_sample(beta=2).refl_coef(...)` is then the complex conjugate of `bulk_sample(eps_sub=-3).refl_coef(...)`. The same happens for `eps_sub=-(3+0j)` and `eps_sub=np.conj(-3+0j)`. No test and no documented example does this.
47. C125: `image_depth_and_charge` (`sample.py:796`) takes `np.abs(phi / E)`, so the depth is a continuous but not a holomorphic function of the permittivities (`C125_depth`). Kramers-Kronig relations between the real and imaginary part, and complex-step derivatives, hold for the methods `bulk` and `Q_ave` but may not be used for `multi`, the default for layers.
48. The ten scripts in `docs/guide/demodulation` call `snompy.reflection.refl_coef_qs` and `snompy.fdm.bulk`, which the package no longer has (`snompy/__init__.py`); each stops with an `AttributeError`. No page includes them. Not formalised.
