{
 "C03": {
  "note": "False as stated: the setters store the value before checking it (C03_false, C03_stored). C03_partial says exactly what a rejected assignment leaves behind."
 },
 "C05": {
  "note": "False as stated when a permittivity above the substrate vanishes (C05_false). C05_partial gives the exact condition: finite permittivities come back if and only if all but the last are non-zero and no two neighbours add up to zero."
 },
 "C06": {
  "note": "The clause on later assignments to beta_stack is false for an array environment that reaches the layer axis of the new stack (C06_keep_false); C06_keep_partial excludes this. The other clauses are proved in full."
 },
 "C07": {
  "note": "False as stated (C07_false, C07_raises). C07_partial covers environments that broadcast into the shape of the reflection coefficient."
 },
 "C26": {
  "note": "False unless eps_env = 1 (C26_false). C26_snell says what the code computes for every environment; C26_vacuum_partial is the property for eps_env = 1; C26_exact: for transparent bulk samples it holds in vacuum, at normal incidence and without contrast only."
 },
 "C48": {
  "note": "False as stated: the factor alpha_tip is missing (C48_false). C48_partial proves the limit the code has; C48_exact: the statement holds only where the signal vanishes or alpha_tip is 1."
 },
 "C51": {
  "note": "False as stated when columns of different degree are solved in one call or an equation does not depend on the unknown (C51_false, C51_*_dropped). C51_*_partial state the conditions under which it holds."
 },
 "C52": {
  "note": "In terms of unmasked entries proved in full (C52_fdm, C52_pdm); in terms of the solutions of the equations false without the conditions of C51 (C52_false), proved with them (C52_*_partial)."
 },
 "C53": {
  "note": "Second half proved in full (C53_*_back). First half false when the signal does not depend on beta (C53_false), proved under the conditions of C51 (C53_*_partial)."
 },
 "C69": {
  "note": "FDM proved in full. PDM: false as stated (C69_pdm_false); C69_pdm_partial proves it for the signal divided by alpha_tip."
 },
 "C71": {
  "note": "False as stated (C71_false, C71_differs). C71_partial and C71_frozen prove the limit the code has."
 },
 "C78": {
  "note": "False as stated (C78_false). C78_partial proves it when git counts the commits and prints a date; C78_fallback and C78_no_file cover the failures that are handled."
 },
 "C80": {
  "note": "False as stated (C80_false, C80_other). The partial theorems prove it for versions without '.post' followed by '.postN' with decimal N, with None in place of -1."
 },
 "C82": {
  "note": "False as stated (C82_false, C82_zero, C82_nan; consequences in C82_above_surface and C82_eff_pol). C82_partial proves it for one layer between media of increasing permittivity."
 },
 "C84": {
  "note": "False as stated (C84_half_false, C84_quarter_false). C84_half_partial and C84_quarter_partial prove it with nu_vac = 2 pi/lambda; C84_invisible holds for any phase that is a multiple of pi."
 },
 "C89": {
  "note": "Complete for signals with an analytic continuation. For eff_pol_n the bulk models are covered; layered samples are in C131."
 },
 "C90": {
  "note": "Complete. The bounds on the default tip hold for heights up to 120 nm (amplitudes up to 60 nm at contact)."
 },
 "C91": {
  "note": "Complete. Environments with more axes than the reflection coefficient are the subject of C07."
 },
 "C92": {
  "note": "Complete for bulk samples away from overflow and underflow (ranges in the hypotheses). The point dipole model sees only the substrate of a multilayer sample (C41)."
 },
 "C93": {
  "note": "Complete for bulk samples away from overflow and underflow (ranges in the hypotheses); for layered samples with method Q_ave see C129."
 },
 "C94": {
  "note": "Complete for the default tip and height; the constants are not optimal."
 },
 "C95": {
  "note": "The FDM condition is sufficient, not necessary; the PDM condition is both."
 },
 "C98": {
  "note": "Partial because false of the code for strings that need escapes: C98_false builds a package from a repository with the tag 1\" whose import raises JSONDecodeError."
 },
 "C100": {
  "note": "The bounds are worst-case: the constant 66 of complex division dominates. The ranges exclude samples within 2^-40 of perfect conductors (beta = 1) and of epsilon near zero (beta = -1)."
 },
 "C101": {
  "note": "Worst-case bounds; the tolerance 1e-12 of the test is not reached for every height and tip, the amplification 1/|f| of the numerator's cancellation being real."
 },
 "C102": {
  "note": "That a count which is not a positive integer is refused is false of the code; C102_not_refused is the counterexample n_trapz = -1."
 },
 "C103": {
  "note": "The conditions on the files are needed: C103_glued and C103_lookalike are counterexamples without them."
 },
 "C104": {
  "note": "The uniqueness theorems have conditions; C104_ambiguous is the counterexample without them."
 },
 "C105": {
  "note": "The minimiser is a parameter; C105_recover and C105_exact assume the residual it leaves."
 },
 "C106": {
  "note": "The point dipole half of the script."
 },
 "C107": {
  "note": "C107_fdm_all assumes that the charge d_Q1 lies below d_Q0 and g differs from r/(4L), as for the defaults."
 },
 "C108": {
  "note": "C108_bulk_iff is about the default method on a bulk sample; C108_layered about Q_ave."
 },
 "C109": {
  "note": "The conditions on the experiment (ExperimentOk) are met by the script (script_ok). That gold's harmonic is not zero is not proved, so an entry is stated as a floating point quotient."
 },
 "C110": {
  "note": "C110_pdm and C110_fdm are the limits of small amplitudes; C110_pdm_real and C110_fdm_real hold at every amplitude."
 },
 "C111": {
  "note": "The film must satisfy |r rho| < 1; C111_surf states the error made by clipping q t at the logarithm of the largest double."
 },
 "C112": {
  "note": "The extended commands are arbitrary programs on the files; C112_exe_failed, C112_exe_elsewhere, C112_no_build and C112_replaces are the exceptions."
 },
 "C113": {
  "note": "C113_cancellation shows that the condition number cannot be left out."
 },
 "C114": {
  "note": "The sign convention is e^(-i nu t). The undamped and the static oscillator are excluded: they do not forget their initial state."
 },
 "C115": {
  "note": "The growth theorems are about real g_factor, alpha_tip and beta; the exchange and the two calibrations are about all complex values."
 },
 "C116": {
  "note": "First order in the thickness is stated as a derivative of the returned value, which exists for all thicknesses near 0, of either sign."
 },
 "C117": {
  "note": "The equations are in Spec/Fields.lean. Excluded are grazing media (k = 0), in which exp(±iky) do not span the solutions. The quasistatic coefficients are those of the displacement: the potential is reflected with -r."
 },
 "C118": {
  "note": "The geometry functions of the FDM are taken from the documentation. The documentation's place of potential and field of surf_pot_and_field, and the sign of the second image charge, are wrong (C118_where, C118_image)."
 },
 "C119": {
  "note": "Two of the outputs in docs/guide are not those of the code shown (C119_far, C119_pmma). Shapes of pmma_si and pmma_si_varied are not covered."
 },
 "C120": {
  "note": "C120_critical shows that the condition number cannot be left out. Multilayers are not covered."
 },
 "C121": {
  "note": "No rate of convergence is given."
 },
 "C122": {
  "note": "The harmonic of fdm.eff_pol_n_taylor is fixed. For refl_coef and trans_coef the media must not amplify; C122_jump shows that this is needed."
 },
 "C123": {
  "note": "Signed integers of any width; unsigned integers and the rounding of other types are not modelled. Floats are read without rounding."
 },
 "C124": {
  "note": "Values are exact; only the signs of zeros follow IEEE 754. For beta the sample has no layers and the environment is positive."
 },
 "C125": {
  "note": "Exact arithmetic. Parameters are complex (holomorphic) or real; real arguments are constant in the complex case."
 },
 "C126": {
  "note": "Exact arithmetic; the momenta are those at which the code does not limit q * t."
 },
 "C127": {
  "note": "Exact arithmetic. The far-height theorems need no bound on the exponents; C127_range needs the heights to be above one at which no exponent is limited."
 },
 "C128": {
  "note": "Exact arithmetic. Five frequencies are sufficient; that fewer are not is not claimed."
 },
 "C129": {
  "note": "Real permittivities increasing with depth, within the Moderate range; absorbing or decreasing layers are not covered. The nodes and weights of the computed average are the exact ones rounded to double; errors numpy makes in computing them are not included."
 },
 "C130": {
  "note": "Exact arithmetic. Uniqueness is stated for ascending nodes."
 },
 "C131": {
  "note": "Exact arithmetic. At the clipping point of q·t the signal has a kink, so the rate is not claimed there."
 },
 "C132": {
  "note": "Exact arithmetic and real permittivities in increasing order. The upper bounds for the image need a first layer denser than the environment."
 },
 "C133": {
  "note": "Exact arithmetic and real permittivities. The claim about thicknesses needs the increasing order; image_depth_and_charge and the method multi are not covered."
 },
 "C134": {
  "note": "Exact arithmetic and real permittivities. The convergence claims assume that the clip of the hyperbolic functions is inactive at all heights of the oscillation."
 },
 "C58": {
  "note": "Exceptions that have nothing to do with shapes (for example an unknown method) are raised as for scalars, so a call can also raise when the shapes broadcast."
 }
}