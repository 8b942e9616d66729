{"id": "C01", "title": "Exactly one of eps_stack / beta_stack", "statement": "Sample(...) raises ValueError whenever both or neither of eps_stack and beta_stack are given, whatever the other arguments are; bulk_sample(...) does so for both or neither of eps_sub and beta.", "quantifier": "all constructor argument combinations and all array contents and shapes", "why_tests_cant": "the argument space is infinite; tests exercise two points of it", "anchors": ["snompy/sample.py:Sample.__init__", "snompy/sample.py:bulk_sample"]}
{"id": "C02", "title": "Layer-count invariant over every history", "statement": "After construction and after any sequence of assignments to eps_stack, beta_stack and t_stack that all succeed, the number of permittivities is exactly two more than the number of thicknesses.", "quantifier": "all finite sequences of constructor call and property assignments", "why_tests_cant": "needs an induction over unbounded assignment histories", "anchors": ["snompy/sample.py:Sample.__init__", "snompy/sample.py:Sample.t_stack", "snompy/sample.py:Sample.eps_stack", "snompy/sample.py:Sample.beta_stack", "snompy/sample.py:Sample._check_layers_valid"]}
{"id": "C03", "title": "A rejected assignment leaves the sample unchanged", "statement": "If assigning to eps_stack, beta_stack or t_stack raises, the sample still has the value (and answers every query as) before. (The code violates this: the new value is stored before it is checked.)", "quantifier": "all samples and all rejected assignments", "why_tests_cant": "a property of every rejected assignment in every state; the test-suite never looks at an object after an exception", "anchors": ["snompy/sample.py:Sample.t_stack", "snompy/sample.py:Sample.eps_stack", "snompy/sample.py:Sample.beta_stack", "snompy/sample.py:Sample._check_layers_valid"]}
{"id": "C04", "title": "beta_stack survives construction", "statement": "For a sample built from beta_stack (any number of interfaces, any values other than +1 and -1, any non-zero eps_env), reading beta_stack gives back exactly the input.", "quantifier": "all stack heights, all complex beta values and environments", "why_tests_cant": "round-trip law over unbounded stack heights and a continuum of values", "anchors": ["snompy/sample.py:Sample.beta_stack", "snompy/sample.py:refl_coef_qs_single", "snompy/sample.py:permitivitty"]}
{"id": "C05", "title": "eps_stack survives a trip through beta_stack", "statement": "Rebuilding a sample from its own beta_stack and eps_env gives back the same eps_stack, for every stack whose neighbouring permittivities never cancel.", "quantifier": "all stack heights and all complex permittivities", "why_tests_cant": "round-trip law over unbounded stack heights and a continuum of values", "anchors": ["snompy/sample.py:Sample.beta_stack", "snompy/sample.py:permitivitty", "snompy/sample.py:refl_coef_qs_single"]}
{"id": "C06", "title": "eps_env is the first layer", "statement": "eps_env always reads as the first entry of eps_stack; for a sample built from beta_stack with a scalar environment this is the environment the user passed, or the current default when none was passed; assigning beta_stack later keeps the environment the sample has at that moment. With eps_stack given, the eps_env argument is ignored.", "quantifier": "all samples, environments and assignment histories", "why_tests_cant": "ranges over histories and a continuum of values", "anchors": ["snompy/sample.py:Sample.eps_env", "snompy/sample.py:Sample.beta_stack", "snompy/sample.py:bulk_sample", "snompy/_defaults.py:Defaults.eps_env"]}
{"id": "C07", "title": "An array-valued environment reaches every beta-built sample elementwise", "statement": "Building a sample from a reflection coefficient and an array of environments gives, for each environment, a sample with that environment and that reflection coefficient. (The code violates this: an environment array with as many axes as the stack is matched against the layer axis.)", "quantifier": "all shapes of beta and eps_env that broadcast", "why_tests_cant": "depends on the interplay of two arbitrary array shapes; the test-suite only uses the scalar default environment", "anchors": ["snompy/sample.py:Sample.beta_stack", "snompy/sample.py:bulk_sample"]}
{"id": "C08", "title": "multilayer tells whether there is a finite layer", "statement": "For every sample that passed validation, multilayer is True exactly when t_stack is non-empty.", "quantifier": "all validated samples", "why_tests_cant": "ranges over all stack heights and histories", "anchors": ["snompy/sample.py:Sample.multilayer", "snompy/sample.py:Sample.n_layers"]}
{"id": "C09", "title": "Bulk reflection is the same at every momentum", "statement": "For a bulk sample refl_coef_qs(q) = (eps_sub - eps_env)/(eps_sub + eps_env) for every q, and equals the only entry of beta_stack; trans_coef_qs(q) is one plus it.", "quantifier": "all permittivities with non-zero sum and non-zero substrate (where the code does not divide by zero) and all momenta", "why_tests_cant": "a continuum of permittivities and momenta; the test compares 64 momenta on one sample", "anchors": ["snompy/sample.py:Sample.transfer_matrix_qs", "snompy/sample.py:Sample.refl_coef_qs", "snompy/sample.py:Sample.trans_coef_qs", "snompy/sample.py:refl_coef_qs_single"]}
{"id": "C10", "title": "At zero momentum only the environment and the substrate matter", "statement": "For a stack of any height, refl_coef_qs(0) is the reflection coefficient of the bare substrate in the environment, whatever the layers in between.", "quantifier": "all stack heights, non-zero permittivities and all thicknesses", "why_tests_cant": "unbounded stack height", "anchors": ["snompy/sample.py:Sample.transfer_matrix_qs", "snompy/sample.py:Sample.refl_coef_qs"]}
{"id": "C11", "title": "The stack reflection obeys the layer-by-layer recursion", "statement": "refl_coef_qs(q) equals the textbook recursion beta_k = (r_k + beta_{k+1} exp(-2 q t))/(1 + r_k beta_{k+1} exp(-2 q t)) from the substrate upward, for every stack height (with q t limited to the largest exponent the code allows).", "quantifier": "all stack heights, permittivities, thicknesses and momenta for which no intermediate division is by zero", "why_tests_cant": "unbounded stack height and a continuum of values; needs induction", "anchors": ["snompy/sample.py:Sample.transfer_matrix_qs", "snompy/sample.py:Sample.refl_coef_qs"]}
{"id": "C12", "title": "A zero-thickness layer is invisible", "statement": "Inserting a layer of thickness zero and any non-zero permittivity anywhere in a stack changes neither the quasistatic nor the far-field reflection and transmission coefficients.", "quantifier": "all stacks, all insertion positions, all permittivities and momenta", "why_tests_cant": "unbounded stack height and insertion position", "anchors": ["snompy/sample.py:Sample.transfer_matrix_qs", "snompy/sample.py:Sample.transfer_matrix"]}
{"id": "C13", "title": "Splitting a layer changes nothing", "statement": "Replacing a layer of thickness t1+t2 by two layers of the same material of thickness t1 and t2 leaves the transfer matrices unchanged. In the quasistatic case this needs |q t| within the code's exponent limit; beyond it the code's clipping breaks the law.", "quantifier": "all stacks, positions, thicknesses and momenta", "why_tests_cant": "unbounded stack height; the clipping threshold is never reached by tests", "anchors": ["snompy/sample.py:Sample.transfer_matrix_qs", "snompy/sample.py:Sample.transfer_matrix", "snompy/sample.py:_MAX_EXP_ARG"]}
{"id": "C14", "title": "Reciprocity of the stack", "statement": "The determinant of the quasistatic transfer matrix is eps_env/eps_sub for every stack and momentum, and the forward and backward transmission coefficients of a stack and its mirror image are in the ratio eps_sub/eps_env; analogous statements hold for the far-field matrix.", "quantifier": "all stacks and momenta", "why_tests_cant": "unbounded stack height", "anchors": ["snompy/sample.py:Sample.transfer_matrix_qs", "snompy/sample.py:Sample.transfer_matrix", "snompy/sample.py:Sample.trans_coef_qs"]}
{"id": "C15", "title": "Passive stacks never amplify", "statement": "If the environment is real positive and every layer has non-negative imaginary permittivity (and is not a non-positive real), then for every non-negative momentum and non-negative thicknesses refl_coef_qs is finite with non-negative imaginary part.", "quantifier": "all passive stacks of any height and all non-negative momenta", "why_tests_cant": "unbounded stack height and a continuum of values; needs an invariant of the recursion", "anchors": ["snompy/sample.py:Sample.refl_coef_qs"]}
{"id": "C16", "title": "Dielectric stacks reflect less than everything", "statement": "If the environment is real positive and every layer has positive real part of permittivity, |refl_coef_qs(q)| < 1 for every q >= 0 and every thickness >= 0.", "quantifier": "all such stacks and momenta", "why_tests_cant": "unbounded stack height and a continuum of values", "anchors": ["snompy/sample.py:Sample.refl_coef_qs"]}
{"id": "C17", "title": "At large momentum only the top interface matters", "statement": "For a stack whose top layer has thickness t > 0, refl_coef_qs(q) approaches the reflection coefficient of the top interface exponentially: the difference is bounded by a constant times exp(-2 q t), down to the code's exponent limit.", "quantifier": "all stacks of positive-real-part permittivities and all momenta", "why_tests_cant": "a statement about every momentum and every stack", "anchors": ["snompy/sample.py:Sample.refl_coef_qs", "snompy/sample.py:_MAX_EXP_ARG"]}
{"id": "C18", "title": "Quasistatic reflection depends only on q*t and permittivity ratios", "statement": "Multiplying all permittivities by a non-zero constant, or multiplying q and dividing all thicknesses by the same positive constant, does not change refl_coef_qs or trans_coef_qs; conjugating all permittivities conjugates them.", "quantifier": "all stacks, momenta and scale factors", "why_tests_cant": "a continuum of values", "anchors": ["snompy/sample.py:Sample.transfer_matrix_qs"]}
{"id": "C19", "title": "Bulk far-field reflection is the Fresnel formula", "statement": "In vacuum environment at incidence angle theta (|theta| < pi/2), refl_coef gives (n1 cos(theta_in) - n0 cos(theta_t))/(n1 cos(theta_in) + n0 cos(theta_t)) for 'p' and (n0 cos(theta_in) - n1 cos(theta_t))/(n0 cos(theta_in) + n1 cos(theta_t)) for 's', with theta_t from Snell's law. (docs/guide/far-field.rst prints the two formulas exchanged.)", "quantifier": "all real substrate permittivities above the critical case, all angles", "why_tests_cant": "a continuum of angles and permittivities", "anchors": ["snompy/sample.py:Sample.transfer_matrix", "snompy/sample.py:Sample.refl_coef", "docs/guide/far-field.rst"]}
{"id": "C20", "title": "At normal incidence p and s reflection differ only by sign", "statement": "With q = 0 (or theta_in = 0 or neither given), refl_coef(polarization='p') = -refl_coef(polarization='s') for every stack.", "quantifier": "all stack heights, permittivities, thicknesses and wavenumbers", "why_tests_cant": "unbounded stack height", "anchors": ["snompy/sample.py:Sample.transfer_matrix", "snompy/sample.py:Sample.refl_coef"]}
{"id": "C21", "title": "The square-root branch inside the stack is irrelevant", "statement": "The far-field transfer matrix does not depend on which square root is taken for the perpendicular wavevector in any interior layer.", "quantifier": "all stacks, all interior layers", "why_tests_cant": "unbounded stack height; the code fixes one branch so no test can exercise the other", "anchors": ["snompy/sample.py:Sample.transfer_matrix"]}
{"id": "C22", "title": "Energy conservation in lossless stacks", "statement": "When every layer is lossless and propagating (real positive eps nu^2 - q^2), |r|^2 + k |t|^2 = 1 with k the admittance ratio substrate/environment, for p and s polarization.", "quantifier": "all stack heights, real permittivities, thicknesses, wavenumbers and momenta in range", "why_tests_cant": "unbounded stack height and a continuum of values", "anchors": ["snompy/sample.py:Sample.transfer_matrix", "snompy/sample.py:Sample.refl_coef", "snompy/sample.py:Sample.trans_coef"]}
{"id": "C23", "title": "The far field tends to the quasistatic limit", "statement": "For fixed q > 0, p-polarized transfer_matrix at nu_vac = 0 equals transfer_matrix_qs (while q t is below the exponent limit), and refl_coef tends to refl_coef_qs as nu_vac tends to 0 for passive stacks.", "quantifier": "all stacks, momenta and wavenumbers", "why_tests_cant": "a limit statement over unbounded stack heights", "anchors": ["snompy/sample.py:Sample.transfer_matrix", "snompy/sample.py:Sample.transfer_matrix_qs"]}
{"id": "C24", "title": "Far-field argument validation", "statement": "transfer_matrix, refl_coef and trans_coef raise ValueError exactly when: nu_vac is missing both at construction and at the call for a multilayer sample; or both q and theta_in are given; or polarization is neither 'p' nor 's'. A nu_vac given at the call wins over the one given at construction.", "quantifier": "all combinations of arguments and all samples", "why_tests_cant": "the combination of all argument presences and all string values", "anchors": ["snompy/sample.py:Sample.transfer_matrix", "snompy/sample.py:Sample.refl_coef", "snompy/sample.py:Sample.trans_coef"]}
{"id": "C25", "title": "nu_vac has no effect for bulk samples", "statement": "For a bulk sample, the far-field coefficients are the same for every positive nu_vac when the direction is given as an angle or left out. (The code comment says this without restriction; with an explicit non-zero q it is false.)", "quantifier": "all bulk samples, angles and positive wavenumbers", "why_tests_cant": "a continuum of values; the tests never compare two wavenumbers", "anchors": ["snompy/sample.py:Sample.transfer_matrix"]}
{"id": "C26", "title": "theta_in is the angle of incidence in the environment", "statement": "refl_coef(theta_in=theta) is the reflection for light arriving at angle theta to the normal. (True when eps_env = 1; for other environments the code uses the vacuum angle, so Snell's law with n_env is not respected.)", "quantifier": "all environments, angles and stacks", "why_tests_cant": "tests only use the vacuum environment", "anchors": ["snompy/sample.py:Sample.transfer_matrix", "docs/guide/far-field.rst"]}
{"id": "C27", "title": "Far-field results depend only on nu*t and q/nu", "statement": "Multiplying nu_vac and q by a positive constant and dividing all thicknesses by it leaves transfer_matrix unchanged; theta_in enters only through |theta_in|.", "quantifier": "all samples and scale factors", "why_tests_cant": "a continuum of values", "anchors": ["snompy/sample.py:Sample.transfer_matrix"]}
{"id": "C28", "title": "Charge-averaged reflection of a bulk sample is its reflection coefficient", "statement": "refl_coef_qs_above_surf(z_Q, n_lag) of a bulk sample equals refl_coef_qs() for every z_Q > 0 and n_lag >= 1.", "quantifier": "all bulk samples, heights and quadrature orders", "why_tests_cant": "unbounded quadrature order and a continuum of values", "anchors": ["snompy/sample.py:Sample.refl_coef_qs_above_surf"]}
{"id": "C29", "title": "Image charge of a bulk sample", "statement": "image_depth_and_charge(z_Q) of a bulk sample with non-zero reflection coefficient beta is (z_Q, beta) for every z_Q > 0 and n_lag >= 1; with beta = 0 the result is not finite.", "quantifier": "all bulk samples, heights and quadrature orders", "why_tests_cant": "unbounded quadrature order and a continuum of values", "anchors": ["snompy/sample.py:Sample.surf_pot_and_field", "snompy/sample.py:Sample.image_depth_and_charge"]}
{"id": "C30", "title": "The charge average is an average", "statement": "refl_coef_qs_above_surf lies in every closed half-plane (and every disc) containing all values of refl_coef_qs; in particular it is passive for passive stacks and bounded by the supremum of |refl_coef_qs|.", "quantifier": "all samples, heights and quadrature orders", "why_tests_cant": "unbounded quadrature order and stack height", "anchors": ["snompy/sample.py:Sample.refl_coef_qs_above_surf"]}
{"id": "C31", "title": "Potential, field, image charge and charge average are consistent", "statement": "For every sample, refl_coef_qs_above_surf(z) = 4 z^2 E(z); the returned image charge reproduces the surface potential and field: beta_image = phi * (phi/E), and when phi/E is positive real a charge beta_image at distance z + d_image gives back phi and E.", "quantifier": "all samples, heights and quadrature orders", "why_tests_cant": "a relation between three functions over a continuum of inputs", "anchors": ["snompy/sample.py:Sample.surf_pot_and_field", "snompy/sample.py:Sample.image_depth_and_charge", "snompy/sample.py:Sample.refl_coef_qs_above_surf"]}
{"id": "C32", "title": "All FDM methods agree on bulk samples", "statement": "For a bulk sample with non-zero contrast, fdm.eff_pol and fdm.eff_pol_n give the same value with method 'bulk', 'multi' and 'Q_ave', for all tip geometries, heights and n_lag.", "quantifier": "all bulk samples, tip parameters, heights and quadrature orders", "why_tests_cant": "the test compares one geometry with tolerance 1e-4", "anchors": ["snompy/fdm.py:eff_pol", "snompy/fdm.py:geom_func", "snompy/fdm.py:geom_func_multi", "snompy/fdm.py:eff_pol_n"]}
{"id": "C33", "title": "FDM inversion is the inverse of the FDM", "statement": "fdm.refl_coef_qs_from_eff_pol(fdm.eff_pol(sample)) is the sample's reflection coefficient, and fdm.eff_pol of a sample with the recovered coefficient gives back alpha_eff, for all parameters where no division by zero occurs (exact conditions stated).", "quantifier": "all reflection coefficients, tip parameters and heights", "why_tests_cant": "a continuum of inputs; the test uses ten betas", "anchors": ["snompy/fdm.py:eff_pol", "snompy/fdm.py:refl_coef_qs_from_eff_pol"]}
{"id": "C34", "title": "PDM inversion is the inverse of the PDM", "statement": "pdm.refl_coef_qs_from_eff_pol(pdm.eff_pol(sample)) is the sample's reflection coefficient and conversely, for all parameters where no division by zero occurs.", "quantifier": "all reflection coefficients, tip parameters and heights", "why_tests_cant": "a continuum of inputs", "anchors": ["snompy/pdm.py:eff_pol", "snompy/pdm.py:refl_coef_qs_from_eff_pol"]}
{"id": "C35", "title": "Length units do not matter", "statement": "Scaling every length (z_tip, A_tip, r_tip, L_tip, layer thicknesses) by a common positive factor leaves fdm.eff_pol and fdm.eff_pol_n unchanged (all methods) and multiplies the PDM results by the cube of the factor when alpha_tip is derived.", "quantifier": "all samples, tip parameters, heights and scale factors", "why_tests_cant": "a continuum of inputs, unbounded stack height", "anchors": ["snompy/fdm.py:eff_pol", "snompy/fdm.py:eff_pol_n", "snompy/pdm.py:eff_pol", "snompy/pdm.py:eff_pol_n"]}
{"id": "C36", "title": "FDM method selection", "statement": "fdm.eff_pol uses 'multi' for multilayer and 'bulk' for bulk samples by default; the Taylor version uses 'Q_ave' and 'bulk'; 'bulk' on a multilayer sample and any unknown name (including 'multi' in the Taylor version) raise ValueError; nothing else raises.", "quantifier": "all samples, all method strings", "why_tests_cant": "the space of strings and samples is infinite", "anchors": ["snompy/fdm.py:eff_pol", "snompy/fdm.py:eff_pol_n_taylor"]}
{"id": "C37", "title": "A sample identical to the environment gives no signal", "statement": "If eps_sub = eps_env then fdm.eff_pol = 1, fdm.eff_pol_n = 0 for harmonics not a multiple of n_trapz, and pdm.eff_pol = alpha_tip. (With method='multi' the FDM returns a non-finite value instead.)", "quantifier": "all environments, tip parameters, heights and harmonics", "why_tests_cant": "a continuum of inputs", "anchors": ["snompy/fdm.py:eff_pol", "snompy/fdm.py:eff_pol_n", "snompy/pdm.py:eff_pol"]}
{"id": "C38", "title": "A retracted tip sees no sample", "statement": "As z_tip grows without bound, pdm.eff_pol tends to alpha_tip. (fdm.eff_pol with method 'bulk' does not tend to its no-sample value 1: it tends to 1/2 for every beta other than 0.)", "quantifier": "all samples and tip parameters; limit over all heights", "why_tests_cant": "a limit statement; tests stop at 100 nm", "anchors": ["snompy/pdm.py:eff_pol", "snompy/fdm.py:eff_pol", "snompy/fdm.py:geom_func"]}
{"id": "C39", "title": "The PDM approach curve decays", "statement": "With the default perfectly conducting tip, z_tip >= 0 and |beta| <= 1 (indeed < 4), pdm.eff_pol is finite, |alpha_eff| <= alpha_tip/(1-|beta|/4), and for real 0 < beta <= 1 it strictly decreases with z_tip.", "quantifier": "all reflection coefficients in range, radii and heights", "why_tests_cant": "a continuum of inputs; the test uses one sample and 32 heights", "anchors": ["snompy/pdm.py:eff_pol", "snompy/pdm.py:geom_func"]}
{"id": "C40", "title": "Tip polarizability resolution", "statement": "PDM functions use alpha_tip when given, else 4 pi r^3 (eps_tip-1)/(eps_tip+2) when eps_tip is given, else 4 pi r^3; giving both raises ValueError (although the docstring says eps_tip is then ignored); the dielectric-sphere value tends to the perfect-conductor value as eps_tip grows.", "quantifier": "all argument combinations and values", "why_tests_cant": "a continuum of values and all argument presences", "anchors": ["snompy/_defaults.py:Defaults._pdm_defaults", "snompy/pdm.py:eff_pol"]}
{"id": "C41", "title": "PDM on a multilayer sample sees only the substrate", "statement": "pdm.eff_pol and pdm.eff_pol_n accept multilayer samples without error and return what they return for the bare substrate in the same environment, independently of the layers.", "quantifier": "all stack heights and tip parameters", "why_tests_cant": "unbounded stack height", "anchors": ["snompy/pdm.py:eff_pol", "snompy/pdm.py:eff_pol_n", "snompy/sample.py:Sample.refl_coef_qs"]}
{"id": "C42", "title": "Demodulation of polynomials is the exact Fourier coefficient", "statement": "For f_x a polynomial of degree d and integer harmonic n with d + |n| < n_trapz, demod returns exactly (1/2pi) * integral over [-pi, pi] of f_x(x_0 + A cos(theta)) exp(-i n theta); in particular zero for |n| > d, and delta_{n,0} for constants.", "quantifier": "all polynomials, centres, amplitudes, harmonics and interval counts", "why_tests_cant": "unbounded degree and interval count", "anchors": ["snompy/demodulate.py:demod"]}
{"id": "C43", "title": "Algebra of demodulation", "statement": "demod is linear in f_x, even in n, real for real f_x (integer n), bounded in modulus by the maximum of |f_x| over the sampled points, and when the amplitude is zero, equals f_x(x_0) at n = 0 and zero at integer harmonics that are not multiples of n_trapz.", "quantifier": "all functions, centres, amplitudes, integer harmonics and interval counts", "why_tests_cant": "quantifies over all functions", "anchors": ["snompy/demodulate.py:demod"]}
{"id": "C44", "title": "Harmonics alias at n_trapz", "statement": "demod at harmonic n + n_trapz equals (-1)^n_trapz times demod at harmonic n, for every function: harmonics beyond n_trapz/2 carry no new information.", "quantifier": "all functions, centres, amplitudes, harmonics and interval counts", "why_tests_cant": "quantifies over all functions and harmonics", "anchors": ["snompy/demodulate.py:demod"]}
{"id": "C45", "title": "Demodulation converges to the lock-in integral", "statement": "For every continuous f_x, demod tends to (1/2pi) * integral of f_x(x_0 + A cos(theta)) exp(-i n theta) as n_trapz grows.", "quantifier": "all continuous functions; limit over interval counts", "why_tests_cant": "a limit statement over all continuous functions", "anchors": ["snompy/demodulate.py:demod"]}
{"id": "C46", "title": "The tip never goes below z_tip", "statement": "In eff_pol_n and the Taylor functions every height at which the model is evaluated lies in [z_tip, z_tip + 2 A_tip] for A_tip >= 0, and both ends are among the sampled heights when n_trapz is even.", "quantifier": "all heights, amplitudes and interval counts", "why_tests_cant": "ranges over every sampled phase for every interval count", "anchors": ["snompy/fdm.py:eff_pol_n", "snompy/fdm.py:taylor_coef", "snompy/pdm.py:eff_pol_n", "snompy/pdm.py:taylor_coef", "snompy/demodulate.py:demod"]}
{"id": "C47", "title": "The FDM Taylor series converges to eff_pol_n", "statement": "For a bulk sample, fdm.eff_pol_n_taylor differs from fdm.eff_pol_n exactly by the demodulated remainder beta^J f0 f1^(J-1)/(2(1 - beta f1)), and tends to it as n_tayl grows if |beta f1| < 1 on the tapping range (harmonic 0 or not a multiple of n_trapz).", "quantifier": "all bulk samples, tip parameters, harmonics and series lengths", "why_tests_cant": "a limit statement over series length", "anchors": ["snompy/fdm.py:eff_pol_n_taylor", "snompy/fdm.py:taylor_coef", "snompy/fdm.py:geom_func_taylor", "snompy/fdm.py:eff_pol_n"]}
{"id": "C48", "title": "The PDM Taylor series converges to eff_pol_n", "statement": "pdm.eff_pol_n_taylor tends to pdm.eff_pol_n as n_tayl grows when |beta f| < 1. (The code violates this: the factor alpha_tip is missing, so the limit is eff_pol_n / alpha_tip.)", "quantifier": "all samples, tip parameters, harmonics and series lengths", "why_tests_cant": "a limit statement; the test-suite leaves the PDM out of its Taylor comparison", "anchors": ["snompy/pdm.py:eff_pol_n_taylor", "snompy/pdm.py:taylor_coef", "snompy/pdm.py:eff_pol_n"]}
{"id": "C49", "title": "n_tayl is the number of Taylor terms", "statement": "The Taylor functions are polynomials in beta of degree at most n_tayl - 1 (not n_tayl as the docstrings say), with the coefficients returned by taylor_coef.", "quantifier": "all parameters and series lengths", "why_tests_cant": "unbounded series length", "anchors": ["snompy/fdm.py:eff_pol_n_taylor", "snompy/pdm.py:eff_pol_n_taylor"]}
{"id": "C50", "title": "Inversion soundness", "statement": "Every unmasked entry returned by refl_coef_qs_from_eff_pol_n (FDM and PDM) solves the truncated Taylor equation for the alpha_eff_n of its column, has modulus at most beta_threshold, and satisfies each rejection criterion switched on.", "quantifier": "all inputs, array sizes, thresholds and criteria; any correct root finder and any correct argsort", "why_tests_cant": "array sizes and root configurations are unbounded", "anchors": ["snompy/fdm.py:refl_coef_qs_from_eff_pol_n", "snompy/pdm.py:refl_coef_qs_from_eff_pol_n"]}
{"id": "C51", "title": "Inversion completeness", "statement": "Every solution of the truncated Taylor equation that passes the threshold and the criteria appears unmasked in its column, as often as its multiplicity.", "quantifier": "all inputs, array sizes, thresholds and criteria", "why_tests_cant": "array sizes and root configurations are unbounded", "anchors": ["snompy/fdm.py:refl_coef_qs_from_eff_pol_n", "snompy/pdm.py:refl_coef_qs_from_eff_pol_n"]}
{"id": "C52", "title": "Shape and order of the inversion result", "statement": "The first axis of the result has length equal to the largest number of valid solutions over all columns, and within each column the entries are in ascending order of modulus.", "quantifier": "all inputs, array sizes, thresholds and criteria", "why_tests_cant": "array sizes and root configurations are unbounded", "anchors": ["snompy/fdm.py:refl_coef_qs_from_eff_pol_n", "snompy/pdm.py:refl_coef_qs_from_eff_pol_n"]}
{"id": "C53", "title": "Taylor inversion undoes the Taylor model", "statement": "If alpha_eff_n comes from eff_pol_n_taylor of a bulk sample whose |beta| is at most the threshold, beta is among the unmasked solutions; and feeding any unmasked solution back through eff_pol_n_taylor returns alpha_eff_n.", "quantifier": "all bulk samples and parameters", "why_tests_cant": "a continuum of inputs, unbounded series length", "anchors": ["snompy/fdm.py:refl_coef_qs_from_eff_pol_n", "snompy/fdm.py:eff_pol_n_taylor", "snompy/pdm.py:refl_coef_qs_from_eff_pol_n", "snompy/pdm.py:eff_pol_n_taylor"]}
{"id": "C54", "title": "Lorentz and Drude permittivities are passive", "statement": "For positive amplitude, damping and wavenumber and real eps_inf, lorentz_perm and drude_perm have strictly positive imaginary part and never divide by zero; they obey eps(-nu) = conj(eps(nu)), and tend to eps_inf at large wavenumber.", "quantifier": "all positive parameters and wavenumbers", "why_tests_cant": "a continuum of values", "anchors": ["snompy/sample.py:lorentz_perm", "snompy/sample.py:drude_perm"]}
{"id": "C55", "title": "Lorentz/Drude argument handling", "statement": "lorentz_perm raises ValueError exactly when both or neither of A_j and nu_plasma are given; with nu_plasma it equals the A_j form with A_j = f_j nu_plasma^2; with A_j, f_j has no effect; drude_perm equals eps_inf - nu_plasma^2/(nu^2 + i gamma nu).", "quantifier": "all argument combinations and values", "why_tests_cant": "a continuum of values and all argument presences", "anchors": ["snompy/sample.py:lorentz_perm", "snompy/sample.py:drude_perm"]}
{"id": "C56", "title": "Explicit arguments shield a call from snompy.defaults", "statement": "A call whose optional arguments are all given does not depend on snompy.defaults; an omitted argument uses the value snompy.defaults has when the call is made; the default d_Q0 follows the effective r_tip and L_tip of that call.", "quantifier": "all histories of changes to snompy.defaults and all calls", "why_tests_cant": "a non-interference property over histories", "anchors": ["snompy/_defaults.py:Defaults", "snompy/_defaults.py:Defaults._fdm_defaults", "snompy/fdm.py:eff_pol", "snompy/pdm.py:eff_pol"]}
{"id": "C57", "title": "The quadrature cache is invisible", "statement": "Whatever calls came before, a call that uses Gauss-Laguerre nodes gets the same nodes as with a cold cache, for every integer order. (A float order equal to an earlier integer order succeeds or raises depending on the history.)", "quantifier": "all call histories", "why_tests_cant": "a property of every history of calls", "anchors": ["snompy/sample.py:laggauss", "snompy/sample.py:Sample.refl_coef_qs_above_surf"]}
{"id": "C58", "title": "Broadcasting is order-independent", "statement": "The shape of a result does not depend on the order or grouping in which inputs are combined: it is the broadcast of the input shapes, and the call raises exactly when the input shapes do not broadcast. (Exceptions that do not concern shapes, such as the one for an unknown method, are raised for broadcastable arrays exactly as for their entries.)", "quantifier": "all shapes", "why_tests_cant": "unbounded number and sizes of axes", "anchors": ["snompy/_utils.py:_pad_for_broadcasting", "snompy/fdm.py:geom_func", "snompy/fdm.py:eff_pol", "snompy/pdm.py:eff_pol"]}
{"id": "C59", "title": "Vectorised demod = scalar demod elementwise", "statement": "demod applied to arrays returns, at every index of the broadcast of its inputs, the value of demod on the scalars at that index, whatever the number of axes of each input.", "quantifier": "all shapes and elementwise functions", "why_tests_cant": "unbounded number and sizes of axes; tests check one shape", "anchors": ["snompy/demodulate.py:demod", "snompy/_utils.py:_pad_for_broadcasting"]}
{"id": "C60", "title": "Vectorised sample methods = scalar methods elementwise", "statement": "refl_coef_qs, refl_coef, refl_coef_qs_above_surf, surf_pot_and_field and image_depth_and_charge return at every broadcast index the value for the scalar sample and arguments at that index.", "quantifier": "all shapes, stack heights and quadrature orders", "why_tests_cant": "unbounded number and sizes of axes", "anchors": ["snompy/sample.py:Sample.refl_coef_qs", "snompy/sample.py:Sample.transfer_matrix", "snompy/sample.py:Sample.refl_coef_qs_above_surf", "snompy/sample.py:Sample.surf_pot_and_field", "snompy/sample.py:Sample.image_depth_and_charge", "snompy/_utils.py:_pad_for_broadcasting"]}
{"id": "C61", "title": "Vectorised effective polarizability = scalar elementwise", "statement": "fdm.eff_pol (each method), fdm.eff_pol_n, pdm.eff_pol and pdm.eff_pol_n return at every broadcast index the value for the scalar inputs at that index.", "quantifier": "all shapes", "why_tests_cant": "unbounded number and sizes of axes", "anchors": ["snompy/fdm.py:eff_pol", "snompy/fdm.py:eff_pol_n", "snompy/pdm.py:eff_pol", "snompy/pdm.py:eff_pol_n"]}
{"id": "C62", "title": "Vectorised Taylor series = scalar elementwise", "statement": "fdm.eff_pol_n_taylor and pdm.eff_pol_n_taylor return at every broadcast index the value for the scalar inputs at that index.", "quantifier": "all shapes", "why_tests_cant": "unbounded number and sizes of axes", "anchors": ["snompy/fdm.py:eff_pol_n_taylor", "snompy/fdm.py:taylor_coef", "snompy/pdm.py:eff_pol_n_taylor", "snompy/pdm.py:taylor_coef"]}
{"id": "C63", "title": "The quadratures converge to the integrals over momentum", "statement": "As n_lag grows, surf_pot_and_field(z) tends to (integral of beta(q) exp(-2 q z) dq, integral of q beta(q) exp(-2 q z) dq), refl_coef_qs_above_surf(z) to 4 z^2 times the latter, image_depth_and_charge(z) to the image of the two limits where the field does not vanish, and fdm.eff_pol with method 'Q_ave' to its formula with the exact average.", "quantifier": "all layer counts, permittivities and thicknesses whose reflection coefficient is finite at every momentum, all z > 0, every sequence of Gauss-Laguerre rules", "why_tests_cant": "a limit over all orders of the quadrature for all samples", "anchors": ["snompy/sample.py:Sample.refl_coef_qs_above_surf", "snompy/sample.py:Sample.surf_pot_and_field", "snompy/sample.py:Sample.image_depth_and_charge", "snompy/fdm.py:eff_pol"]}
{"id": "C64", "title": "From far away a layered sample looks like its substrate, in contact like its top layer", "statement": "As z grows, refl_coef_qs_above_surf(z) tends to the bulk reflection of the substrate, the image charge tends to it too and the image depth divided by z tends to one. As z goes to zero, refl_coef_qs_above_surf becomes constant and differs from the reflection of the top layer by at most a constant times exp(-2 _MAX_EXP_ARG).", "quantifier": "all layer counts, permittivities and thicknesses, every positive order of the quadrature", "why_tests_cant": "a limit for all samples", "anchors": ["snompy/sample.py:Sample.refl_coef_qs_above_surf", "snompy/sample.py:Sample.image_depth_and_charge"]}
{"id": "C65", "title": "A passive stack reflects and transmits no more energy than it receives", "statement": "For layers and a substrate with non-negative absorption (Im eps >= 0, not zero) and a propagating incoming wave, refl_coef r and trans_coef t are finite and |r|^2 + f |t|^2 <= 1, where f >= 0 is the energy flux of a unit wave in the substrate over that of the incoming wave; hence |r| <= 1, for momentum and for angle input.", "quantifier": "all layer counts, thicknesses >= 0, passive permittivities, propagating momenta q with eps nu^2 != q^2 in each layer, both polarisations", "why_tests_cant": "an inequality over a continuum of stacks, incidence angles and layer counts", "anchors": ["snompy/sample.py:Sample.refl_coef", "snompy/sample.py:Sample.trans_coef", "snompy/sample.py:Sample.transfer_matrix"]}
{"id": "C66", "title": "From the constructor to the result, everything is elementwise in the arrays the user passed", "statement": "Sample(eps_stack, t_stack, nu_vac) followed by refl_coef_qs, trans_coef_qs, refl_coef_qs_above_surf, refl_coef, trans_coef, fdm.eff_pol_n or pdm.eff_pol_n raises if the shapes do not broadcast (or the layer counts do not fit), otherwise has the broadcast of the shapes of all arrays passed, and its entry at each index is the scalar result for the scalar sample made of the entries of the passed arrays at that index.", "quantifier": "all layer counts, array shapes and values, default settings and further arguments", "why_tests_cant": "all shapes and all layer counts through two stages of code", "anchors": ["snompy/sample.py:Sample.__init__", "snompy/sample.py:Sample.t_stack", "snompy/sample.py:Sample.eps_stack", "snompy/sample.py:Sample.refl_coef_qs", "snompy/fdm.py:eff_pol_n", "snompy/pdm.py:eff_pol_n"]}
{"id": "C67", "title": "A passive tip over a passive sample absorbs", "statement": "PDM: if the tip polarizability and the quasistatic reflection coefficient have Im >= 0, eff_pol has Im >= 0 wherever it is finite, and it is finite with Im > 0 if the tip absorbs, or the sample does and alpha_tip != 0; in particular for an absorbing eps_tip over any passive layered sample. FDM with real g_factor over an absorbing sample: Im eff_pol is Im(beta) f_0 / (2 |1 - beta f_1|^2); positive while r + 2z + d_Q0 r < 2 L g, negative (the model predicts gain) beyond that distance until r + 4z + 2 d_Q0 r = 4 L.", "quantifier": "all passive tips, layer counts, passive permittivities, thicknesses, distances", "why_tests_cant": "sign statement over a continuum of materials and geometries", "anchors": ["snompy/pdm.py:eff_pol", "snompy/pdm.py:geom_func", "snompy/fdm.py:eff_pol", "snompy/fdm.py:geom_func", "snompy/_defaults.py:Defaults._pdm_defaults"]}
{"id": "C68", "title": "Approach curves decrease and contrast increases", "statement": "For lossless samples brighter than the environment (0 < beta) eff_pol is real, larger than the value of the bare tip, strictly decreasing in z_tip and strictly increasing in beta (hence in the permittivity of the sample): for the FDM with real g_factor <= 1, beta <= 1 and the tip in reach (r + 2z + d r < 2 L g, r + 4z + 2 d r < 4 L for d_Q0 and d_Q1); for the PDM below the resonance (alpha beta < 16 pi (r + z)^3).", "quantifier": "all pairs of distances, samples, tips within the stated ranges", "why_tests_cant": "monotonicity over a continuum", "anchors": ["snompy/pdm.py:eff_pol", "snompy/fdm.py:eff_pol", "snompy/fdm.py:geom_func"]}
{"id": "C69", "title": "Taylor inversion of eff_pol_n converges to the reflection coefficient", "statement": "Let c be eff_pol_n (the full model, not the series) of a bulk sample with reflection coefficient b inside the convergence region. As n_tayl grows, refl_coef_qs_from_eff_pol_n(c) returns unmasked solutions arbitrarily close to b (if the signal depends on the sample at all and b meets the threshold and criteria strictly); and every limit of returned solutions at which the series converges solves the full equation eff_pol_n = c. (For the PDM this is false: the missing factor alpha_tip makes the inversion miss b by a finite distance; it holds for c / alpha_tip.)", "quantifier": "all samples, tip parameters, harmonics, thresholds, correct root finders", "why_tests_cant": "a limit statement over a continuum; needs Hurwitz's theorem", "anchors": ["snompy/fdm.py:refl_coef_qs_from_eff_pol_n", "snompy/fdm.py:taylor_coef", "snompy/fdm.py:eff_pol_n", "snompy/pdm.py:refl_coef_qs_from_eff_pol_n", "snompy/pdm.py:taylor_coef"]}
{"id": "C70", "title": "The quasistatic results do not depend on the sign convention for time", "statement": "Conjugating every permittivity, g_factor, eps_tip and alpha_tip conjugates refl_coef_qs, trans_coef_qs, refl_coef_qs_above_surf, surf_pot_and_field, the image charge (not its depth), demod, and eff_pol, eff_pol_n, eff_pol_n_taylor and refl_coef_qs_from_eff_pol of both models, including exceptions and non-finite results; in particular real inputs give real results at every harmonic.", "quantifier": "all stacks (any layer count and values), methods, tips, distances, harmonics, orders", "why_tests_cant": "an identity between two runs for every input, including every exceptional one", "anchors": ["snompy/sample.py:Sample.transfer_matrix_qs", "snompy/sample.py:Sample.image_depth_and_charge", "snompy/demodulate.py:demod", "snompy/fdm.py:eff_pol", "snompy/fdm.py:eff_pol_n_taylor", "snompy/pdm.py:eff_pol", "snompy/pdm.py:eff_pol_n_taylor"]}
{"id": "C71", "title": "The Taylor series of a layered sample converges to eff_pol_n", "statement": "fdm.eff_pol_n_taylor(sample, method='Q_ave') tends, as n_tayl grows, to fdm.eff_pol_n(sample, method='Q_ave') wherever the series converges. (False of the code: the series evaluates the charge average once, at the lowest tip position, and its limit is eff_pol_n of the bulk sample with this reflection coefficient; the two differ for every sample whose charge averages at the turning points differ.)", "quantifier": "all layered samples, tips, amplitudes, harmonics, sampling orders", "why_tests_cant": "a limit over a continuum of samples; the repository compares the two functions only for bulk samples", "anchors": ["snompy/fdm.py:eff_pol_n_taylor", "snompy/fdm.py:eff_pol_n", "snompy/fdm.py:eff_pol", "snompy/sample.py:Sample.refl_coef_qs_above_surf"]}
{"id": "C72", "title": "Approach curves and contrast at every harmonic", "statement": "For a lossless sample with reflection coefficient 0 < beta (<= 1 for fdm.eff_pol_n; below resonance for the PDM) and a real tip that stays in reach over the stroke, harmonic n of eff_pol_n and eff_pol_n_taylor is (-1)^n times a positive number which strictly grows when z_tip decreases or beta increases, at every amplitude > 0, every integer harmonic and every n_trapz >= 1; the bare-tip constant appears exactly at the harmonics that are multiples of n_trapz (for the FDM series: at harmonic 0). Dielectrics are therefore ordered by permittivity in the size of every harmonic.", "quantifier": "all lossless samples, real tips in reach, amplitudes, harmonics, sampling orders, series lengths >= 2", "why_tests_cant": "the repository samples one approach curve of one harmonic; this is every pair of distances and samples at every harmonic and sampling order", "anchors": ["snompy/fdm.py:eff_pol_n", "snompy/pdm.py:eff_pol_n", "snompy/fdm.py:eff_pol_n_taylor", "snompy/pdm.py:eff_pol_n_taylor", "snompy/demodulate.py:demod"]}
{"id": "C73", "title": "Higher harmonics are smaller", "statement": "For lossless samples and real tips in reach, |eff_pol_n| and |eff_pol_n_taylor| of harmonic n+1 are positive and strictly smaller than those of harmonic n for all 0 <= n with 2 (n+1) <= n_trapz.", "quantifier": "all lossless samples, real tips in reach, amplitudes, distances, sampling orders, harmonics up to half the sampling order", "why_tests_cant": "the repository checks harmonics 2 to 9 of one sample", "anchors": ["snompy/fdm.py:eff_pol_n", "snompy/pdm.py:eff_pol_n", "snompy/fdm.py:eff_pol_n_taylor", "snompy/pdm.py:eff_pol_n_taylor", "snompy/demodulate.py:demod"]}
{"id": "C74", "title": "git's answers are understood", "statement": "In every repository state (tag or none, any distance, hash, branch or detached head, clean or dirty), git_pieces_from_vcs turns the answers of git into exactly this state: tag without prefix, distance, hash, branch, dirtiness and date; and the style git-describe-long prints back what git describe printed. (Untagged commits are named by the first seven digits of the full hash.)", "quantifier": "all repository states, tag prefixes, digit tables, environments", "why_tests_cant": "strings of unbounded length parsed by a regular expression; the repository has no test of this file", "anchors": ["snompy/_version.py:git_pieces_from_vcs", "snompy/_version.py:render_git_describe_long"]}
{"id": "C75", "title": "The version number of a working tree", "statement": "snompy.__version__ in a working tree is TAG[+DISTANCE.gHEX[.dirty]] or 0+untagged.DISTANCE.gHEX[.dirty]; it is the bare tag exactly in a clean checkout of the tagged commit; different states (tag, distance, dirtiness, and hash unless it is a release) have different numbers; the part after + is a valid PEP 440 local version identifier.", "quantifier": "all repository states", "why_tests_cant": "quantifies over all tags, distances and hashes", "anchors": ["snompy/_version.py:get_versions", "snompy/_version.py:render", "snompy/_version.py:render_pep440", "snompy/_version.py:plus_or_dot", "snompy/_version.py:git_pieces_from_vcs"]}
{"id": "C76", "title": "Every style shows what its documentation says", "statement": "For every style other than pep440-pre the rendered version is the template of its docstring filled in (pep440-post without a tag adds the hash); a clean tagged checkout is shown as the bare tag in all styles except git-describe-long and no other state is; all styles except pep440-pre distinguish dirty trees; pep440-branch on master equals pep440; None, '' and 'default' mean pep440; other styles raise ValueError unless the pieces carry an error.", "quantifier": "all pieces and styles", "why_tests_cant": "all strings, distances and branches", "anchors": ["snompy/_version.py:render", "snompy/_version.py:render_pep440", "snompy/_version.py:render_pep440_branch", "snompy/_version.py:render_pep440_post", "snompy/_version.py:render_pep440_post_branch", "snompy/_version.py:render_pep440_old", "snompy/_version.py:render_git_describe", "snompy/_version.py:render_git_describe_long"]}
{"id": "C77", "title": "Version numbers in archives", "statement": "From the keywords that git archive writes, git_versions_from_keywords picks the first tag, in the order of the characters, that begins with the prefix followed by a digit; tags are the references marked 'tag: ', or all references if none is marked; without a candidate the version is 0+unknown. The order in which git lists references does not matter.", "quantifier": "all lists of references, prefixes, hashes and dates", "why_tests_cant": "all lists of strings", "anchors": ["snompy/_version.py:git_versions_from_keywords", "snompy/_version.py:get_keywords"]}
{"id": "C78", "title": "A failing git never prevents the import", "statement": "get_versions returns a version whatever git does. (False of the code: if git show or git rev-list fails, AttributeError or TypeError escapes. True if git counts the commits and prints a date; if one of the first four commands fails, or without git, the result is 0+unknown; NotThisMethod never escapes.)", "quantifier": "all operating systems, outputs and return codes", "why_tests_cant": "all behaviours of an external program", "anchors": ["snompy/_version.py:get_versions", "snompy/_version.py:git_pieces_from_vcs", "snompy/_version.py:run_command"]}
{"id": "C79", "title": "Running commands", "statement": "run_command uses the first command that exists, returns its stripped output if and only if the return code is 0, nothing if none exists or it cannot be started, and raises only if the output is not text; the environment variable GIT_DIR does not influence the version number.", "quantifier": "all command lists, outputs, return codes, environments", "why_tests_cant": "all behaviours of an external program", "anchors": ["snompy/_version.py:run_command", "snompy/_version.py:git_pieces_from_vcs"]}
{"id": "C80", "title": "Post-releases", "statement": "pep440_split_post splits V.postN into V and N (0 if N is missing) and returns (V, -1) without a post-release; the style pep440-pre is TAG[.postN.devDISTANCE] with the post-release counted up. (False of the code: None instead of -1; a post-release with a local identifier raises ValueError; after two '.post' the rest is lost. Proved for V without '.post' and decimal N.)", "quantifier": "all version strings", "why_tests_cant": "all strings", "anchors": ["snompy/_version.py:pep440_split_post", "snompy/_version.py:render_pep440_pre"]}
{"id": "C81", "title": "Keywords read from the file, versions from directory names", "statement": "git_get_keywords finds the three strings assigned in a file, whatever they contain and whatever else is in the file; versions_from_parentdir finds the first of the three innermost directories whose name begins with the prefix and returns the rest of the name.", "quantifier": "all files, strings, paths and prefixes", "why_tests_cant": "all strings", "anchors": ["snompy/_version.py:git_get_keywords", "snompy/_version.py:versions_from_parentdir"]}
{"id": "C82", "title": "Thick layers do not overflow", "statement": "In double precision, the quasistatic reflection coefficient of a stack of lossless layers is a number close to the exact value for every thickness and momentum, because the exponent is clipped. (False of the code: a suspended film of permittivity between 1.5 and 4 with q*t >= 710 gives 0, one of 5 or more gives nan, and so do the charge average and the FDM as soon as one quadrature node is thick. Proved for one layer between media of increasing permittivity, for every thickness and momentum, with an error of at most 2e-12.)", "quantifier": "all thicknesses, momenta, permittivities, mathematical libraries", "why_tests_cant": "the failing region depends on the quadrature nodes; all thicknesses", "anchors": ["snompy/sample.py:_MAX_EXP_ARG", "snompy/sample.py:Sample.refl_coef_qs", "snompy/fdm.py:eff_pol"]}
{"id": "C83", "title": "Rounding errors of the quasistatic coefficients", "statement": "Computed in double precision, the reflection and transmission coefficients of any stack are finite numbers whose errors are at most 3 * kappa * ((1+u)^k - 1) times their size, with kappa the product of the row norms of the factors times the transmission, as long as the product of the norms does not exceed the largest double and kappa times the unit roundoff is small; for a bulk sample the error is at most 1e-13 (1+|r|)^2; for up to 20 layers of increasing permittivity with total q*t of at most 700 it is at most 2^n * 1e-11.", "quantifier": "all stacks, momenta, mathematical libraries; float64 and complex128", "why_tests_cant": "worst-case rounding over all inputs", "anchors": ["snompy/sample.py:Sample.refl_coef_qs", "snompy/sample.py:Sample.trans_coef_qs", "snompy/sample.py:Sample.transfer_matrix_qs"]}
{"id": "C84", "title": "Half- and quarter-wave layers", "statement": "At vacuum wavenumber nu_vac = 1/lambda and normal incidence, a layer of thickness m lambda/(2n) does not change the reflection of any stack and a quarter-wave layer on a substrate reflects (n1^2 - n0 n2)/(n1^2 + n0 n2), nothing if n1^2 = n0 n2. (False of the code, whose phase lacks the factor 2 pi: no half-wave film is invisible and no quarter-wave coating suppresses the reflection. Proved with nu_vac = 2 pi/lambda; a layer whose phase is a multiple of pi is invisible at any angle.)", "quantifier": "all stacks, refractive indices, wavelengths, both polarisations", "why_tests_cant": "all stacks and wavelengths", "anchors": ["snompy/sample.py:Sample.transfer_matrix", "snompy/sample.py:Sample.refl_coef"]}
{"id": "C85", "title": "Transfer matrices agree with the recursion over interfaces", "statement": "The far-field reflection and transmission coefficients of any stack are those of the recursion of Airy and Parratt (adding the interfaces one by one from the substrate), which divides by zero nowhere in passive stacks; the reflection is the sum over the number of internal reflections in the top layer, which converges for propagating light over any passive stack.", "quantifier": "all stacks, momenta, both polarisations", "why_tests_cant": "all numbers of layers; infinite series", "anchors": ["snompy/sample.py:Sample.transfer_matrix", "snompy/sample.py:Sample.refl_coef", "snompy/sample.py:Sample.trans_coef"]}
{"id": "C86", "title": "Energy, total reflection and Brewster's angle", "statement": "In a lossless stack, evanescent layers included, reflected and transmitted flux add up to the incident one; beyond the critical angle of the substrate everything is reflected; at a single lossless interface p-polarised light is not reflected exactly at Brewster's condition (from vacuum: tan theta = n) and s-polarised light is always reflected.", "quantifier": "all lossless stacks, momenta and angles, both polarisations", "why_tests_cant": "all stacks and angles; exact equalities", "anchors": ["snompy/sample.py:Sample.transfer_matrix", "snompy/sample.py:Sample.refl_coef", "snompy/sample.py:Sample.trans_coef"]}
{"id": "C87", "title": "Spectra of Lorentz oscillators and Drude metals", "statement": "lorentz_perm has the static value eps_inf + A/nu_j^2, the value eps_inf + iA/(gamma nu_j) on resonance and an absorption of at most A/(gamma nu), reached on resonance only; nu^2 (eps_inf - eps) tends to A. Without damping it vanishes exactly at the longitudinal phonon (Lyddane-Sachs-Teller), is negative exactly between the two phonons, and the quasistatic reflection of the sample is not finite exactly at the surface phonon and the longitudinal phonon; with absorption the reflection exceeds 1 exactly where the real part is negative. nu (eps - eps_inf) of a Drude metal tends to i nu_plasma^2/gamma. Chained calls add oscillators up in any order, and stay passive.", "quantifier": "all parameters, wavenumbers and lists of oscillators", "why_tests_cant": "all parameters; limits; any number of oscillators", "anchors": ["snompy/sample.py:lorentz_perm", "snompy/sample.py:drude_perm", "snompy/sample.py:Sample.refl_coef_qs"]}
{"id": "C88", "title": "Samples do not share memory with the user's arrays or with each other", "statement": "Whatever a program does with the arrays it passed to samples, before or after, every sample shows what it would show if each construction or assignment had copied the numbers. Writing into an array that a sample hands out (sample.eps_stack[p][i] = x) changes that entry of that sample and nothing else, also if samples were made from each other's arrays; after a new assignment the old arrays are detached; in-place writes never change the number of layers or their shapes. The exception is nu_vac, which a plain assignment shares.", "quantifier": "all programs of allocations, writes, constructions and assignments", "why_tests_cant": "all programs; absence of aliasing", "anchors": ["snompy/sample.py:Sample.__init__", "snompy/sample.py:Sample.t_stack", "snompy/sample.py:Sample.eps_stack", "snompy/sample.py:Sample.beta_stack"]}
{"id": "C89", "title": "Demodulation converges geometrically in the number of trapezia", "statement": "For a signal that is analytic and bounded by M inside the ellipse with the turning points as foci and half-axes A cosh s and A sinh s, demod with N trapezia differs from the ideal lock-in signal by at most 2 M cosh(s n)/(exp(s N) - 1); it is the sum of the harmonics n + m N with signs (-1)^(m N); and harmonics decay like exp(-s n). Every signal analytic around the range of the oscillation converges geometrically; hence eff_pol_n of the PDM and of the FDM on bulk samples, without resonances along the oscillation. For the default PDM tip, amplitudes up to the tip radius and |beta| <= 1, the default 32 trapezia give the harmonics up to 5 within 2e-8 of the tip's polarisability.", "quantifier": "all analytic signals, harmonics, numbers of trapezia; all bulk samples without resonance", "why_tests_cant": "all signals; explicit error bound against an exact integral", "anchors": ["snompy/demodulate.py:demod", "snompy/pdm.py:eff_pol_n", "snompy/fdm.py:eff_pol_n"]}
{"id": "C90", "title": "The error of the truncated Taylor series", "statement": "If the geometry functions are bounded by K0 and K1 along the oscillation and |beta| K1 < 1, fdm.eff_pol_n_taylor with J terms differs from eff_pol_n by at most |beta|^J K0 K1^(J-1) / (2 (1 - |beta| K1)). With all defaults (16 terms), amplitudes up to 60 nm and |beta| <= 1 the difference is at most 6e-5, and every value returned by refl_coef_qs_from_eff_pol_n with the default tip reproduces the given signal in the full model to 7e-5. For the PDM, alpha_tip times the series is within |alpha_tip| kappa^J/(1 - kappa); with the defaults within 4e-10 alpha_tip.", "quantifier": "all bulk samples, tips, amplitudes, harmonics, series lengths, correct root finders", "why_tests_cant": "a bound over a continuum of samples and settings; tests compare a handful of values", "anchors": ["snompy/fdm.py:eff_pol_n_taylor", "snompy/fdm.py:refl_coef_qs_from_eff_pol_n", "snompy/pdm.py:eff_pol_n_taylor", "snompy/_defaults.py:Defaults"]}
{"id": "C91", "title": "bulk_sample puts the environment above the substrate", "statement": "bulk_sample(eps_sub=e, eps_env=E, nu_vac=nu) has exactly the two layers E and e broadcast to their common shape (E the default if omitted), no thicknesses and the wavenumber nu, and raises if there is no common shape. bulk_sample(beta=b, eps_env=E), for E that broadcasts into the shape of b, has the layers E and E (1 + b)/(1 - b). An empty t_stack changes nothing and any other one raises. refl_coef_qs of the result is (e - E)/(e + E), and b respectively.", "quantifier": "all arrays, environments, wavenumbers, t_stack arguments", "why_tests_cant": "all shapes and values; tests check samples of scalars", "anchors": ["snompy/sample.py:bulk_sample", "snompy/sample.py:Sample.__init__"]}
{"id": "C92", "title": "Rounding errors of the effective polarisability", "statement": "In double precision, pdm.eff_pol above a bulk sample is a number that differs from the exact value v by at most 2e-13 K |v| + 2^-159, where K = (1 + |f|(1+|beta|)^2)/|1 - f beta| is the condition number; pdm.eff_pol_n differs from its exact value by at most (2.1e-13 K^2 + (58|n| + 3 n_trapz + 120) 2^-53 K)|alpha_tip|. With the default tip, height and 32 trapezia, |beta| <= 1 and amplitudes from 1e-15 m to 20 nm, the first five harmonics have rounding errors below 2e-12 of the polarisability of the tip and differ from the ideal lock-in signal by at most 2.1e-8 of it.", "quantifier": "all permittivities, heights, tips, harmonics, numbers of trapezia and elementary functions accurate to one unit in the last place", "why_tests_cant": "error bounds over all inputs; tests compare with one tolerance at a few points", "anchors": ["snompy/pdm.py:eff_pol", "snompy/pdm.py:eff_pol_n", "snompy/demodulate.py:demod", "snompy/_defaults.py:Defaults._pdm_defaults"]}
{"id": "C93", "title": "Rounding errors of the finite dipole model", "statement": "In double precision, fdm.eff_pol above a bulk sample is a number that differs from the exact value v by at most 4e-13 K (1 + |v - 1|), where K = (1+|beta|)^2 (1 + S0 + S1)/|1 - beta f1| is the condition number and S0, S1 are the products of the bounds of the factors of f0 and f1; fdm.eff_pol_n differs from its exact value by at most (4.1e-13 K + (58|n| + 3 n_trapz + 120) 2^-53)(1 + M), where M bounds |v - 1|. With the default tip, height and 32 trapezia, |beta| <= 1 and amplitudes from 1e-15 m to 60 nm, the first five harmonics have rounding errors below 3e-11.", "quantifier": "all permittivities, heights, tips, harmonics, numbers of trapezia and elementary functions accurate to one unit in the last place", "why_tests_cant": "error bounds over all inputs; tests compare with one tolerance at a few points", "anchors": ["snompy/fdm.py:eff_pol", "snompy/fdm.py:eff_pol_n", "snompy/fdm.py:geom_func", "snompy/demodulate.py:demod", "snompy/_defaults.py:Defaults._fdm_defaults"]}
{"id": "C94", "title": "The default finite dipole tip and an ideal lock-in amplifier", "statement": "With the default tip and height, |beta| <= 1 and amplitudes A up to 60 nm, fdm.eff_pol_n with N trapezia differs from the ideal lock-in signal at harmonic n by at most 4.76 cosh(rho n)/(exp(rho N) - 1) for every rho with A (cosh rho - 1) <= 5 nm. With the default 32 trapezia the first five harmonics differ by at most 2e-8 up to 20 nm and 5e-5 up to 60 nm; computed in double precision, by at most 2.1e-8 and 5.1e-5.", "quantifier": "all bulk samples, amplitudes, harmonics and numbers of trapezia", "why_tests_cant": "an error bound against an integral, over all inputs", "anchors": ["snompy/fdm.py:eff_pol_n", "snompy/demodulate.py:demod", "snompy/_defaults.py:Defaults"]}
{"id": "C95", "title": "Approach curves over absorbing samples", "statement": "FDM: if the tip is in reach up to the height Z, the phases of g - p and of 1/beta - f_1 are together at most 45 degrees, then |eff_pol| > 1 and strictly decreases with z_tip on [0, Z]; with the default tip this holds up to 100 nm for every bulk sample with |Im 1/beta| <= 0.74 (Re 1/beta - 0.6), i.e. e |Im eps| <= 0.148 |eps - e|^2 + 0.74 e (Re eps - e) in an environment e. PDM: for every complex alpha_tip and beta, |eff_pol| is smaller at z1 > z2 exactly if |b|^2 (1/(16 pi (r+z1)^3) + 1/(16 pi (r+z2)^3)) < 2 Re b with b = alpha_tip beta; for conducting tips it decays at all heights if |beta|^2 < 4 Re beta.", "quantifier": "all bulk samples, tips and heights", "why_tests_cant": "test_approach_curve_decays samples one permittivity and 32 heights", "anchors": ["snompy/fdm.py:eff_pol", "snompy/pdm.py:eff_pol"]}
{"id": "C96", "title": "A source distribution keeps its version", "statement": "The file that write_to_version_file writes for a version dictionary is ASCII and versions_from_file gives the dictionary back, whatever strings it contains; in an unpacked source distribution get_versions gives the version with which it was made, whatever git, the keywords or the directory names say; what is built from it has the same version file.", "quantifier": "all dictionaries, strings, operating systems, configurations and directories", "why_tests_cant": "all strings and all behaviours of an external program", "anchors": ["versioneer.py:write_to_version_file", "versioneer.py:versions_from_file", "versioneer.py:get_versions", "versioneer.py:get_cmdclass"]}
{"id": "C97", "title": "setup.py and the package agree on the version", "statement": "In a source tree with the long _version.py, versioneer.get_versions() gives the version (or the exception) that snompy._version.get_versions() gives when the package is imported there.", "quantifier": "all operating systems, version files, configurations and keywords", "why_tests_cant": "all behaviours of an external program", "anchors": ["versioneer.py:get_versions", "snompy/_version.py:get_versions"]}
{"id": "C98", "title": "An installed package reports the version it was built with", "statement": "The _version.py of a built package, imported, gives the version dictionary with which the package was built. (False of the code: a quote in a tag makes the import fail. True for strings without quotes, backslashes, control characters, characters outside the basic multilingual plane and triple apostrophes; so every repository with such a tag reports the documented version after installation, also by way of a source distribution.)", "quantifier": "all version dictionaries; all repositories", "why_tests_cant": "all strings", "anchors": ["versioneer.py:write_to_version_file", "versioneer.py:get_cmdclass", "snompy/__init__.py:__version__"]}
{"id": "C99", "title": "Recovering permittivities", "statement": "permitivitty of the masked array that refl_coef_qs_from_eff_pol_n returns is masked exactly where the array is or where the division is impossible (beta within 2^-1022 of 1, relative to the numerator), and elsewhere is the permittivity with that reflection coefficient. Every visible permittivity belongs to a bulk sample whose eff_pol_n_taylor is the given signal, has |beta| at most the threshold, has a non-negative imaginary part with reject_negative_eps_imag and modulus at least one with reject_subvacuum_eps_abs. If the signal is the eff_pol_n_taylor of a bulk sample, its permittivity (below 2^1022) is among the visible ones of its column, under the conditions of C51.", "quantifier": "all signals, environments, tips, harmonics, correct solvers; all masked arrays", "why_tests_cant": "all complex numbers and array shapes; the tests use two permittivities", "anchors": ["snompy/sample.py:permitivitty", "snompy/fdm.py:refl_coef_qs_from_eff_pol_n", "snompy/pdm.py:refl_coef_qs_from_eff_pol_n", "docs/examples/scripts/inversion.py"]}
{"id": "C100", "title": "Round trips in double precision", "statement": "In double precision permitivitty(beta, eps_i) has a relative error of at most 1e-14. refl_coef_qs_single(eps_i, permitivitty(beta, eps_i)) is finite and differs from beta by at most 2e-14 (1+|beta|)^2, if |1+beta| and |1-beta| are at least 2^-40 and |beta| at most 1e6. permitivitty(refl_coef_qs_single(eps_i, eps), eps_i) is finite and differs from eps by at most 1e-14 (1+gamma) |eps|, where gamma = |eps-eps_i| (1/|eps|+1/|eps_i|) is at most 1e12. Hence both assertions of test_eps_beta_single_conversion_reversible hold for every eps_i from 0.9 to 1.1.", "quantifier": "all complex beta, eps, eps_i in the ranges named, every libm", "why_tests_cant": "the test uses one permittivity, one reflection coefficient and three environments", "anchors": ["snompy/sample.py:permitivitty", "snompy/sample.py:refl_coef_qs_single", "snompy/tests/test_sample.py:test_eps_beta_single_conversion_reversible"]}
{"id": "C101", "title": "Inversion in double precision", "statement": "In double precision pdm.refl_coef_qs_from_eff_pol and fdm.refl_coef_qs_from_eff_pol return a finite number close to the reflection coefficient whose polarisability is the given one: the error is at most 1e-13 (|beta| + |1-f beta|/|f|) for the point dipole model, and 6e-13 K |beta| + 2^-158 for the finite dipole model, K its condition. Applied to the result of eff_pol above a bulk sample, they return its reflection coefficient up to 4e-13 (1/|f| + (1+|beta|)^2) and 5e-12 (1+|beta|)^3 (1+size0+size1)^2/|f0|. With the default tip within 120 nm of any sample with |beta| at most 1 the error is at most 4e-8.", "quantifier": "all samples, tips, heights and signals in the ranges named, every libm", "why_tests_cant": "test_refl_coef_qs_from_eff_pol uses ten reflection coefficients and a few heights", "anchors": ["snompy/pdm.py:refl_coef_qs_from_eff_pol", "snompy/fdm.py:refl_coef_qs_from_eff_pol", "snompy/tests/test_eff_pol.py:test_refl_coef_qs_from_eff_pol"]}
{"id": "C102", "title": "Counts that are not positive integers", "statement": "demod refuses n_trapz exactly if it is a float (TypeError) or an integer below -1 (ValueError), before f_x is called; integers of Python and numpy and booleans give the result for the natural number they are equal to, 0 never gives a number, and -1 silently gives zero at every harmonic for every function (also for arrays of every shape), so eff_pol_n is zero for every sample. n_tayl is never refused by eff_pol_n_taylor: the number of terms is n_tayl rounded up, and none, with result zero, if it is not positive. The inversions never return for n_tayl <= 0 and never return a solution for n_tayl <= 1.", "quantifier": "all integers, booleans and finite floats as counts; all functions, samples, tips and shapes", "why_tests_cant": "the tests use the defaults and a few positive integers", "anchors": ["snompy/demodulate.py:demod", "snompy/fdm.py:eff_pol_n_taylor", "snompy/pdm.py:eff_pol_n_taylor", "snompy/fdm.py:refl_coef_qs_from_eff_pol_n", "snompy/pdm.py:refl_coef_qs_from_eff_pol_n"]}
{"id": "C103", "title": "The installer of versioneer.py", "statement": "python versioneer.py setup, run in the directory of a project whose setup.cfg has a complete [versioneer] section: succeeds, writes the version file with the configured values, changes no other file than __init__.py, MANIFEST.in and .gitattributes, keeps what these files had, and afterwards __init__.py imports the version, MANIFEST.in includes versioneer.py and the version file, and .gitattributes marks the version file export-subst, provided that the last lines of these files end with newlines and .gitattributes has no field which begins with the name of the version file and goes on (without these conditions there are counterexamples); a second run changes nothing. Without the section it appends the sample configuration once and exits with 1. Whatever happens, also when it raises, no other file changes. The exit code is 0 exactly if setup.py also has the three expected pieces of text and none of the outdated ones. In this repository a run succeeds and appends a second __version__ to snompy/__init__.py.", "quantifier": "all file systems, configurations, version file names and machines", "why_tests_cant": "there are no tests of versioneer.py", "anchors": ["versioneer.py:do_setup", "versioneer.py:do_vcs_install", "versioneer.py:get_config_from_root", "versioneer.py:scan_setup_py", "versioneer.py:get_root", "setup.cfg", "MANIFEST.in", ".gitattributes", "snompy/__init__.py"]}
{"id": "C104", "title": "What a signal says about the sample", "statement": "If two samples have reflection coefficients of size at most rho and rho times the geometry function stays below 1, their signals at a harmonic differ by at least a factor (given by the linear Taylor coefficient of the harmonic and the resonance) times the difference of the reflection coefficients, in both models; so when that factor is positive, equal signals mean equal reflection coefficients. Two lossless dielectrics with equal signals at one harmonic are equal. Without such conditions it is false: in the PDM every weak enough dielectric has at each of the harmonics 1, 2 and 3 exactly the nonzero signal of some lossless metal.", "quantifier": "all samples, tips, heights, amplitudes, harmonics and numbers of trapezium points", "why_tests_cant": "injectivity is a statement about all pairs of samples; the tests invert a handful of signals", "anchors": ["docs/examples/scripts/inversion.py", "snompy/fdm.py:eff_pol_n", "snompy/pdm.py:eff_pol_n"]}
{"id": "C105", "title": "The search for a permittivity in inversion.py", "statement": "invert_by_minimization visits every position of the array of signals exactly once, in row-major order. If the minimiser succeeds everywhere, the result has the shape of the signals and each entry is x[0] + i|x[1]| for the outcome x of the search for its own signal from its own guess (nan if x has a nan); otherwise the exception of the first failing position is raised; a guess with too few axes raises IndexError. The objective at a pair is the distance of the given signal from the signal of the permittivity that would be returned, and does not depend on the sign of the second number. Simulating signals of an array of weakly reflecting permittivities and searching with a residual of at most delta finds reflection coefficients whose error is at most delta over the factor of C104, and exactly the permittivities when the residual is 0.", "quantifier": "all shapes, signals, guesses, parameters and minimisers", "why_tests_cant": "the scripts have no tests, and the minimiser is an external routine", "anchors": ["docs/examples/scripts/inversion.py:minimization_function", "docs/examples/scripts/inversion.py:invert_by_minimization"]}
{"id": "C106", "title": "Approach curves of the script si_approach.py", "statement": "For a lossless dielectric (permittivity above that of the environment) and the default tip, the PDM part of the script succeeds and gives an array with one row for each height and one column for each harmonic; every entry is a positive real number, the first row is 1, and within a column a greater height has a smaller value. For the heights, harmonics and silicon of the script and the defaults at import the curves therefore fall strictly along the 512 heights.", "quantifier": "all permittivities, nonempty lists of heights and integer harmonics, amplitudes, default radii and numbers of trapezium points", "why_tests_cant": "the script has no tests and only draws a picture", "anchors": ["docs/examples/scripts/si_approach.py", "snompy/pdm.py:eff_pol_n", "snompy/sample.py:bulk_sample"]}
{"id": "C107", "title": "The harmonics rebuild the signal", "statement": "For any function that is finite along the oscillation, the demodulated values at the harmonics 0 to N-1 with N trapezia, multiplied by exp(i n theta), add up to the value of the function at each sampled height; their squares add up to the mean square of the samples; harmonic N-n is harmonic n up to the sign (-1)^N; so no harmonic exceeds the root mean square. This holds for eff_pol_n of both models, all samples and methods. For an analytic signal K harmonics of N trapezia rebuild the whole curve by their cosine series with an explicit error; in both models the ideal signals of a bulk sample rebuild eff_pol at every height. Hence the harmonics 1 to N/2 of four or more trapezia determine the reflection coefficient in the PDM, the harmonics 0 to N/2 in the FDM, and all harmonics from 1 on in the FDM in the limit of many trapezia, with no condition on the size of the coefficient other than absence of resonance.", "quantifier": "all functions, samples, tips, heights, amplitudes and numbers of trapezium points", "why_tests_cant": "an identity between infinitely many signals; uniqueness quantifies over pairs of samples", "anchors": ["snompy/demodulate.py:demod", "snompy/fdm.py:eff_pol_n", "snompy/pdm.py:eff_pol_n", "docs/guide/demodulation/fourier_fdm.py"]}
{"id": "C108", "title": "No passive sample resonates under a tip with Im g > 0", "statement": "With method Q_ave, for a tip with Im g > 0 whose largest height keeps r + 4 z + 2 d_Q1 r below 4 L, every stack of passive layers on a passive substrate has beta in the closed upper half plane at every height of the oscillation, never meets the pole of the FDM, and has a finite eff_pol_n at every harmonic. For bulk samples the condition on the tip is exact: every absorbing permittivity gives a finite eff_pol if and only if Im g * log(4L/(r+4z+2 d_Q1 r)) is non-negative. The default tip meets it within 290 nm of the surface.", "quantifier": "all passive stacks, tips, heights, amplitudes, harmonics and trapezium numbers", "why_tests_cant": "absence of a pole over a continuum of samples; a random sample never meets the pole", "anchors": ["snompy/fdm.py:geom_func", "snompy/fdm.py:eff_pol", "snompy/fdm.py:eff_pol_n"]}
{"id": "C109", "title": "The spectra of t_dependent_spectra.py", "statement": "For all wavenumbers, thicknesses, materials with damping and experiments at oblique incidence with a weighting factor below one, the script returns an array with one row per thickness and one column per wavenumber, whose entry is the ratio of (1 + c_r r)^2 alpha_n of the film and of gold, each computed by scalar calls at that thickness and wavenumber; alpha_n and r are numbers and the far-field factors are not zero. With the numbers of the script the shape is 32 by 128 with the permittivities of PMMA and gold by their formulas.", "quantifier": "all lists of wavenumbers and thicknesses, materials and experiments meeting the conditions", "why_tests_cant": "the script only shows a figure; broadcasting errors give an array of the same shape", "anchors": ["docs/examples/scripts/t_dependent_spectra.py", "snompy/sample.py:lorentz_perm", "snompy/sample.py:drude_perm"]}
{"id": "C110", "title": "The harmonics measure the derivatives of the approach curve", "statement": "For n >= 1 and more than 2n trapezia, demod of a real signal with n derivatives over the range of the oscillation returns exactly A^n/(2^n n!) times the nth derivative at some height in that range; for a complex signal the result is as close to A^n/(2^n n!) L as the nth derivative stays to L, in particular bounded by A^n/(2^n n!) times its largest modulus. For both models above real samples eff_pol_n is such a value of the nth derivative of eff_pol, and for all samples away from resonance eff_pol_n / A^n tends to the nth derivative of eff_pol at z_tip over 2^n n! when the amplitude goes to zero.", "quantifier": "all signals, samples, tips, heights, amplitudes, harmonics n >= 1 and trapezium numbers above 2n", "why_tests_cant": "the derivative and the height are not computed by the code; the limit needs amplitudes where the numerical signal is lost in rounding", "anchors": ["snompy/demodulate.py:demod", "snompy/fdm.py:eff_pol_n", "snompy/pdm.py:eff_pol_n"]}
{"id": "C111", "title": "A film is a series of image charges", "statement": "For a film of permittivity f and thickness t on a substrate s, with face reflections r=(f-e)/(f+e) and rho=(s-f)/(s+f) and |r rho|<1, surf_pot_and_field and refl_coef_qs_above_surf tend, as n_lag grows, to the potential, the field and the averaged coefficient of a charge r at depth z and charges (1-r^2) rho (-r rho)^k at depth z+2(k+1)t (distances 2z+2(k+1)t from the source), up to |(1-r^2) rho|/(1-|r rho|)^2 2^-2046 from clipping the exponent; the series converge absolutely, and all charges together are (s-e)/(s+e).", "quantifier": "all films, substrates and environments with |r rho|<1, thicknesses, heights and environments with Gauss-Laguerre rules", "why_tests_cant": "an infinite series and a limit of quadratures; the tests only compare numbers of the code with each other", "anchors": ["snompy/sample.py:surf_pot_and_field", "snompy/sample.py:refl_coef_qs_above_surf", "snompy/sample.py:refl_coef_qs"]}
{"id": "C112", "title": "The commands of setup.py", "statement": "get_cmdclass keeps every command of the user, extends build_py, build_ext and sdist (the user's class, else that of setuptools, else of distutils) and adds version, with the exceptions for cx_Freeze and py2exe. When the version of the project can be found and the extended command succeeds, build_py, build_ext and sdist leave the version file of the distribution with exactly that version, which every later reading returns, and no other path changes, even if it is a hard link to the same file; sdist names the tree after the same version; if the version cannot be found, the extended command is not run and nothing changes. build_exe and py2exe show the version to the extended command and then put back the file that the installer writes, unless the command fails.", "quantifier": "all projects, machines, file contents, sets of hard links, user commands and extended commands", "why_tests_cant": "there are no tests of setup.py; the effects of hard links and failing commands need many file systems", "anchors": ["versioneer.py:get_cmdclass", "versioneer.py:write_to_version_file", "versioneer.py:get_versions", "setup.py"]}
{"id": "C113", "title": "Permittivities in double precision", "statement": "In double precision lorentz_perm returns the Lorentz permittivity up to (12 κ + 80) units of roundoff of the resonant term and 3 units of eps_inf, where κ is the condition number of the denominator, at most 1 + (nu_j² + nu²) / (gamma nu); this cannot be improved to a bound without κ. drude_perm is accurate to 11·10⁻¹⁵ of the free-carrier term for every damping. For all doubles, infinities and NaN included, with nu_vac, gamma, A_j (or f_j) and the imaginary part of eps_inf not negative, the imaginary part of the result is not a negative number. On an undamped resonance it is NaN and the real part infinite.", "quantifier": "all inputs (signs), all inputs between 2^-150 and 2^150 with κ ≤ 10^11 (errors)", "why_tests_cant": "rounding errors depend on every bit of the inputs", "anchors": ["snompy/sample.py:lorentz_perm", "snompy/sample.py:drude_perm"]}
{"id": "C114", "title": "Permittivities are the response of damped oscillators", "statement": "Let x be any solution of x'' + gamma x' + nu_j² x = A_j cos(nu t) with gamma, nu_j > 0. Then x(t) − Re((ε − eps_inf) e^(−i nu t)) → 0 where ε is what lorentz_perm returns, and for nu ≠ 0 no other number has this property. ε − eps_inf is A_j times the integral of x(t) e^(i nu t) over t > 0 for the motion x after a kick. The field's work in a period tends to π Im(ε − eps_inf). ∫ nu Im ε dnu = π A_j / 2 and ∫ Im ε / nu dnu = π/2 (ε(0) − eps_inf). The current v with v' + gamma v = nu_plasma² cos(nu t) tends to that of drude_perm, with the same work.", "quantifier": "all parameters, all solutions of the equation of motion", "why_tests_cant": "a statement about all solutions of a differential equation and their limits", "anchors": ["snompy/sample.py:lorentz_perm", "snompy/sample.py:drude_perm"]}
{"id": "C115", "title": "How the signal depends on the tip", "statement": "pdm: for all complex alpha_tip and beta away from the resonance, eff_pol_n / alpha_tip depends only on alpha_tip * beta. For real beta > 0 below the resonance every |eff_pol_n| / alpha_tip strictly grows with alpha_tip, and |eff_pol_n| strictly grows with eps_tip > 1 and stays below that of the default perfectly conducting sphere. 1/alpha_tip = 1/eff_pol + beta/(16π(r_tip+z_tip)³). fdm: for 0 < beta ≤ 1, g_factor ≤ 1 and a tip longer than the reach of the oscillation, |eff_pol_n| strictly grows with a real g_factor, and eff_pol strictly grows with L_tip; two complex values of g_factor that give the same eff_pol on a known bulk sample are equal, except where r+4z+2 d0 r = 4L or 2L log(4L/r) = beta (d0−d1) r log(4L/(r+4z+2 d1 r)).", "quantifier": "all tips, heights, amplitudes, harmonics n ≥ 1 and samples in the stated ranges", "why_tests_cant": "monotonicity and injectivity over continuous ranges", "anchors": ["snompy/pdm.py:eff_pol", "snompy/pdm.py:eff_pol_n", "snompy/fdm.py:eff_pol", "snompy/fdm.py:eff_pol_n", "snompy/fdm.py:geom_func"]}
{"id": "C116", "title": "Thin films and the polaritons of films", "statement": "For one film of permittivity f and thickness t between e and s let K = e (f² − s²) / (f (s + e)²). As t → 0 refl_coef_qs(q) tends to that of the bulk sample with derivative 2 q K in t; refl_coef_qs_above_surf(z) has derivative 2 K / z for every n_lag ≥ 2, and K / z for n_lag = 1; the fdm eff_pol with Q_ave has derivative f0 / (2 (1 − beta f1)²) · 2 K / (z_tip + r_tip d_Qa). Where exp does not overflow, refl_coef_qs(q) is not finite if and only if e^(2qt) (f+e)(f+s) = (f−e)(f−s); for s = e if and only if f cosh(qt/2) = −e sinh(qt/2) or f sinh(qt/2) = −e cosh(qt/2); for real e, s > 0, real f ≠ 0 and q, t > 0 if and only if f < 0, (f+e)(f+s) > 0 and q = log((f−e)(f−s)/((f+e)(f+s))) / (2t).", "quantifier": "all permittivities, wave numbers and thicknesses", "why_tests_cant": "limits in the thickness, and an if-and-only-if over continuous parameters", "anchors": ["snompy/sample.py:Sample.refl_coef_qs", "snompy/sample.py:Sample.refl_coef_qs_above_surf", "snompy/sample.py:Sample.transfer_matrix_qs", "snompy/fdm.py:eff_pol"]}
{"id": "C117", "title": "The coefficients solve the field equations", "statement": "Electrostatics: for q > 0 with q t within the range of exp, every φ, D that are continuous, satisfy φ' = D/eps, D' = eps q² φ in every medium, vanish far below and differ from a exp(−q y) by something that vanishes far above, has φ = a (exp(−q y) − r exp(q y)) above the sample and φ = a t (env/sub) exp(−q (y − T)) in the substrate with r = refl_coef_qs and t = trans_coef_qs; one such solution exists; r is not finite if and only if there is a nonzero solution that vanishes on both sides (a polariton). Maxwell's equations: for p (s) polarization, every field with continuous tangential components, incident wave a exp(i k y), reflected wave b exp(−i k y) and transmitted wave c exp(i k_s (y − T)) of H_z (E_z) has b = r a and c = t a with r = refl_coef and t = trans_coef; one exists; r is not finite if and only if there is a nonzero field with outgoing waves only.", "quantifier": "all stacks of layers with non-negative thicknesses, wave numbers and frequencies, and all solutions of the differential equations", "why_tests_cant": "statement about all solutions of differential equations", "anchors": ["snompy/sample.py:Sample.refl_coef_qs", "snompy/sample.py:Sample.trans_coef_qs", "snompy/sample.py:Sample.refl_coef", "snompy/sample.py:Sample.trans_coef", "snompy/sample.py:Sample.transfer_matrix", "snompy/sample.py:Sample.transfer_matrix_qs"]}
{"id": "C118", "title": "The models are self-consistent electrostatics", "statement": "With Laplace's equation, Coulomb's law and the interface conditions in three dimensions: (image) for a charge 1 at height h over a bulk sample, a charge b at depth h and a charge c seen from below satisfy the interface conditions if and only if b = −β and c = 1 − β with β = refl_coef_qs; (sphere) a sphere of radius r_tip and permittivity eps_tip in vacuum in the field E has the dipole p if and only if p = alpha_tip E, and the conducting sphere has for eps_tip = alpha_tip = None; (PDM) p = alpha_tip (E + p F), with F the field of the image of a unit dipole at the dipole, if and only if p = pdm.eff_pol E; (FDM) Q1 is induced by the images of Q0 and Q1 if and only if the ratio of the dipoles with and without sample is fdm.eff_pol, for the methods bulk, Q_ave and multi. surf_pot_and_field is potential and field of the image at the charge, not at the surface.", "quantifier": "all permittivities, heights, radii, fields and charges", "why_tests_cant": "statement about solutions of differential equations and all inputs", "anchors": ["snompy/pdm.py:eff_pol", "snompy/fdm.py:eff_pol", "snompy/sample.py:Sample.surf_pot_and_field", "snompy/_defaults.py:Defaults._pdm_defaults", "docs/guide/fdm.rst"]}
{"id": "C119", "title": "The examples of the documentation", "statement": "refl_coef_qs_single and demod give the values and shapes that their docstrings show. bulk_sample(11.7) and Sample((1, 11.7, 1), (100e-9,)) of docs/guide/sample.rst have the eps_stack, beta_stack, t_stack, multilayer and refl_coef_qs shown, up to the digits shown, and bulk_sample(beta=...) gives the permittivity back. fff_si of docs/guide/far-field.rst does not have the value shown, which belongs to c_r = 0.3. eps_pmma of docs/guide/sample.rst does not have the values shown, which belong to the strength 0.014 nu_j**2.", "quantifier": "all quadrature sizes above 4 and all defaults with eps_env = 1", "why_tests_cant": "the documentation is not run by the tests, and its values depend on defaults that can be changed", "anchors": ["docs/guide/sample.rst", "docs/guide/far-field.rst", "snompy/sample.py:refl_coef_qs_single", "snompy/demodulate.py:demod"]}
{"id": "C120", "title": "Fresnel coefficients in double precision", "statement": "For a bulk sample of absorbing or lossless media, refl_coef and trans_coef evaluated in IEEE doubles return finite numbers within 300 K S^2 2^-53 and 600 K S^2 2^-53 of Fresnel's coefficients, where K bounds (|eps| nu^2 + q^2) / |eps nu^2 - q^2| in both media and S is the condition number of Fresnel's denominator. For a lossless environment the bounds are 600 K 2^-53 and 1200 K 2^-53, and beyond the critical angle the modulus is 1 up to 600 K 2^-53. theta_in is a momentum within rounding of nu sin|theta|. The condition number cannot be left out: next to the critical angle half of the digits are lost.", "quantifier": "all permittivities with im eps >= 0, wavenumbers and momenta of magnitudes between 2^-60 and 2^60, both polarizations, and every libm within its error bounds", "why_tests_cant": "the tests compare a few points with loose tolerances; a rounding bound speaks about every double and about points next to the critical angle", "anchors": ["snompy/sample.py:Sample.refl_coef", "snompy/sample.py:Sample.trans_coef", "snompy/sample.py:Sample.transfer_matrix"]}
{"id": "C121", "title": "Finely layered samples are graded anisotropic films", "statement": "Cut a film of thickness T into N slices, each made of media eps_i(y) in fractions f_i. As N grows, refl_coef_qs, trans_coef_qs, refl_coef and trans_coef of the layered sample tend to the coefficients of the solution of the field equations in a film whose permittivity at depth y is the mean of eps_i along the layers and the harmonic mean across them. A superlattice of constant positive media tends, quasistatically, to one isotropic film of permittivity sqrt(eps_along eps_across) and thickness T sqrt(eps_along / eps_across), and does not reflect in a medium of that permittivity.", "quantifier": "all lists of continuous complex permittivity profiles that do not vanish (and meet no grazing wave, for light), all fractions, thicknesses, momenta and wavenumbers, both polarizations", "why_tests_cant": "it is a limit over stacks of unboundedly many layers, compared with the solutions of a differential equation", "anchors": ["snompy/sample.py:Sample.refl_coef_qs", "snompy/sample.py:Sample.trans_coef_qs", "snompy/sample.py:Sample.refl_coef", "snompy/sample.py:Sample.trans_coef", "snompy/sample.py:Sample.transfer_matrix", "snompy/sample.py:Sample.transfer_matrix_qs"]}
{"id": "C122", "title": "Results depend continuously on the inputs", "statement": "If the arguments of a call tend to limits and the call with the limits returns a finite number, then the calls return finite numbers from some point on, and these tend to it. This holds for refl_coef_qs, trans_coef_qs, refl_coef_qs_above_surf, image_depth_and_charge, eff_pol, eff_pol_n, eff_pol_n_taylor and refl_coef_qs_from_eff_pol of both tip models, and, in media that do not amplify, for refl_coef and trans_coef. With gain refl_coef jumps at total reflection.", "quantifier": "all families of samples with any number of layers, of tips, heights, amplitudes, harmonics, momenta, angles and wavenumbers, along any filter", "why_tests_cant": "it is a statement about limits over real and complex arguments, and about all finite results", "anchors": ["snompy/sample.py:Sample.refl_coef_qs", "snompy/sample.py:Sample.trans_coef_qs", "snompy/sample.py:Sample.refl_coef_qs_above_surf", "snompy/sample.py:Sample.image_depth_and_charge", "snompy/sample.py:Sample.refl_coef", "snompy/sample.py:Sample.trans_coef", "snompy/fdm.py:eff_pol", "snompy/fdm.py:eff_pol_n", "snompy/fdm.py:eff_pol_n_taylor", "snompy/fdm.py:refl_coef_qs_from_eff_pol", "snompy/pdm.py:eff_pol", "snompy/pdm.py:eff_pol_n", "snompy/pdm.py:eff_pol_n_taylor", "snompy/pdm.py:refl_coef_qs_from_eff_pol"]}
{"id": "C123", "title": "Small integer arguments give the same results as floats, and large ones wrap around", "statement": "If the integers in a call are below stated bounds, lorentz_perm, drude_perm, refl_coef, trans_coef, refl_coef_qs, trans_coef_qs, refl_coef_qs_above_surf, image_depth_and_charge, eff_pol, eff_pol_n, eff_pol_n_taylor and refl_coef_qs_from_eff_pol of both tip models return for numpy integers of w bits what they return for floats of the same values. Wavenumbers whose square exceeds 2**(w-1) give a wrong drude_perm without an error; some integers make refl_coef nan or pdm.geom_func infinite.", "quantifier": "all widths w, all mixtures of integer and float arguments within the bounds, all samples with any number of layers, all methods and numbers of points", "why_tests_cant": "the arguments range over unbounded sets of integers and floats for every integer width", "anchors": ["snompy/sample.py:lorentz_perm", "snompy/sample.py:drude_perm", "snompy/sample.py:Sample.transfer_matrix", "snompy/sample.py:Sample.transfer_matrix_qs", "snompy/sample.py:Sample.refl_coef_qs_above_surf", "snompy/sample.py:Sample.image_depth_and_charge", "snompy/fdm.py:eff_pol", "snompy/fdm.py:eff_pol_n", "snompy/fdm.py:eff_pol_n_taylor", "snompy/fdm.py:refl_coef_qs_from_eff_pol", "snompy/pdm.py:geom_func", "snompy/pdm.py:eff_pol", "snompy/pdm.py:eff_pol_n", "snompy/pdm.py:eff_pol_n_taylor", "snompy/pdm.py:refl_coef_qs_from_eff_pol", "snompy/demodulate.py:demod"]}
{"id": "C124", "title": "Signs of zeros matter only for the outer media of light, and only at negative permittivities", "statement": "refl_coef and trans_coef of a sample ignore the signs of zeros in the permittivities, unless the environment or the substrate has a negative real part and an imaginary part of -0.0; such a substrate reflects with the reciprocal coefficient. A real beta above 1 always makes such a substrate, so bulk_sample(beta=beta) and bulk_sample(eps_sub=permitivitty(beta) entered as a real number) have different refl_coef, while for beta below -1 they agree. lorentz_perm and drude_perm never return such a value when the background does not have a negative imaginary part or -0.0. Electrostatic coefficients, image charges and the functions of both tip models ignore all signs of zeros.", "quantifier": "all permittivities with all signs of their zeros, all numbers of layers, all wavenumbers other than zero, all angles or momenta, both polarizations; all arguments of the electrostatic functions and tip models", "why_tests_cant": "the values range over the complex numbers with every combination of signs of zeros, and the project's tests use none with a negative zero", "anchors": ["snompy/sample.py:Sample.transfer_matrix", "snompy/sample.py:Sample.refl_coef", "snompy/sample.py:Sample.trans_coef", "snompy/sample.py:permitivitty", "snompy/sample.py:Sample.__init__", "snompy/sample.py:bulk_sample", "snompy/sample.py:lorentz_perm", "snompy/sample.py:drude_perm", "snompy/sample.py:Sample.transfer_matrix_qs", "snompy/fdm.py:eff_pol", "snompy/fdm.py:eff_pol_n", "snompy/pdm.py:eff_pol", "snompy/pdm.py:eff_pol_n"]}
{"id": "C125", "title": "Results are analytic functions of the inputs", "statement": "Wherever they are finite, the electrostatic reflection and transmission coefficients, refl_coef_qs_above_surf and eff_pol, eff_pol_n and eff_pol_n_taylor of both tip models (methods bulk and Q_ave) are finite nearby and holomorphic in the permittivities, g_factor, eps_tip and alpha_tip; for bulk samples they and the inverses are analytic in all numerical arguments, and the derivatives in the substrate permittivity e of beta, the FDM and the PDM have closed forms. refl_coef and trans_coef are analytic wherever the root arguments of the environment and the substrate avoid the negative real axis and no layer has a zero root. The method multi is real-analytic while the image charges are nonzero, but the depth of the image charge is not holomorphic. lorentz_perm and drude_perm are analytic in all arguments, and so are the harmonics of a Lorentz oscillator as functions of the frequency.", "quantifier": "all samples with any number of layers, all tips, heights, harmonics, quadrature rules and orders, all analytic families of arguments with real or complex parameters", "why_tests_cant": "analyticity is a statement about infinitely many derivatives at each of uncountably many inputs", "anchors": ["snompy/sample.py:Sample.transfer_matrix_qs", "snompy/sample.py:Sample.refl_coef_qs", "snompy/sample.py:Sample.trans_coef_qs", "snompy/sample.py:Sample.refl_coef_qs_above_surf", "snompy/sample.py:Sample.image_depth_and_charge", "snompy/sample.py:Sample.refl_coef", "snompy/sample.py:Sample.trans_coef", "snompy/fdm.py:eff_pol", "snompy/fdm.py:eff_pol_n", "snompy/fdm.py:eff_pol_n_taylor", "snompy/fdm.py:refl_coef_qs_from_eff_pol", "snompy/pdm.py:eff_pol", "snompy/pdm.py:eff_pol_n", "snompy/pdm.py:eff_pol_n_taylor", "snompy/pdm.py:refl_coef_qs_from_eff_pol", "snompy/sample.py:lorentz_perm", "snompy/sample.py:drude_perm"]}
{"id": "C126", "title": "The reflection coefficient as a function of momentum determines the sample", "statement": "If two samples in the same environment, with layers of positive thickness that differ from the medium below them and no neighbouring media of opposite permittivity, have the same finite refl_coef_qs at infinitely many momenta below the exponent limit, they have the same layers and the same substrate. For dielectrics with positive real parts the coefficients are equal at those momenta exactly if the samples are equal. A layer of permittivity -eps_env on a layer of eps_env with the same thickness has no effect at any momentum, and momenta beyond the exponent limit do not show the thickness of a film.", "quantifier": "all numbers of layers in both samples, all complex permittivities, thicknesses, and infinite sets of momenta", "why_tests_cant": "the claim compares every pair of samples with arbitrary numbers of layers at infinitely many momenta", "anchors": ["snompy/sample.py:Sample.refl_coef_qs", "snompy/sample.py:Sample.trans_coef_qs", "snompy/sample.py:Sample.transfer_matrix_qs"]}
{"id": "C127", "title": "An approach curve determines the layers", "statement": "If refl_coef_qs_above_surf of two visible samples (conditions of C126) agrees at arbitrarily large heights, or at infinitely many heights above a height at which no exponent is limited, the samples have the same layers and the same substrate, with any correct quadrature rule of any positive order. The same holds for the potential alone, for the field alone and for fdm.eff_pol with method Q_ave as a function of z_tip. For dielectrics the averages agree exactly if the samples do.", "quantifier": "all numbers of layers in both samples, all complex permittivities and thicknesses, all tips, all correct quadrature rules, all infinite sets of heights", "why_tests_cant": "the claim compares every pair of samples with arbitrary numbers of layers at infinitely many heights", "anchors": ["snompy/sample.py:Sample.refl_coef_qs_above_surf", "snompy/sample.py:Sample.surf_pot_and_field", "snompy/fdm.py:eff_pol"]}
{"id": "C128", "title": "Three heights determine a point-dipole tip and sample, five frequencies an oscillator", "statement": "If pdm.eff_pol of two tips over two samples agrees at three heights above both contact heights, and one sample has a nonzero reflection coefficient, the radii, the polarisabilities and the reflection coefficients are equal. Two heights do not suffice. If lorentz_perm of two oscillators, one with nonzero strength, agrees at five frequencies, the strengths, the dampings, the high-frequency permittivities and the squares of the resonance frequencies are equal. Signals of pdm.eff_pol with one known tip at five frequencies give the same conclusion.", "quantifier": "all tips, samples and heights; all oscillators and all sets of five real frequencies", "why_tests_cant": "the claim compares every pair of parameter sets over the real and complex numbers", "anchors": ["snompy/pdm.py:eff_pol", "snompy/sample.py:lorentz_perm"]}
{"id": "C129", "title": "Rounding errors of the charge average, and of Q_ave above films and layers", "statement": "For a correct rule with N ≤ 10^6 nodes and heights between 2^-99 and 2^99, refl_coef_qs_above_surf in double precision differs from the exact value by at most 4e-12 + N·1e-15 above a film of any thickness between a thinner and a denser medium, and by at most 2^n·1.5e-11 + N·1e-15 above n ≤ 20 layers of increasing permittivity. The finite dipole model with method Q_ave inherits the error multiplied by a condition number. With all defaults, the first five harmonics above any such film have errors below 3.1e-10.", "quantifier": "all permittivities in the stated ranges, all thicknesses, all heights, all rules, all libms within the assumed accuracy", "why_tests_cant": "rounding errors have to be bounded for every double and every sample, not sampled", "anchors": ["snompy/sample.py:refl_coef_qs_above_surf", "snompy/fdm.py:eff_pol", "snompy/fdm.py:eff_pol_n"]}
{"id": "C130", "title": "The conditions on the Gauss-Laguerre rule determine it", "statement": "A list of n positive nodes with positive weights that integrates the powers below 2n exactly has the zeros of the Laguerre polynomial as its nodes, each once, between 1/n and 4n - 2. For each positive order there is exactly one such list with ascending nodes. Averages, surface potentials, surface fields and images do not depend on the order of the nodes in exact arithmetic.", "quantifier": "all orders, all rules, all samples with finite reflection coefficients, all positive heights", "why_tests_cant": "the claim is about every order and every rule", "anchors": ["snompy/sample.py:laggauss", "snompy/sample.py:refl_coef_qs_above_surf", "snompy/sample.py:surf_pot_and_field", "snompy/sample.py:image_depth_and_charge"]}
{"id": "C131", "title": "Demodulation converges geometrically for real-analytic signals, and so above layers", "statement": "For every signal that is real-analytic on the closed range of the oscillation, demod and eff_pol_n with N samples are within C·exp(-sN), s > 0, of the lock-in integral. This includes the finite dipole model above layered samples with the methods Q_ave and multi, wherever the effective polarisability is a number, the images have a charge and no momentum of the rule passes the point where q·t starts to be clipped; above passive layers that are not thick, Q_ave meets these conditions for every tip with Im g_factor > 0 whose signal is defined along the oscillation.", "quantifier": "all analytic signals, all layered samples and tips in the stated ranges, all harmonics, all N", "why_tests_cant": "a rate of convergence is a statement about all N and every sample", "anchors": ["snompy/demodulate.py:demod", "snompy/fdm.py:eff_pol_n", "snompy/sample.py:refl_coef_qs_above_surf", "snompy/sample.py:image_depth_and_charge"]}
{"id": "C132", "title": "Samples whose permittivity increases with depth: images are deep and the default method is defined", "statement": "If the real permittivities increase with depth, refl_coef_qs decreases with the momentum from the reflection of the substrate alone and never falls below the reflection of the first interface; refl_coef_qs_above_surf increases with the height and lies between these two; image_depth_and_charge puts the image at least as far below the surface as the charge is above it, with a charge of at least the charge average. eff_pol with the default method then returns a number for every tip with Im g_factor ≠ 0 at every height, and eff_pol_n converges geometrically with the number of samples if the layers are not thick.", "quantifier": "all layers with increasing permittivities, all non-negative thicknesses, all positive heights, all correct rules, all tips in the stated ranges", "why_tests_cant": "monotonicity and definedness are claims about every sample and every height", "anchors": ["snompy/sample.py:refl_coef_qs", "snompy/sample.py:refl_coef_qs_above_surf", "snompy/sample.py:image_depth_and_charge", "snompy/fdm.py:eff_pol", "snompy/fdm.py:eff_pol_n"]}
{"id": "C133", "title": "Raising any permittivity of a dielectric sample raises the response", "statement": "For samples with real positive permittivities in any order and the same thicknesses, raising the permittivity of a layer or of the substrate, or lowering that of the environment, never lowers refl_coef_qs (q ≥ 0), refl_coef_qs_above_surf, the potential and the field of surf_pot_and_field, and eff_pol of the finite dipole model with Q_ave and a real g_factor as long as the tip is in reach; if the thicknesses are positive, all of these strictly grow (q > 0). refl_coef_qs lies between the values of the bulk samples with the smallest and the largest permittivity. If the permittivity increases with depth, thicker layers do not raise refl_coef_qs and refl_coef_qs_above_surf.", "quantifier": "all numbers of layers, permittivities, thicknesses, momenta, heights, correct rules and tips in reach", "why_tests_cant": "monotonicity in every parameter is a claim about all pairs of samples", "anchors": ["snompy/sample.py:refl_coef_qs", "snompy/sample.py:refl_coef_qs_above_surf", "snompy/sample.py:surf_pot_and_field", "snompy/fdm.py:eff_pol"]}
{"id": "C134", "title": "Permittivity decreasing with depth: images lie between surface and mirror position", "statement": "For samples with real positive permittivities that decrease with depth, all thicknesses non-negative, and an environment not denser than the substrate, refl_coef_qs increases with q from the value of the substrate to at most that of the top layer and refl_coef_qs / q decreases; refl_coef_qs_above_surf decreases with z_Q. If in addition some medium is denser than the environment (the substrate, or a layer when all thicknesses are positive), image_depth_and_charge returns a depth between 0 and z_Q and a positive charge of at most refl_coef_qs_above_surf; eff_pol of the finite dipole model with method multi (the default for layers) returns a number for every g_factor that is not real; and eff_pol_n converges geometrically in n_trapz to the lock-in integral when the layers are thin enough for the clip to be inactive, in particular with all defaults for layers of at most 100 nm.", "quantifier": "all numbers of layers, permittivities in this order, thicknesses, momenta, heights, correct rules, tips, amplitudes, harmonics and numbers of points", "why_tests_cant": "bounds on the image and the absence of nan are claims about a continuum of samples, heights and tips", "anchors": ["snompy/sample.py:refl_coef_qs", "snompy/sample.py:refl_coef_qs_above_surf", "snompy/sample.py:image_depth_and_charge", "snompy/fdm.py:eff_pol", "snompy/fdm.py:eff_pol_n"]}
