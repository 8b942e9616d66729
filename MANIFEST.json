{
 "claims": [
  {
   "property": "C01",
   "status": "proved",
   "theorems": [
    "Snompy.Props.C01_sample",
    "Snompy.Props.C01_bulk",
    "Snompy.Props.C01_only"
   ],
   "note": ""
  },
  {
   "property": "C02",
   "status": "proved",
   "theorems": [
    "Snompy.Props.C02",
    "Snompy.Props.C02_last",
    "Snompy.Props.C02_arr"
   ],
   "note": ""
  },
  {
   "property": "C03",
   "status": "partial",
   "theorems": [
    "Snompy.Props.C03_partial",
    "Snompy.Props.C03_stored",
    "Snompy.Props.C03_false"
   ],
   "note": "False as stated: the setters store the value before checking it (C03_false, C03_stored). C03_partial says exactly what a rejected assignment leaves behind."
  },
  {
   "property": "C04",
   "status": "proved",
   "theorems": [
    "Snompy.Props.C04_arr",
    "Snompy.Props.C04"
   ],
   "note": ""
  },
  {
   "property": "C05",
   "status": "partial",
   "theorems": [
    "Snompy.Props.C05_partial",
    "Snompy.Props.C05_false"
   ],
   "note": "False as stated when a permittivity above the substrate vanishes (C05_false). C05_partial gives the exact condition: finite permittivities come back if and only if all but the last are non-zero and no two neighbours add up to zero."
  },
  {
   "property": "C06",
   "status": "partial",
   "theorems": [
    "Snompy.Props.C06_first",
    "Snompy.Props.C06_built",
    "Snompy.Props.C06_keep_partial",
    "Snompy.Props.C06_ignored",
    "Snompy.Props.C06_keep_false"
   ],
   "note": "The clause on later assignments to beta_stack is false for an array environment that reaches the layer axis of the new stack (C06_keep_false); C06_keep_partial excludes this. The other clauses are proved in full."
  },
  {
   "property": "C07",
   "status": "partial",
   "theorems": [
    "Snompy.Props.C07_partial",
    "Snompy.Props.C07_false",
    "Snompy.Props.C07_raises"
   ],
   "note": "False as stated (C07_false, C07_raises). C07_partial covers environments that broadcast into the shape of the reflection coefficient."
  },
  {
   "property": "C08",
   "status": "proved",
   "theorems": [
    "Snompy.Props.C08_valid",
    "Snompy.Props.C08"
   ],
   "note": ""
  },
  {
   "property": "C09",
   "status": "proved",
   "theorems": [
    "Snompy.Props.C09_refl",
    "Snompy.Props.C09_beta_stack",
    "Snompy.Props.C09_trans",
    "Snompy.Props.C09_pole"
   ],
   "note": ""
  },
  {
   "property": "C10",
   "status": "proved",
   "theorems": [
    "Snompy.Props.C10_refl",
    "Snompy.Props.C10_trans",
    "Snompy.Props.C10_layers"
   ],
   "note": ""
  },
  {
   "property": "C11",
   "status": "proved",
   "theorems": [
    "Snompy.Props.C11_recursion"
   ],
   "note": ""
  },
  {
   "property": "C12",
   "status": "proved",
   "theorems": [
    "Snompy.Props.C12_far",
    "Snompy.Props.C12_far_coefs",
    "Snompy.Props.C12_qs",
    "Snompy.Props.C12_qs_coefs"
   ],
   "note": ""
  },
  {
   "property": "C13",
   "status": "proved",
   "theorems": [
    "Snompy.Props.C13_far",
    "Snompy.Props.C13_qs",
    "Snompy.Props.C13_clip"
   ],
   "note": ""
  },
  {
   "property": "C14",
   "status": "proved",
   "theorems": [
    "Snompy.Props.C14_far_det",
    "Snompy.Props.C14_far_trans",
    "Snompy.Props.C14_qs_det",
    "Snompy.Props.C14_qs_trans"
   ],
   "note": ""
  },
  {
   "property": "C15",
   "status": "proved",
   "theorems": [
    "Snompy.Props.C15_passive"
   ],
   "note": ""
  },
  {
   "property": "C16",
   "status": "proved",
   "theorems": [
    "Snompy.Props.C16_bound"
   ],
   "note": ""
  },
  {
   "property": "C17",
   "status": "proved",
   "theorems": [
    "Snompy.Props.C17_exponential"
   ],
   "note": ""
  },
  {
   "property": "C18",
   "status": "proved",
   "theorems": [
    "Snompy.Props.C18_scale_eps",
    "Snompy.Props.C18_scale_q",
    "Snompy.Props.C18_conj"
   ],
   "note": ""
  },
  {
   "property": "C19",
   "status": "proved",
   "theorems": [
    "Snompy.Props.C19_complex",
    "Snompy.Props.C19_fresnel"
   ],
   "note": ""
  },
  {
   "property": "C20",
   "status": "proved",
   "theorems": [
    "Snompy.Props.C20_normal"
   ],
   "note": ""
  },
  {
   "property": "C21",
   "status": "proved",
   "theorems": [
    "Snompy.Props.C21_branch"
   ],
   "note": ""
  },
  {
   "property": "C22",
   "status": "proved",
   "theorems": [
    "Snompy.Props.C22_energy"
   ],
   "note": ""
  },
  {
   "property": "C23",
   "status": "proved",
   "theorems": [
    "Snompy.Props.C23_static",
    "Snompy.Props.C23_limit"
   ],
   "note": ""
  },
  {
   "property": "C24",
   "status": "proved",
   "theorems": [
    "Snompy.Props.C24_matrix",
    "Snompy.Props.C24_coefs",
    "Snompy.Props.C24_precedence"
   ],
   "note": ""
  },
  {
   "property": "C25",
   "status": "proved",
   "theorems": [
    "Snompy.Props.C25_angle",
    "Snompy.Props.C25_angle_default",
    "Snompy.Props.C25_none",
    "Snompy.Props.C25_explicit_q"
   ],
   "note": ""
  },
  {
   "property": "C26",
   "status": "partial",
   "theorems": [
    "Snompy.Props.C26_vacuum_partial",
    "Snompy.Props.C26_snell",
    "Snompy.Props.C26_false",
    "Snompy.Props.C26_exact"
   ],
   "note": "False unless eps_env = 1 (C26_false). C26_snell says what the code computes for every environment; C26_vacuum_partial is the property for eps_env = 1; C26_exact: for transparent bulk samples it holds in vacuum, at normal incidence and without contrast only."
  },
  {
   "property": "C27",
   "status": "proved",
   "theorems": [
    "Snompy.Props.C27_scale",
    "Snompy.Props.C27_angle"
   ],
   "note": ""
  },
  {
   "property": "C28",
   "status": "proved",
   "theorems": [
    "Snompy.Props.C28_average",
    "Snompy.Props.C28_order_zero"
   ],
   "note": ""
  },
  {
   "property": "C29",
   "status": "proved",
   "theorems": [
    "Snompy.Props.C29_image",
    "Snompy.Props.C29_no_contrast"
   ],
   "note": ""
  },
  {
   "property": "C30",
   "status": "proved",
   "theorems": [
    "Snompy.Props.C30_convex",
    "Snompy.Props.C30_bound",
    "Snompy.Props.C30_passive"
   ],
   "note": ""
  },
  {
   "property": "C31",
   "status": "proved",
   "theorems": [
    "Snompy.Props.C31_average",
    "Snompy.Props.C31_image",
    "Snompy.Props.C31_source"
   ],
   "note": ""
  },
  {
   "property": "C32",
   "status": "proved",
   "theorems": [
    "Snompy.Props.C32_eff_pol",
    "Snompy.Props.C32_eff_pol_n"
   ],
   "note": ""
  },
  {
   "property": "C33",
   "status": "proved",
   "theorems": [
    "Snompy.Props.C33_left",
    "Snompy.Props.C33_right",
    "Snompy.Props.C33_degenerate"
   ],
   "note": ""
  },
  {
   "property": "C34",
   "status": "proved",
   "theorems": [
    "Snompy.Props.C34_left",
    "Snompy.Props.C34_right"
   ],
   "note": ""
  },
  {
   "property": "C35",
   "status": "proved",
   "theorems": [
    "Snompy.Props.C35_fdm",
    "Snompy.Props.C35_fdm_n",
    "Snompy.Props.C35_pdm",
    "Snompy.Props.C35_pdm_n"
   ],
   "note": ""
  },
  {
   "property": "C36",
   "status": "proved",
   "theorems": [
    "Snompy.Props.C36_default",
    "Snompy.Props.C36_eff_pol",
    "Snompy.Props.C36_taylor"
   ],
   "note": ""
  },
  {
   "property": "C37",
   "status": "proved",
   "theorems": [
    "Snompy.Props.C37_fdm",
    "Snompy.Props.C37_fdm_n",
    "Snompy.Props.C37_fdm_multi",
    "Snompy.Props.C37_pdm",
    "Snompy.Props.C37_pdm_n"
   ],
   "note": ""
  },
  {
   "property": "C38",
   "status": "proved",
   "theorems": [
    "Snompy.Props.C38_fdm",
    "Snompy.Props.C38_fdm_not_one",
    "Snompy.Props.C38_pdm"
   ],
   "note": ""
  },
  {
   "property": "C39",
   "status": "proved",
   "theorems": [
    "Snompy.Props.C39_bound",
    "Snompy.Props.C39_decay"
   ],
   "note": ""
  },
  {
   "property": "C40",
   "status": "proved",
   "theorems": [
    "Snompy.Props.C40_radius",
    "Snompy.Props.C40_conductor",
    "Snompy.Props.C40_dielectric",
    "Snompy.Props.C40_both",
    "Snompy.Props.C40_limit"
   ],
   "note": ""
  },
  {
   "property": "C41",
   "status": "proved",
   "theorems": [
    "Snompy.Props.C41_substrate",
    "Snompy.Props.C41_accepts"
   ],
   "note": ""
  },
  {
   "property": "C42",
   "status": "proved",
   "theorems": [
    "Snompy.Props.C42_polynomial",
    "Snompy.Props.C42_high",
    "Snompy.Props.C42_const"
   ],
   "note": ""
  },
  {
   "property": "C43",
   "status": "proved",
   "theorems": [
    "Snompy.Props.C43_linear",
    "Snompy.Props.C43_even",
    "Snompy.Props.C43_real",
    "Snompy.Props.C43_bound",
    "Snompy.Props.C43_still",
    "Snompy.Props.C43_zero_intervals"
   ],
   "note": ""
  },
  {
   "property": "C44",
   "status": "proved",
   "theorems": [
    "Snompy.Props.C44_alias"
   ],
   "note": ""
  },
  {
   "property": "C45",
   "status": "proved",
   "theorems": [
    "Snompy.Props.C45_converges"
   ],
   "note": ""
  },
  {
   "property": "C46",
   "status": "proved",
   "theorems": [
    "Snompy.Props.C46_range_fdm",
    "Snompy.Props.C46_range_pdm",
    "Snompy.Props.C46_range_taylor_fdm",
    "Snompy.Props.C46_range_taylor_pdm",
    "Snompy.Props.C46_ends_fdm",
    "Snompy.Props.C46_ends_pdm"
   ],
   "note": ""
  },
  {
   "property": "C47",
   "status": "proved",
   "theorems": [
    "Snompy.Props.C47_remainder",
    "Snompy.Props.C47_converges",
    "Snompy.Props.C47_alias"
   ],
   "note": ""
  },
  {
   "property": "C48",
   "status": "partial",
   "theorems": [
    "Snompy.Props.C48_partial",
    "Snompy.Props.C48_false",
    "Snompy.Props.C48_exact"
   ],
   "note": "False as stated: the factor alpha_tip is missing (C48_false). C48_partial proves the limit the code has; C48_exact: the statement holds only where the signal vanishes or alpha_tip is 1."
  },
  {
   "property": "C49",
   "status": "proved",
   "theorems": [
    "Snompy.Props.C49_fdm",
    "Snompy.Props.C49_pdm"
   ],
   "note": ""
  },
  {
   "property": "C50",
   "status": "proved",
   "theorems": [
    "Snompy.Props.C50_fdm",
    "Snompy.Props.C50_pdm"
   ],
   "note": ""
  },
  {
   "property": "C51",
   "status": "partial",
   "theorems": [
    "Snompy.Props.C51_fdm_partial",
    "Snompy.Props.C51_fdm_dropped",
    "Snompy.Props.C51_fdm_ok",
    "Snompy.Props.C51_pdm_partial",
    "Snompy.Props.C51_pdm_dropped",
    "Snompy.Props.C51_pdm_ok",
    "Snompy.Props.C51_false"
   ],
   "note": "False as stated when columns of different degree are solved in one call or an equation does not depend on the unknown (C51_false, C51_*_dropped). C51_*_partial state the conditions under which it holds."
  },
  {
   "property": "C52",
   "status": "partial",
   "theorems": [
    "Snompy.Props.C52_fdm",
    "Snompy.Props.C52_fdm_partial",
    "Snompy.Props.C52_pdm",
    "Snompy.Props.C52_pdm_partial",
    "Snompy.Props.C52_false"
   ],
   "note": "In terms of unmasked entries proved in full (C52_fdm, C52_pdm); in terms of the solutions of the equations false without the conditions of C51 (C52_false), proved with them (C52_*_partial)."
  },
  {
   "property": "C53",
   "status": "partial",
   "theorems": [
    "Snompy.Props.C53_fdm_back",
    "Snompy.Props.C53_fdm_partial",
    "Snompy.Props.C53_pdm_back",
    "Snompy.Props.C53_pdm_partial",
    "Snompy.Props.C53_false"
   ],
   "note": "Second half proved in full (C53_*_back). First half false when the signal does not depend on beta (C53_false), proved under the conditions of C51 (C53_*_partial)."
  },
  {
   "property": "C54",
   "status": "proved",
   "theorems": [
    "Snompy.Props.C54_lorentz",
    "Snompy.Props.C54_drude",
    "Snompy.Props.C54_reality",
    "Snompy.Props.C54_reality_drude",
    "Snompy.Props.C54_limit",
    "Snompy.Props.C54_limit_drude"
   ],
   "note": ""
  },
  {
   "property": "C55",
   "status": "proved",
   "theorems": [
    "Snompy.Props.C55_raises",
    "Snompy.Props.C55_plasma",
    "Snompy.Props.C55_oscillator",
    "Snompy.Props.C55_lorentz",
    "Snompy.Props.C55_pole",
    "Snompy.Props.C55_drude"
   ],
   "note": ""
  },
  {
   "property": "C56",
   "status": "proved",
   "theorems": [
    "Snompy.Props.C56_explicit",
    "Snompy.Props.C56_spellOut",
    "Snompy.Props.C56_omitted",
    "Snompy.Props.C56_shielded",
    "Snompy.Props.C56_history"
   ],
   "note": ""
  },
  {
   "property": "C57",
   "status": "proved",
   "theorems": [
    "Snompy.Props.C57_nodes",
    "Snompy.Props.C57_calls",
    "Snompy.Props.C57_above_surf",
    "Snompy.Props.C57_surf",
    "Snompy.Props.C57_image",
    "Snompy.Props.C57_float",
    "Snompy.Props.C57_float_plain"
   ],
   "note": ""
  },
  {
   "property": "C58",
   "status": "proved",
   "theorems": [
    "Snompy.Props.C58_refl_coef_qs",
    "Snompy.Props.C58_refl_coef",
    "Snompy.Props.C58_above_surf",
    "Snompy.Props.C58_image",
    "Snompy.Props.C58_fdm_eff_pol",
    "Snompy.Props.C58_fdm_eff_pol_n",
    "Snompy.Props.C58_fdm_eff_pol_n_taylor",
    "Snompy.Props.C58_pdm_eff_pol",
    "Snompy.Props.C58_pdm_eff_pol_n",
    "Snompy.Props.C58_pdm_eff_pol_n_taylor",
    "Snompy.Props.C58_shape",
    "Snompy.Props.C58_raises",
    "Snompy.Props.C58_order",
    "Snompy.Props.C58_grouping",
    "Snompy.Props.C58_add"
   ],
   "note": "Exceptions that have nothing to do with shapes (for example an unknown method) are raised as for scalars, so a call can also raise when the shapes broadcast."
  },
  {
   "property": "C59",
   "status": "proved",
   "theorems": [
    "Snompy.Props.C59_demod"
   ],
   "note": ""
  },
  {
   "property": "C60",
   "status": "proved",
   "theorems": [
    "Snompy.Props.C60_refl_coef_qs",
    "Snompy.Props.C60_trans_coef_qs",
    "Snompy.Props.C60_above_surf",
    "Snompy.Props.C60_surf_pot",
    "Snompy.Props.C60_surf_field",
    "Snompy.Props.C60_image_depth",
    "Snompy.Props.C60_image_charge",
    "Snompy.Props.C60_refl_coef",
    "Snompy.Props.C60_trans_coef"
   ],
   "note": ""
  },
  {
   "property": "C61",
   "status": "proved",
   "theorems": [
    "Snompy.Props.C61_fdm_eff_pol",
    "Snompy.Props.C61_fdm_eff_pol_n",
    "Snompy.Props.C61_pdm_eff_pol",
    "Snompy.Props.C61_pdm_eff_pol_n"
   ],
   "note": ""
  },
  {
   "property": "C62",
   "status": "proved",
   "theorems": [
    "Snompy.Props.C62_fdm_eff_pol_n_taylor",
    "Snompy.Props.C62_pdm_eff_pol_n_taylor"
   ],
   "note": ""
  },
  {
   "property": "C63",
   "status": "proved",
   "theorems": [
    "Snompy.Props.C63_surf",
    "Snompy.Props.C63_average",
    "Snompy.Props.C63_image",
    "Snompy.Props.C63_fdm"
   ],
   "note": ""
  },
  {
   "property": "C64",
   "status": "proved",
   "theorems": [
    "Snompy.Props.C64_average",
    "Snompy.Props.C64_image",
    "Snompy.Props.C64_contact"
   ],
   "note": ""
  },
  {
   "property": "C65",
   "status": "proved",
   "theorems": [
    "Snompy.Props.C65_energy",
    "Snompy.Props.C65_reflect",
    "Snompy.Props.C65_angle"
   ],
   "note": ""
  },
  {
   "property": "C66",
   "status": "proved",
   "theorems": [
    "Snompy.Props.C66_rejects",
    "Snompy.Props.C66_refl_coef_qs",
    "Snompy.Props.C66_trans_coef_qs",
    "Snompy.Props.C66_above_surf",
    "Snompy.Props.C66_refl_coef",
    "Snompy.Props.C66_trans_coef",
    "Snompy.Props.C66_fdm",
    "Snompy.Props.C66_pdm",
    "Snompy.Props.C66_passive"
   ],
   "note": ""
  },
  {
   "property": "C67",
   "status": "proved",
   "theorems": [
    "Snompy.Props.C67_pdm",
    "Snompy.Props.C67_pdm_materials",
    "Snompy.Props.C67_fdm",
    "Snompy.Props.C67_fdm_near",
    "Snompy.Props.C67_fdm_gain"
   ],
   "note": ""
  },
  {
   "property": "C68",
   "status": "proved",
   "theorems": [
    "Snompy.Props.C68_pdm",
    "Snompy.Props.C68_fdm",
    "Snompy.Props.C68_contrast"
   ],
   "note": ""
  },
  {
   "property": "C69",
   "status": "partial",
   "theorems": [
    "Snompy.Props.C69_accepts",
    "Snompy.Props.C69_fdm",
    "Snompy.Props.C69_fdm_sound",
    "Snompy.Props.C69_pdm_partial",
    "Snompy.Props.C69_pdm_false"
   ],
   "note": "FDM proved in full. PDM: false as stated (C69_pdm_false); C69_pdm_partial proves it for the signal divided by alpha_tip."
  },
  {
   "property": "C70",
   "status": "proved",
   "theorems": [
    "Snompy.Props.C70_sample",
    "Snompy.Props.C70_demod",
    "Snompy.Props.C70_fdm",
    "Snompy.Props.C70_pdm",
    "Snompy.Props.C70_fdm_real",
    "Snompy.Props.C70_pdm_real"
   ],
   "note": ""
  },
  {
   "property": "C71",
   "status": "partial",
   "theorems": [
    "Snompy.Props.C71_frozen",
    "Snompy.Props.C71_partial",
    "Snompy.Props.C71_differs",
    "Snompy.Props.C71_false"
   ],
   "note": "False as stated (C71_false, C71_differs). C71_partial and C71_frozen prove the limit the code has."
  },
  {
   "property": "C72",
   "status": "proved",
   "theorems": [
    "Snompy.Props.C72_fdm",
    "Snompy.Props.C72_contrast",
    "Snompy.Props.C72_pdm",
    "Snompy.Props.C72_fdm_taylor",
    "Snompy.Props.C72_pdm_taylor"
   ],
   "note": ""
  },
  {
   "property": "C73",
   "status": "proved",
   "theorems": [
    "Snompy.Props.C73_fdm",
    "Snompy.Props.C73_pdm",
    "Snompy.Props.C73_fdm_taylor",
    "Snompy.Props.C73_pdm_taylor"
   ],
   "note": ""
  },
  {
   "property": "C74",
   "status": "proved",
   "theorems": [
    "Snompy.Props.C74_pieces",
    "Snompy.Props.C74_unparsable",
    "Snompy.Props.C74_roundtrip"
   ],
   "note": ""
  },
  {
   "property": "C75",
   "status": "proved",
   "theorems": [
    "Snompy.Props.C75_version",
    "Snompy.Props.C75_release",
    "Snompy.Props.C75_injective",
    "Snompy.Props.C75_local"
   ],
   "note": ""
  },
  {
   "property": "C76",
   "status": "proved",
   "theorems": [
    "Snompy.Props.C76_format",
    "Snompy.Props.C76_release",
    "Snompy.Props.C76_dirty",
    "Snompy.Props.C76_pre",
    "Snompy.Props.C76_branch",
    "Snompy.Props.C76_default",
    "Snompy.Props.C76_unknown"
   ],
   "note": ""
  },
  {
   "property": "C77",
   "status": "proved",
   "theorems": [
    "Snompy.Props.C77_pick",
    "Snompy.Props.C77_order",
    "Snompy.Props.C77_digit",
    "Snompy.Props.C77_empty_date",
    "Snompy.Props.C77_paren"
   ],
   "note": ""
  },
  {
   "property": "C78",
   "status": "partial",
   "theorems": [
    "Snompy.Props.C78_caught",
    "Snompy.Props.C78_no_file",
    "Snompy.Props.C78_fallback",
    "Snompy.Props.C78_partial",
    "Snompy.Props.C78_false"
   ],
   "note": "False as stated (C78_false). C78_partial proves it when git counts the commits and prints a date; C78_fallback and C78_no_file cover the failures that are handled."
  },
  {
   "property": "C79",
   "status": "proved",
   "theorems": [
    "Snompy.Props.C79_first",
    "Snompy.Props.C79_missing",
    "Snompy.Props.C79_output",
    "Snompy.Props.C79_raises",
    "Snompy.Props.C79_git_dir"
   ],
   "note": ""
  },
  {
   "property": "C80",
   "status": "partial",
   "theorems": [
    "Snompy.Props.C80_split_partial",
    "Snompy.Props.C80_false",
    "Snompy.Props.C80_pre_partial",
    "Snompy.Props.C80_other"
   ],
   "note": "False as stated (C80_false, C80_other). The partial theorems prove it for versions without '.post' followed by '.postN' with decimal N, with None in place of -1."
  },
  {
   "property": "C81",
   "status": "proved",
   "theorems": [
    "Snompy.Props.C81_keywords",
    "Snompy.Props.C81_no_file",
    "Snompy.Props.C81_parentdir"
   ],
   "note": ""
  },
  {
   "property": "C82",
   "status": "partial",
   "theorems": [
    "Snompy.Props.C82_zero",
    "Snompy.Props.C82_nan",
    "Snompy.Props.C82_false",
    "Snompy.Props.C82_partial",
    "Snompy.Props.C82_above_surface",
    "Snompy.Props.C82_eff_pol"
   ],
   "note": "False as stated (C82_false, C82_zero, C82_nan; consequences in C82_above_surface and C82_eff_pol). C82_partial proves it for one layer between media of increasing permittivity."
  },
  {
   "property": "C83",
   "status": "proved",
   "theorems": [
    "Snompy.Props.C83_complex",
    "Snompy.Props.C83_real",
    "Snompy.Props.C83_bulk",
    "Snompy.Props.C83_increasing"
   ],
   "note": ""
  },
  {
   "property": "C84",
   "status": "partial",
   "theorems": [
    "Snompy.Props.C84_invisible",
    "Snompy.Props.C84_half_partial",
    "Snompy.Props.C84_quarter_partial",
    "Snompy.Props.C84_half_false",
    "Snompy.Props.C84_quarter_false"
   ],
   "note": "False as stated (C84_half_false, C84_quarter_false). C84_half_partial and C84_quarter_partial prove it with nu_vac = 2 pi/lambda; C84_invisible holds for any phase that is a multiple of pi."
  },
  {
   "property": "C85",
   "status": "proved",
   "theorems": [
    "Snompy.Props.C85_recursion",
    "Snompy.Props.C85_defined",
    "Snompy.Props.C85_passive",
    "Snompy.Props.C85_bounces",
    "Snompy.Props.C85_bounces_passive"
   ],
   "note": ""
  },
  {
   "property": "C86",
   "status": "proved",
   "theorems": [
    "Snompy.Props.C86_energy",
    "Snompy.Props.C86_total",
    "Snompy.Props.C86_brewster",
    "Snompy.Props.C86_s",
    "Snompy.Props.C86_brewster_angle"
   ],
   "note": ""
  },
  {
   "property": "C87",
   "status": "proved",
   "theorems": [
    "Snompy.Props.C87_static",
    "Snompy.Props.C87_resonance",
    "Snompy.Props.C87_peak",
    "Snompy.Props.C87_zero",
    "Snompy.Props.C87_lst",
    "Snompy.Props.C87_reststrahlen",
    "Snompy.Props.C87_surface",
    "Snompy.Props.C87_enhance",
    "Snompy.Props.C87_fsum",
    "Snompy.Props.C87_conductivity",
    "Snompy.Props.C87_superposition",
    "Snompy.Props.C87_order",
    "Snompy.Props.C87_passive"
   ],
   "note": ""
  },
  {
   "property": "C88",
   "status": "proved",
   "theorems": [
    "Snompy.Props.C88_value",
    "Snompy.Props.C88_write",
    "Snompy.Props.C88_write_t",
    "Snompy.Props.C88_detached",
    "Snompy.Props.C88_valid",
    "Snompy.Props.C88_nu_vac"
   ],
   "note": ""
  },
  {
   "property": "C89",
   "status": "proved",
   "theorems": [
    "Snompy.Props.C89_bound",
    "Snompy.Props.C89_alias",
    "Snompy.Props.C89_harmonics",
    "Snompy.Props.C89_geometric",
    "Snompy.Props.C89_pdm",
    "Snompy.Props.C89_conductor",
    "Snompy.Props.C89_default",
    "Snompy.Props.C89_fdm"
   ],
   "note": "Complete for signals with an analytic continuation. For eff_pol_n the bulk models are covered; layered samples are in C131."
  },
  {
   "property": "C90",
   "status": "proved",
   "theorems": [
    "Snompy.Props.C90_fdm",
    "Snompy.Props.C90_fdm_default",
    "Snompy.Props.C90_fdm_inverse",
    "Snompy.Props.C90_pdm",
    "Snompy.Props.C90_pdm_default"
   ],
   "note": "Complete. The bounds on the default tip hold for heights up to 120 nm (amplitudes up to 60 nm at contact)."
  },
  {
   "property": "C91",
   "status": "proved",
   "theorems": [
    "Snompy.Props.C91_eps",
    "Snompy.Props.C91_beta",
    "Snompy.Props.C91_layers",
    "Snompy.Props.C91_refl"
   ],
   "note": "Complete. Environments with more axes than the reflection coefficient are the subject of C07."
  },
  {
   "property": "C92",
   "status": "proved",
   "theorems": [
    "Snompy.Props.C92_tip",
    "Snompy.Props.C92_harmonics",
    "Snompy.Props.C92_default",
    "Snompy.Props.C92_lockin"
   ],
   "note": "Complete for bulk samples away from overflow and underflow (ranges in the hypotheses). The point dipole model sees only the substrate of a multilayer sample (C41)."
  },
  {
   "property": "C93",
   "status": "proved",
   "theorems": [
    "Snompy.Props.C93_tip",
    "Snompy.Props.C93_harmonics",
    "Snompy.Props.C93_default"
   ],
   "note": "Complete for bulk samples away from overflow and underflow (ranges in the hypotheses); for layered samples with method Q_ave see C129."
  },
  {
   "property": "C94",
   "status": "proved",
   "theorems": [
    "Snompy.Props.C94_rate",
    "Snompy.Props.C94_default",
    "Snompy.Props.C94_double"
   ],
   "note": "Complete for the default tip and height; the constants are not optimal."
  },
  {
   "property": "C95",
   "status": "proved",
   "theorems": [
    "Snompy.Props.C95_fdm",
    "Snompy.Props.C95_default",
    "Snompy.Props.C95_material",
    "Snompy.Props.C95_pdm",
    "Snompy.Props.C95_pdm_conductor"
   ],
   "note": "The FDM condition is sufficient, not necessary; the PDM condition is both."
  },
  {
   "property": "C96",
   "status": "proved",
   "theorems": [
    "Snompy.Props.C96_file",
    "Snompy.Props.C96_ascii",
    "Snompy.Props.C96_sdist",
    "Snompy.Props.C96_rebuild"
   ],
   "note": ""
  },
  {
   "property": "C97",
   "status": "proved",
   "theorems": [
    "Snompy.Props.C97_agree"
   ],
   "note": ""
  },
  {
   "property": "C98",
   "status": "partial",
   "theorems": [
    "Snompy.Props.C98_partial",
    "Snompy.Props.C98_repo_partial",
    "Snompy.Props.C98_false"
   ],
   "note": "Partial because false of the code for strings that need escapes: C98_false builds a package from a repository with the tag 1\" whose import raises JSONDecodeError."
  },
  {
   "property": "C99",
   "status": "proved",
   "theorems": [
    "Snompy.Props.C99_masked",
    "Snompy.Props.C99_fdm_sound",
    "Snompy.Props.C99_fdm_complete",
    "Snompy.Props.C99_pdm_sound",
    "Snompy.Props.C99_pdm_complete"
   ],
   "note": ""
  },
  {
   "property": "C100",
   "status": "proved",
   "theorems": [
    "Snompy.Props.C100_permittivity",
    "Snompy.Props.C100_beta",
    "Snompy.Props.C100_eps",
    "Snompy.Props.C100_test_eps",
    "Snompy.Props.C100_test_beta"
   ],
   "note": "The bounds are worst-case: the constant 66 of complex division dominates. The ranges exclude samples within 2^-40 of perfect conductors (beta = 1) and of epsilon near zero (beta = -1)."
  },
  {
   "property": "C101",
   "status": "proved",
   "theorems": [
    "Snompy.Props.C101_pdm_inverse",
    "Snompy.Props.C101_pdm_trip",
    "Snompy.Props.C101_fdm_inverse",
    "Snompy.Props.C101_fdm_trip",
    "Snompy.Props.C101_default"
   ],
   "note": "Worst-case bounds; the tolerance 1e-12 of the test is not reached for every height and tip, the amplification 1/|f| of the numerator's cancellation being real."
  },
  {
   "property": "C102",
   "status": "proved",
   "theorems": [
    "Snompy.Props.C102_natural",
    "Snompy.Props.C102_refused",
    "Snompy.Props.C102_cases",
    "Snompy.Props.C102_minus_one",
    "Snompy.Props.C102_zero",
    "Snompy.Props.C102_not_refused",
    "Snompy.Props.C102_minus_one_arrays",
    "Snompy.Props.C102_eff_pol_n",
    "Snompy.Props.C102_eff_pol_n_refused",
    "Snompy.Props.C102_eff_pol_n_minus_one",
    "Snompy.Props.C102_taylor_coef",
    "Snompy.Props.C102_taylor",
    "Snompy.Props.C102_taylor_refused",
    "Snompy.Props.C102_taylor_none",
    "Snompy.Props.C102_inversion",
    "Snompy.Props.C102_inversion_refused",
    "Snompy.Props.C102_inversion_few"
   ],
   "note": "That a count which is not a positive integer is refused is false of the code; C102_not_refused is the counterexample n_trapz = -1."
  },
  {
   "property": "C103",
   "status": "proved",
   "theorems": [
    "Snompy.Props.C103_installed",
    "Snompy.Props.C103_values",
    "Snompy.Props.C103_init",
    "Snompy.Props.C103_manifest",
    "Snompy.Props.C103_attributes",
    "Snompy.Props.C103_again",
    "Snompy.Props.C103_no_config",
    "Snompy.Props.C103_scan",
    "Snompy.Props.C103_exit",
    "Snompy.Props.C103_exit_no_config",
    "Snompy.Props.C103_frame",
    "Snompy.Props.C103_bad_config",
    "Snompy.Props.C103_no_source",
    "Snompy.Props.C103_other_vcs",
    "Snompy.Props.C103_elsewhere",
    "Snompy.Props.C103_repo_config",
    "Snompy.Props.C103_repo",
    "Snompy.Props.C103_glued",
    "Snompy.Props.C103_lookalike",
    "Snompy.Props.C103_none"
   ],
   "note": "The conditions on the files are needed: C103_glued and C103_lookalike are counterexamples without them."
  },
  {
   "property": "C104",
   "status": "proved",
   "theorems": [
    "Snompy.Props.C104_pdm",
    "Snompy.Props.C104_fdm",
    "Snompy.Props.C104_pdm_unique",
    "Snompy.Props.C104_fdm_unique",
    "Snompy.Props.C104_dielectric_fdm",
    "Snompy.Props.C104_dielectric_pdm",
    "Snompy.Props.C104_ambiguous"
   ],
   "note": "The uniqueness theorems have conditions; C104_ambiguous is the counterexample without them."
  },
  {
   "property": "C105",
   "status": "proved",
   "theorems": [
    "Snompy.Props.C105_order",
    "Snompy.Props.C105_loop",
    "Snompy.Props.C105_raises",
    "Snompy.Props.C105_guess",
    "Snompy.Props.C105_objective",
    "Snompy.Props.C105_recover",
    "Snompy.Props.C105_exact"
   ],
   "note": "The minimiser is a parameter; C105_recover and C105_exact assume the residual it leaves."
  },
  {
   "property": "C106",
   "status": "proved",
   "theorems": [
    "Snompy.Props.C106_approach",
    "Snompy.Props.C106_script"
   ],
   "note": "The point dipole half of the script."
  },
  {
   "property": "C107",
   "status": "proved",
   "theorems": [
    "Snompy.Props.C107_samples",
    "Snompy.Props.C107_rms",
    "Snompy.Props.C107_fdm_samples",
    "Snompy.Props.C107_pdm_samples",
    "Snompy.Props.C107_truncated",
    "Snompy.Props.C107_pdm",
    "Snompy.Props.C107_fdm",
    "Snompy.Props.C107_pdm_unique",
    "Snompy.Props.C107_fdm_unique",
    "Snompy.Props.C107_fdm_all"
   ],
   "note": "C107_fdm_all assumes that the charge d_Q1 lies below d_Q0 and g differs from r/(4L), as for the defaults."
  },
  {
   "property": "C108",
   "status": "proved",
   "theorems": [
    "Snompy.Props.C108_layered",
    "Snompy.Props.C108_bulk_iff",
    "Snompy.Props.C108_default"
   ],
   "note": "C108_bulk_iff is about the default method on a bulk sample; C108_layered about Q_ave."
  },
  {
   "property": "C109",
   "status": "proved",
   "theorems": [
    "Snompy.Props.C109_spectra",
    "Snompy.Props.C109_script"
   ],
   "note": "The conditions on the experiment (ExperimentOk) are met by the script (script_ok). That gold's harmonic is not zero is not proved, so an entry is stated as a floating point quotient."
  },
  {
   "property": "C110",
   "status": "proved",
   "theorems": [
    "Snompy.Props.C110_mean_value",
    "Snompy.Props.C110_near",
    "Snompy.Props.C110_bound",
    "Snompy.Props.C110_pdm",
    "Snompy.Props.C110_fdm",
    "Snompy.Props.C110_pdm_real",
    "Snompy.Props.C110_fdm_real"
   ],
   "note": "C110_pdm and C110_fdm are the limits of small amplitudes; C110_pdm_real and C110_fdm_real hold at every amplitude."
  },
  {
   "property": "C111",
   "status": "proved",
   "theorems": [
    "Snompy.Props.C111_surf",
    "Snompy.Props.C111_summable",
    "Snompy.Props.C111_average",
    "Snompy.Props.C111_charge"
   ],
   "note": "The film must satisfy |r rho| < 1; C111_surf states the error made by clipping q t at the logarithm of the largest double."
  },
  {
   "property": "C112",
   "status": "proved",
   "theorems": [
    "Snompy.Props.C112_commands",
    "Snompy.Props.C112_extends",
    "Snompy.Props.C112_keeps",
    "Snompy.Props.C112_replaces",
    "Snompy.Props.C112_snompy",
    "Snompy.Props.C112_build_py",
    "Snompy.Props.C112_build_ext",
    "Snompy.Props.C112_no_build",
    "Snompy.Props.C112_no_version",
    "Snompy.Props.C112_sdist",
    "Snompy.Props.C112_unpacked",
    "Snompy.Props.C112_exe",
    "Snompy.Props.C112_exe_failed",
    "Snompy.Props.C112_exe_elsewhere",
    "Snompy.Props.C112_version"
   ],
   "note": "The extended commands are arbitrary programs on the files; C112_exe_failed, C112_exe_elsewhere, C112_no_build and C112_replaces are the exceptions."
  },
  {
   "property": "C113",
   "status": "proved",
   "theorems": [
    "Snompy.Props.C113_lorentz",
    "Snompy.Props.C113_plasma",
    "Snompy.Props.C113_damped",
    "Snompy.Props.C113_drude",
    "Snompy.Props.C113_passive",
    "Snompy.Props.C113_passive_plasma",
    "Snompy.Props.C113_passive_drude",
    "Snompy.Props.C113_pole",
    "Snompy.Props.C113_cancellation"
   ],
   "note": "C113_cancellation shows that the condition number cannot be left out."
  },
  {
   "property": "C114",
   "status": "proved",
   "theorems": [
    "Snompy.Props.C114_driven",
    "Snompy.Props.C114_unique",
    "Snompy.Props.C114_kick",
    "Snompy.Props.C114_weight",
    "Snompy.Props.C114_kramers",
    "Snompy.Props.C114_work",
    "Snompy.Props.C114_drude",
    "Snompy.Props.C114_drude_work"
   ],
   "note": "The sign convention is e^(-i nu t). The undamped and the static oscillator are excluded: they do not forget their initial state."
  },
  {
   "property": "C115",
   "status": "proved",
   "theorems": [
    "Snompy.Props.C115_exchange",
    "Snompy.Props.C115_pdm",
    "Snompy.Props.C115_sphere",
    "Snompy.Props.C115_calibrate",
    "Snompy.Props.C115_fdm",
    "Snompy.Props.C115_length",
    "Snompy.Props.C115_calibrate_g"
   ],
   "note": "The growth theorems are about real g_factor, alpha_tip and beta; the exchange and the two calibrations are about all complex values."
  },
  {
   "property": "C116",
   "status": "proved",
   "theorems": [
    "Snompy.Props.C116_thin",
    "Snompy.Props.C116_average",
    "Snompy.Props.C116_one_node",
    "Snompy.Props.C116_signal",
    "Snompy.Props.C116_polariton",
    "Snompy.Props.C116_symmetric",
    "Snompy.Props.C116_dispersion"
   ],
   "note": "First order in the thickness is stated as a derivative of the returned value, which exists for all thicknesses near 0, of either sign."
  },
  {
   "property": "C117",
   "status": "proved",
   "theorems": [
    "Snompy.Props.C117_static",
    "Snompy.Props.C117_polariton",
    "Snompy.Props.C117_light_p",
    "Snompy.Props.C117_light_s",
    "Snompy.Props.C117_guided_p",
    "Snompy.Props.C117_guided_s"
   ],
   "note": "The equations are in Spec/Fields.lean. Excluded are grazing media (k = 0), in which exp(±iky) do not span the solutions. The quasistatic coefficients are those of the displacement: the potential is reflected with -r."
  },
  {
   "property": "C118",
   "status": "proved",
   "theorems": [
    "Snompy.Props.C118_image",
    "Snompy.Props.C118_where",
    "Snompy.Props.C118_sphere",
    "Snompy.Props.C118_sphere_env",
    "Snompy.Props.C118_conductor",
    "Snompy.Props.C118_pdm",
    "Snompy.Props.C118_fdm_bulk",
    "Snompy.Props.C118_fdm_average",
    "Snompy.Props.C118_fdm_multi"
   ],
   "note": "The geometry functions of the FDM are taken from the documentation. The documentation's place of potential and field of surf_pot_and_field, and the sign of the second image charge, are wrong (C118_where, C118_image)."
  },
  {
   "property": "C119",
   "status": "proved",
   "theorems": [
    "Snompy.Props.C119_single",
    "Snompy.Props.C119_demod",
    "Snompy.Props.C119_bulk",
    "Snompy.Props.C119_suspended",
    "Snompy.Props.C119_far",
    "Snompy.Props.C119_pmma"
   ],
   "note": "Two of the outputs in docs/guide are not those of the code shown (C119_far, C119_pmma). Shapes of pmma_si and pmma_si_varied are not covered."
  },
  {
   "property": "C120",
   "status": "proved",
   "theorems": [
    "Snompy.Props.C120_bulk",
    "Snompy.Props.C120_passive",
    "Snompy.Props.C120_total",
    "Snompy.Props.C120_angle",
    "Snompy.Props.C120_critical"
   ],
   "note": "C120_critical shows that the condition number cannot be left out. Multilayers are not covered."
  },
  {
   "property": "C121",
   "status": "proved",
   "theorems": [
    "Snompy.Props.C121_static",
    "Snompy.Props.C121_light_p",
    "Snompy.Props.C121_light_s",
    "Snompy.Props.C121_superlattice",
    "Snompy.Props.C121_matched"
   ],
   "note": "No rate of convergence is given."
  },
  {
   "property": "C122",
   "status": "proved",
   "theorems": [
    "Snompy.Props.C122_qs",
    "Snompy.Props.C122_above",
    "Snompy.Props.C122_image",
    "Snompy.Props.C122_fdm",
    "Snompy.Props.C122_fdm_n",
    "Snompy.Props.C122_fdm_taylor",
    "Snompy.Props.C122_fdm_inverse",
    "Snompy.Props.C122_pdm",
    "Snompy.Props.C122_pdm_n",
    "Snompy.Props.C122_pdm_taylor",
    "Snompy.Props.C122_pdm_inverse",
    "Snompy.Props.C122_light",
    "Snompy.Props.C122_jump"
   ],
   "note": "The harmonic of fdm.eff_pol_n_taylor is fixed. For refl_coef and trans_coef the media must not amplify; C122_jump shows that this is needed."
  },
  {
   "property": "C123",
   "status": "proved",
   "theorems": [
    "Snompy.Props.C123_lorentz",
    "Snompy.Props.C123_drude",
    "Snompy.Props.C123_drude_wraps",
    "Snompy.Props.C123_light",
    "Snompy.Props.C123_light_wraps",
    "Snompy.Props.C123_qs",
    "Snompy.Props.C123_qs_free",
    "Snompy.Props.C123_image",
    "Snompy.Props.C123_pdm",
    "Snompy.Props.C123_pdm_n",
    "Snompy.Props.C123_pdm_wraps",
    "Snompy.Props.C123_fdm",
    "Snompy.Props.C123_fdm_n"
   ],
   "note": "Signed integers of any width; unsigned integers and the rounding of other types are not modelled. Floats are read without rounding."
  },
  {
   "property": "C124",
   "status": "proved",
   "theorems": [
    "Snompy.Props.C124_media",
    "Snompy.Props.C124_same",
    "Snompy.Props.C124_metal",
    "Snompy.Props.C124_lossless",
    "Snompy.Props.C124_ofBeta",
    "Snompy.Props.C124_beta_eps",
    "Snompy.Props.C124_beta",
    "Snompy.Props.C124_lorentz",
    "Snompy.Props.C124_drude",
    "Snompy.Props.C124_qs",
    "Snompy.Props.C124_fdm",
    "Snompy.Props.C124_pdm"
   ],
   "note": "Values are exact; only the signs of zeros follow IEEE 754. For beta the sample has no layers and the environment is positive."
  },
  {
   "property": "C125",
   "status": "proved",
   "theorems": [
    "Snompy.Props.C125_qs",
    "Snompy.Props.C125_above",
    "Snompy.Props.C125_fdm",
    "Snompy.Props.C125_fdm_n",
    "Snompy.Props.C125_fdm_taylor",
    "Snompy.Props.C125_pdm",
    "Snompy.Props.C125_pdm_n",
    "Snompy.Props.C125_pdm_taylor",
    "Snompy.Props.C125_thickness",
    "Snompy.Props.C125_bulk_fdm",
    "Snompy.Props.C125_bulk_fdm_n",
    "Snompy.Props.C125_bulk_pdm",
    "Snompy.Props.C125_bulk_pdm_n",
    "Snompy.Props.C125_inverse",
    "Snompy.Props.C125_slope",
    "Snompy.Props.C125_light",
    "Snompy.Props.C125_multi",
    "Snompy.Props.C125_depth",
    "Snompy.Props.C125_lorentz",
    "Snompy.Props.C125_drude",
    "Snompy.Props.C125_spectrum"
   ],
   "note": "Exact arithmetic. Parameters are complex (holomorphic) or real; real arguments are constant in the complex case."
  },
  {
   "property": "C126",
   "status": "proved",
   "theorems": [
    "Snompy.Props.C126_unique",
    "Snompy.Props.C126_dielectric",
    "Snompy.Props.C126_lens",
    "Snompy.Props.C126_limit"
   ],
   "note": "Exact arithmetic; the momenta are those at which the code does not limit q * t."
  },
  {
   "property": "C127",
   "status": "proved",
   "theorems": [
    "Snompy.Props.C127_average",
    "Snompy.Props.C127_surf",
    "Snompy.Props.C127_range",
    "Snompy.Props.C127_dielectric",
    "Snompy.Props.C127_fdm"
   ],
   "note": "Exact arithmetic. The far-height theorems need no bound on the exponents; C127_range needs the heights to be above one at which no exponent is limited."
  },
  {
   "property": "C128",
   "status": "proved",
   "theorems": [
    "Snompy.Props.C128_pdm",
    "Snompy.Props.C128_two_heights",
    "Snompy.Props.C128_blind",
    "Snompy.Props.C128_lorentz",
    "Snompy.Props.C128_sign",
    "Snompy.Props.C128_spectrum"
   ],
   "note": "Exact arithmetic. Five frequencies are sufficient; that fewer are not is not claimed."
  },
  {
   "property": "C129",
   "status": "proved",
   "theorems": [
    "Snompy.Props.C129_film",
    "Snompy.Props.C129_tip",
    "Snompy.Props.C129_harmonics",
    "Snompy.Props.C129_default",
    "Snompy.Props.C129_layers",
    "Snompy.Props.C129_layers_harmonics"
   ],
   "note": "Real permittivities increasing with depth, within the Moderate range; absorbing or decreasing layers are not covered. The nodes and weights of the computed average are the exact ones rounded to double; errors numpy makes in computing them are not included."
  },
  {
   "property": "C130",
   "status": "proved",
   "theorems": [
    "Snompy.Props.C130_nodes",
    "Snompy.Props.C130_bounds",
    "Snompy.Props.C130_unique",
    "Snompy.Props.C130_average",
    "Snompy.Props.C130_surface"
   ],
   "note": "Exact arithmetic. Uniqueness is stated for ascending nodes."
  },
  {
   "property": "C131",
   "status": "proved",
   "theorems": [
    "Snompy.Props.C131_signal",
    "Snompy.Props.C131_model",
    "Snompy.Props.C131_average",
    "Snompy.Props.C131_image",
    "Snompy.Props.C131_passive",
    "Snompy.Props.C131_default"
   ],
   "note": "Exact arithmetic. At the clipping point of q·t the signal has a kink, so the rate is not claimed there."
  },
  {
   "property": "C132",
   "status": "proved",
   "theorems": [
    "Snompy.Props.C132_reflection",
    "Snompy.Props.C132_average",
    "Snompy.Props.C132_image",
    "Snompy.Props.C132_number",
    "Snompy.Props.C132_demod",
    "Snompy.Props.C132_default"
   ],
   "note": "Exact arithmetic and real permittivities in increasing order. The upper bounds for the image need a first layer denser than the environment."
  },
  {
   "property": "C133",
   "status": "proved",
   "theorems": [
    "Snompy.Props.C133_reflection",
    "Snompy.Props.C133_between",
    "Snompy.Props.C133_surface",
    "Snompy.Props.C133_tip",
    "Snompy.Props.C133_thickness"
   ],
   "note": "Exact arithmetic and real permittivities. The claim about thicknesses needs the increasing order; image_depth_and_charge and the method multi are not covered."
  },
  {
   "property": "C134",
   "status": "proved",
   "theorems": [
    "Snompy.Props.C134_reflection",
    "Snompy.Props.C134_average",
    "Snompy.Props.C134_image",
    "Snompy.Props.C134_number",
    "Snompy.Props.C134_demod",
    "Snompy.Props.C134_default"
   ],
   "note": "Exact arithmetic and real permittivities. The convergence claims assume that the clip of the hyperbolic functions is inactive at all heights of the oscillation."
  }
 ]
}