{
 "claims": [
  {
   "property": "C01",
   "status": "proved",
   "theorems": [
    "C01_normalize_unit",
    "C01_normalize_unique",
    "C01_normalize_zero",
    "C01_normalize_idem",
    "C01_length"
   ],
   "note": "Real arithmetic."
  },
  {
   "property": "C02",
   "status": "proved",
   "theorems": [
    "CVec.C02_setters",
    "CVec.C02_addScalar",
    "C02_ofList_iff",
    "C02_ofList_error",
    "C02_roundtrip",
    "C02_index",
    "C02_index_other",
    "C02_div_error_iff",
    "C02_div_mul"
   ],
   "note": "Domain and round trip for every scalar type; division law over the reals. The setters and the addition of a scalar are exact for every scalar type (Small.lean)."
  },
  {
   "property": "C03",
   "status": "proved",
   "theorems": [
    "ScalarDriver.C03_factory",
    "ScalarDriver.C03_value",
    "ScalarDriver.C03_window"
   ],
   "note": "For every scalar type; closed-window form over the reals."
  },
  {
   "property": "C04",
   "status": "proved",
   "theorems": [
    "ScalarDriver.C04_value",
    "ScalarDriver.C04_periodic",
    "ScalarDriver.C04_factory",
    "ScalarDriver.C04_negative_time"
   ],
   "note": "Real arithmetic; for fewer than 2^31 elapsed periods (beyond that the C++ int cast is undefined)."
  },
  {
   "property": "C05",
   "status": "proved",
   "theorems": [
    "ScalarDriver.C05_value",
    "ScalarDriver.C05_continuous",
    "ScalarDriver.C05_bounds",
    "ScalarDriver.C05_outside_plateau"
   ],
   "note": "Real arithmetic."
  },
  {
   "property": "C06",
   "status": "proved",
   "theorems": [
    "ScalarDriver.C06_sine",
    "ScalarDriver.C06_posine",
    "ScalarDriver.C06_halfsine",
    "ScalarDriver.C06_periodic",
    "ScalarDriver.C06_factories"
   ],
   "note": "Real arithmetic."
  },
  {
   "property": "C07",
   "status": "partial",
   "theorems": [
    "ScalarDriver.C07_impulse_value",
    "ScalarDriver.C07_impulse_shape",
    "ScalarDriver.C07_impulse_decay",
    "ScalarDriver.C07_gaussianStep_refuted",
    "ScalarDriver.C07_gaussStep_branch_partial"
   ],
   "note": "Impulse half proved. The step half is false of the code: getGaussianStepDriver builds an impulse (C07_gaussianStep_refuted); the erf evaluation branch itself is correct (C07_gaussStep_branch_partial)."
  },
  {
   "property": "C08",
   "status": "partial",
   "theorems": [
    "ScalarDriver.C08_forms_agree",
    "ScalarDriver.C08_frame",
    "ScalarDriver.C08_scale_partial",
    "ScalarDriver.C08_negative_refuted",
    "ScalarDriver.C08_shift_sine",
    "ScalarDriver.C08_offset"
   ],
   "note": "Operator forms and frame proved for every scalar type. The scaling law holds for all kinds and non-negative factors, and for all factors on non-rectified kinds; it is false for negative factors on posine and halfsine (C08_negative_refuted). Changing the constant shifts every kind by the difference (C08_offset)."
  },
  {
   "property": "C09",
   "status": "proved",
   "theorems": [
    "AxialDriver.C09_componentwise",
    "AxialDriver.C09_uniaxial",
    "AxialDriver.C09_constant",
    "AxialDriver.C09_ofList",
    "AxialDriver.C09_mask_binary",
    "AxialDriver.C09_mask_error_iff",
    "AxialDriver.C09_mask_half_applied",
    "AxialDriver.C09_scalars",
    "AxialDriver.C09_mask_vector",
    "AxialDriver.C09_mask_vector_error"
   ],
   "note": "Every scalar type. A raising mask call leaves the driver half masked (C09_mask_half_applied). Constants set by scalars and masks given as vectors are covered by C09_scalars and C09_mask_vector."
  },
  {
   "property": "C10",
   "status": "proved",
   "theorems": [
    "Layer.C10_torque_orthogonal",
    "Layer.C10_torque_orthogonal_dipole",
    "Layer.C10_evaluates_iff"
   ],
   "note": "Real arithmetic; plain, STT and SOT layers, with and without injected stray field."
  },
  {
   "property": "C11",
   "status": "proved",
   "theorems": [
    "Layer.C11_dissipation",
    "Layer.C11_projection_nondecreasing",
    "Layer.C11_conservative",
    "Layer.C11_stationary_iff"
   ],
   "note": "Real arithmetic."
  },
  {
   "property": "C12",
   "status": "proved",
   "theorems": [
    "Layer.C12_stt_zero_current",
    "Layer.C12_stt_zero_polarisation",
    "Layer.C12_sot_dynamic_zero",
    "Layer.C12_sot_static_zero_current",
    "Layer.C12_zero_reference",
    "Layer.C12_sot_is_effective_field"
   ],
   "note": "Real arithmetic."
  },
  {
   "property": "C13",
   "status": "partial",
   "theorems": [
    "Layer.C13_iec_torques_cancel",
    "Layer.C13_iec_gradient_first",
    "Layer.C13_iec_gradient_second",
    "Layer.C13_pair_torques_cancel",
    "Layer.C13_idmi_refuted",
    "Layer.C13_idmi_antisymmetric_partial"
   ],
   "note": "Exchange half proved. The DMI half is false of the code: both layers get the same D, so no common energy exists (C13_idmi_refuted); with opposite D it would hold (C13_idmi_antisymmetric_partial)."
  },
  {
   "property": "C14",
   "status": "proved",
   "theorems": [
    "Layer.C14_sum",
    "Layer.C14_external",
    "Layer.C14_oersted",
    "Layer.C14_dmi",
    "Layer.C14_reserved",
    "Layer.C14_anisotropy",
    "Layer.C14_iecBottom",
    "Layer.C14_iecTop",
    "Layer.C14_quadBottom",
    "Layer.C14_quadTop",
    "Layer.C14_idmiBottom",
    "Layer.C14_idmiTop",
    "Layer.C14_others"
   ],
   "note": "Real arithmetic; sum, each driver's contribution, and drivers that do not enter."
  },
  {
   "property": "C15",
   "status": "proved",
   "theorems": [
    "Junction.C15_step",
    "Junction.C15_run",
    "Junction.C15_magnetoresistance"
   ],
   "note": "Real arithmetic; all solvers, STT/SOT, thermal noise with rotated draws; 1/f noise off."
  },
  {
   "property": "C16",
   "status": "proved",
   "theorems": [
    "Junction.C16_step",
    "Junction.C16_single_only_alone",
    "Junction.C16_run",
    "Junction.C16_eulerHeun_unit",
    "Junction.C16_heun_unit",
    "Junction.C16_rk4_unit"
   ],
   "note": "Real arithmetic; all runners and whole runs, any noise stream; a single-layer step only touches a lone layer (C16_single_only_alone)."
  },
  {
   "property": "C17",
   "status": "partial",
   "theorems": [
    "Layer.C17_setMagnetisation",
    "Layer.C17_constructor_refuted",
    "Layer.C17_constructors_partial",
    "Junction.C17_setLayerMagnetisation"
   ],
   "note": "setMagnetisation and setLayerMagnetisation proved. Constructors reject the zero vector but store the given vector without normalising it (C17_constructor_refuted); C17_constructors_partial states what they do."
  },
  {
   "property": "C18",
   "status": "proved",
   "theorems": [
    "Junction.C18_steps",
    "Junction.C18_run",
    "Junction.C18_constant_drivers"
   ],
   "note": "Real arithmetic; RK4, Heun, Euler-Heun; steps and whole runs."
  },
  {
   "property": "C19",
   "status": "proved",
   "theorems": [
    "Junction.C19_step",
    "Junction.C19_only_neighbours",
    "Junction.C19_eulerHeun",
    "Junction.C19_order"
   ],
   "note": "Every scalar type; any update order."
  },
  {
   "property": "C20",
   "status": "partial",
   "theorems": [
    "Junction.C20_step",
    "Junction.C20_steps",
    "Junction.C20_run_partial",
    "Junction.C20_refuted"
   ],
   "note": "Proved at step level, and at run level when Heun or Euler-Heun is requested or the layers are all noisy or all quiet. False as stated: a noisy neighbour changes the integrator of quiet layers when RK4 is requested (C20_refuted)."
  },
  {
   "property": "C21",
   "status": "partial",
   "theorems": [
    "Junction.C21_setters",
    "Junction.C21_torque_setters",
    "Junction.C21_magnetisation",
    "Junction.C21_not_found",
    "Junction.C21_first_match_partial",
    "Junction.C21_getters",
    "Junction.C21_first_match_refuted"
   ],
   "note": "Every scalar type. All id-addressed setters act on exactly the addressed layers; not-found raises unchanged for all 15. The four setters going through getLayer reach only the first layer of a repeated id (C21_first_match_refuted)."
  },
  {
   "property": "C22",
   "status": "partial",
   "theorems": [
    "Junction.C22_unchanged_partial",
    "Junction.C22_torque_dynamics_partial",
    "Junction.C22_torque_refuted",
    "Junction.C22_torque_all_refuted",
    "Junction.C22_reference_refuted"
   ],
   "note": "Every scalar type. Holds for all setters except the SOT torque setters and setLayerReferenceType('all', FIXED), for which it is refuted (C22_torque_refuted, C22_torque_all_refuted, C22_reference_refuted)."
  },
  {
   "property": "C23",
   "status": "proved",
   "theorems": [
    "Junction.C23_symmetric",
    "Junction.C23_adjacent",
    "Junction.C23_not_adjacent"
   ],
   "note": "Every scalar type."
  },
  {
   "property": "C24",
   "status": "proved",
   "theorems": [
    "Junction.C24_plain",
    "Junction.C24_classic",
    "Junction.C24_classic_fields",
    "Junction.C24_strip",
    "Junction.C24_empty",
    "Junction.C24_read"
   ],
   "note": "Every scalar type (the reference check over the reals); reading after any sequence of calls."
  },
  {
   "property": "C25",
   "status": "proved",
   "theorems": [
    "Junction.C25_formula",
    "Junction.C25_bounds",
    "Junction.C25_monotone",
    "Junction.C25_angle_range"
   ],
   "note": "Real arithmetic."
  },
  {
   "property": "C26",
   "status": "proved",
   "theorems": [
    "Junction.C26_parallel",
    "Junction.C26_bounds",
    "Junction.C26_single"
   ],
   "note": "Real arithmetic."
  },
  {
   "property": "C27",
   "status": "proved",
   "theorems": [
    "Junction.C27_run",
    "Junction.C27_resistance",
    "Junction.C27_sample_steps",
    "Junction.C27_count",
    "Junction.C27_refuses",
    "Junction.C27_real",
    "Junction.C27_completes_any",
    "Junction.C27_completes"
   ],
   "note": "Structure for every scalar type; counts over the reals."
  },
  {
   "property": "C28",
   "status": "partial",
   "theorems": [
    "Junction.C28_aligned",
    "Junction.C28_energies_partial",
    "Junction.C28_save",
    "Junction.C28_current_doubled",
    "Junction.C28_refuted",
    "Junction.C28_toggle_refuted",
    "Junction.C28_ids_needed"
   ],
   "note": "Proved for all histories without energy logging (and with, when no torque is configured, C28_energies_partial). With energy logging and a torque the current column is pushed twice per row (C28_current_doubled, C28_refuted); toggling energy logging misaligns (C28_toggle_refuted); distinct ids are needed (C28_ids_needed)."
  },
  {
   "property": "C29",
   "status": "partial",
   "theorems": [
    "LLGBJunction.C29_llgb_clear",
    "LLGBJunction.C29_llgb",
    "LLGBJunction.C29_llgb_succeeds",
    "LLGBJunction.C29_llgb_real",
    "Junction.C29_split",
    "Junction.C29_join",
    "Junction.C29_real",
    "Junction.C29_restart",
    "Junction.C29_needs_time_independence"
   ],
   "note": "Every scalar type (C29_real over the reals). Proved for noise-free junctions with time-independent drivers, in both directions; every run restarts the clock (C29_restart), so the law fails with time-dependent drivers (C29_needs_time_independence). LLGB junctions keep the clock: the law holds for all drivers and noise (C29_llgb, C29_llgb_real) unless the log is cleared in between, which also resets the clock (C29_llgb_clear)."
  },
  {
   "property": "C30",
   "status": "proved",
   "theorems": [
    "Junction.C30_append",
    "Junction.C30_clear",
    "Junction.C30_prefix"
   ],
   "note": "Every scalar type."
  },
  {
   "property": "C31",
   "status": "proved",
   "theorems": [
    "Junction.C31_integrator",
    "Junction.C31_dormand_prince",
    "Junction.C31_noisy"
   ],
   "note": "Every scalar type; integrator selected and integrator executed."
  },
  {
   "property": "C32",
   "status": "partial",
   "theorems": [
    "Junction.C32_deterministic",
    "Junction.C32_quiet_layers",
    "Junction.C32_oneF",
    "Junction.C32_nonstochastic_partial",
    "Junction.C32_nonstochastic_refuted"
   ],
   "note": "Every scalar type. Outcome, log and magnetisations do not depend on generators that are not used; setLayerOneFNoise never has an influence. The non-stochastic Langevin driver has none on layers without temperature (C32_nonstochastic_partial); on others it removes the temperature (C32_nonstochastic_refuted)."
  },
  {
   "property": "C33",
   "status": "proved",
   "theorems": [
    "Layer.C33_formula",
    "Layer.C33_error_iff",
    "Layer.C33_monotone",
    "Layer.C33_zero_temperature",
    "Layer.C33_vector",
    "Layer.C33_vector_refuses",
    "Layer.C33_vector_cold",
    "Layer.C33_torque_orthogonal",
    "Layer.C33_torque_is_llg",
    "Layer.C33_volume",
    "Junction.C33_steps_refuse"
   ],
   "note": "Real arithmetic. The volume is surface times thickness for every constructor; the stochastic torque equals the torque that the LLG equation gives to the noise field."
  },
  {
   "property": "C34",
   "status": "proved",
   "theorems": [
    "Stack.C34_magnetisation",
    "Stack.C34_completes",
    "Stack.C34_constructor",
    "Stack.C34_couplings",
    "Stack.C34_delayed",
    "Stack.C34_index",
    "Stack.C34_reachable"
   ],
   "note": "Every scalar type. Exact acceptance conditions of the constructor, coupling vector, non-delayed mode and member index; they remain true after any history (C34_reachable); a run that meets the stated conditions never raises (C34_completes)."
  },
  {
   "property": "C35",
   "status": "partial",
   "theorems": [
    "Stack.C35_common_reference",
    "Stack.C35_delayed",
    "Stack.C35_direct",
    "Stack.C35_run",
    "Stack.C35_zero_coupling",
    "Stack.C35_value_partial"
   ],
   "note": "Run level, real arithmetic: at each step every member carries the stack driver scaled by the product of the coupling factors of the previous junctions, computed from that step's reference magnetisations. The log's I columns record the driver's value times that product only where the driver scales linearly (C35_value_partial): rectified drivers with a negative factor do not (see C08)."
  },
  {
   "property": "C36",
   "status": "proved",
   "theorems": [
    "Stack.C36_run",
    "Stack.C36_formula",
    "Stack.C36_bounds"
   ],
   "note": "Formula for any number of junctions; bounds and series > parallel for positive resistances; every logged stack resistance of a run is the combination of the members' resistances at that step (C36_run)."
  },
  {
   "property": "C37",
   "status": "partial",
   "theorems": [
    "Stack.C37_independent_partial",
    "Stack.C37_mixed_refuted"
   ],
   "note": "Real arithmetic, stacks whose members all have the same number of layers. Missing: mixed layer counts, for which it is false (C37_mixed_refuted): the integrator selected for the last junction is used for all members."
  },
  {
   "property": "C38",
   "status": "proved",
   "theorems": [
    "Stack.C38_aligned",
    "Stack.C38_rows",
    "Stack.C38_save",
    "Stack.C38_members",
    "Stack.C38_time"
   ],
   "note": "Every scalar type, all histories, failing calls included: columns and their names, row counts of stack and members, saving never reads out of range, members' own logs aligned; the time column (real arithmetic)."
  },
  {
   "property": "C39",
   "status": "partial",
   "theorems": [
    "GroupInteraction.C39_completes",
    "GroupInteraction.C39_apart",
    "GroupInteraction.C39_order_refuted",
    "GroupInteraction.C39_step_order",
    "GroupInteraction.C39_order_partial",
    "GroupInteraction.C39_accepted",
    "GroupInteraction.C39_accepted_real",
    "GroupInteraction.C39_simultaneous",
    "GroupInteraction.C39_blind"
   ],
   "note": "Acceptance and simultaneity: every scalar type, every interaction function. Order independence of a whole run: real arithmetic, members with equal numbers of layers (C39_order_partial). Missing: mixed layer counts, where it is false (C39_order_refuted): the integrator of the last junction is used for all. Distances below 1e-10 pass the constructor and raise at run time (C39_apart)."
  },
  {
   "property": "C40",
   "status": "partial",
   "theorems": [
    "GroupInteraction.C40_mixed_refuted",
    "GroupInteraction.C40_independent_partial"
   ],
   "note": "Real arithmetic, whole runs, members with equal numbers of layers and no user-set reserved field. Missing: mixed layer counts, where it is false (C40_mixed_refuted)."
  },
  {
   "property": "C41",
   "status": "partial",
   "theorems": [
    "Dipole.C41_tensor_function",
    "Dipole.C41_default_function",
    "Dipole.C41_agreement_refuted",
    "Dipole.C41_physical",
    "Dipole.C41_tensor"
   ],
   "note": "Linearity, reciprocity, symmetry, tracelessness, evenness, cubic decay and translation invariance proved for both functions at distances of at least 1e-10; closer points raise. Agreement of the two functions is false: the default one is 4 pi times larger (C41_default_function, C41_agreement_refuted)."
  },
  {
   "property": "C42",
   "status": "partial",
   "theorems": [
    "Reservoir.C42_constructor",
    "Reservoir.C42_step_actual",
    "Reservoir.C42_last_partial",
    "Reservoir.C42_last_ignored",
    "Reservoir.C42_refuted"
   ],
   "note": "After any client program: the field of every element in closed form (C42_step_actual), all from the state before the step. It is the right one for the last element only (C42_last_partial); for the others tensors and magnetisations are misaligned (C42_refuted), the last element acts on nobody (C42_last_ignored). Which reservoirs can be built: C42_constructor."
  },
  {
   "property": "C43",
   "status": "partial",
   "theorems": [
    "LLGBLayer.C43_coefficients",
    "LLGBLayer.C43_below",
    "LLGBLayer.C43_above",
    "LLGBLayer.C43_longitudinal",
    "LLGBLayer.C43_field",
    "LLGBLayer.C43_equation",
    "LLGBLayer.C43_length_rate",
    "LLGBLayer.C43_relaxes_partial",
    "LLGBLayer.C43_equilibrium",
    "LLGBLayer.C43_paramagnetic",
    "LLGBLayer.C43_zero_temperature"
   ],
   "note": "All over the reals for positive temperature, damping, susceptibility. At zero temperature the longitudinal coefficient vanishes and the length is stationary at every value (C43_zero_temperature), so growth towards equilibrium needs T > 0."
  },
  {
   "property": "C44",
   "status": "partial",
   "theorems": [
    "LLGBJunction.C44_fields_vanish",
    "LLGBJunction.C44_noise_ignored",
    "LLGBJunction.C44_refuted"
   ],
   "note": "False: both thermal fields are multiplied by zero (C44_fields_vanish); replacing the noise changes no outcome, magnetisation or log (C44_noise_ignored, C44_refuted)."
  },
  {
   "property": "C45",
   "status": "partial",
   "theorems": [
    "LLGB.C45_stops",
    "LLGB.C45_reported",
    "LLGB.C45_no_iterations",
    "LLGB.C45_self_consistent_partial"
   ],
   "note": "Termination within the limit, the returned value is an iterate and the reported error the last increment (C45_stops, C45_reported), distance to its image (C45_self_consistent_partial). With a zero iteration limit the reported error is 0 although nothing was computed (C45_no_iterations)."
  },
  {
   "property": "C46",
   "status": "partial",
   "theorems": [
    "BufferedAlphaNoise.C46_nth",
    "BufferedAlphaNoise.C46_refills",
    "BufferedAlphaNoise.C46_manual_fill",
    "BufferedAlphaNoise.C46_zero_refuted"
   ],
   "note": "Every clause for positive sizes (C46_nth, C46_refills, C46_manual_fill), every scalar type and any content of the buffers. The last clause is false: a zero size is not rejected, the constructor writes element 0 of an empty buffer (undefined behaviour, C46_zero_refuted)."
  },
  {
   "property": "C47",
   "status": "proved",
   "theorems": [
    "VectorAlphaNoise.C47_scalar",
    "VectorAlphaNoise.C47_axis_none",
    "VectorAlphaNoise.C47_previous",
    "VectorAlphaNoise.C47_one_axis",
    "VectorAlphaNoise.C47_all_axes",
    "OneFNoise.C47_oneF",
    "OneFNoise.C47_oneF_touches",
    "PinkNoise.C47_pink"
   ],
   "note": "Over the reals. Axis none is rejected by the constructor; a layer calls it only when a run starts."
  },
  {
   "property": "C48",
   "status": "proved",
   "theorems": [
    "VectorObj.C48_cartesian",
    "VectorObj.C48_cvector",
    "VectorObj.C48_equal",
    "VectorObj.C48_spherical",
    "VectorObj.C48_range",
    "VectorObj.C48_norm",
    "VectorObj.C48_arith",
    "PyGeneral.C48_box_muller"
   ],
   "note": "Over the reals; atan2 is Complex.arg. Includes the exact range of the angles, the scaling law of the arithmetic operators and the Box-Muller radius. Equality and hashing of VectorObj are not part of the claim."
  },
  {
   "property": "C49",
   "status": "proved",
   "theorems": [
    "FieldScan.C49_unit",
    "FieldScan.C49_vector",
    "FieldScan.C49_to_angles",
    "FieldScan.C49_from_angles",
    "FieldScan.C49_span",
    "FieldScan.C49_amplitude",
    "FieldScan.C49_back",
    "FieldScan.C49_theta",
    "FieldScan.C49_phi"
   ],
   "note": "Over the reals, for every number of points. FieldScan's ranges are the palindromic or linear grids; the zero-angle and back-and-forth cases are separate theorems."
  },
  {
   "property": "C50",
   "status": "partial",
   "theorems": [
    "PyResistance.C50_gmr_partial",
    "PyResistance.C50_extremes",
    "PyResistance.C50_sign_refuted",
    "PyResistance.C50_layers",
    "PyResistance.C50_angular",
    "PyResistance.C50_polar_refuted",
    "PyResistance.C50_linearised_refuted"
   ],
   "note": "compute_gmr agrees with the C++ junction and with the cosine law (C50_gmr_partial, C50_extremes); the angular form is compute_gmr at elevation angles (C50_angular). The full claim is false: calculate_magnetoresistance has the wrong sign, the angular helper does not use the polar convention of VectorObj, the linearised vectors have a wrong sign (the three _refuted theorems)."
  },
  {
   "property": "C51",
   "status": "partial",
   "theorems": [
    "PyParallel.C51_distribute_partial",
    "PyParallel.C51_values",
    "PyParallel.C51_repeated_refuted"
   ],
   "note": "Proved for spaces without repeated values, every shuffle and every completion order; the number of results and that each value belongs to its index for all spaces (C51_values). False when a space repeats a value (C51_repeated_refuted). Values are compared with a decidable equality, so NaN is excluded."
  },
  {
   "property": "C52",
   "status": "partial",
   "theorems": [
    "PyOptim.C52_best",
    "PyOptim.C52_params_partial",
    "PyOptim.C52_params_refuted"
   ],
   "note": "The score is proved (C52_best). The parameters are not those of the score: the returned dict is overwritten by later trial values (C52_params_refuted); C52_params_partial says exactly what is returned. Scores are linearly ordered, so NaN is excluded."
  },
  {
   "property": "C53",
   "status": "proved",
   "theorems": [
    "RootFinder.C53_sound",
    "RootFinder.C53_separated",
    "RootFinder.C53_complete",
    "RootFinder.C53_skip",
    "RootFinder.C53_reuse_refuted"
   ],
   "note": "For every solver behaviour; soundness for every scalar type. C53_complete says which starts are tried and that reported roots are kept; C53_skip and C53_reuse_refuted record that a report outside the interval ends the search and that roots of earlier calls are returned again."
  },
  {
   "property": "C54",
   "status": "proved",
   "theorems": [
    "Ensemble.C54_symmetric",
    "Ensemble.C54_antisymmetric",
    "Ensemble.C54_mixed"
   ],
   "note": "Over the reals, non-zero width."
  },
  {
   "property": "C55",
   "status": "proved",
   "theorems": [
    "SB.C55_accept",
    "SB.C55_ten",
    "SB.C55_references",
    "SB.C55_mutual",
    "SB.C55_symbols"
   ],
   "note": "Ten layers at most (`C55_ten`): larger ids are refused."
  },
  {
   "property": "C56",
   "status": "partial",
   "theorems": [
    "SB.C56_hermitian",
    "SB.C56_entries",
    "SB.C56_uncoupled",
    "SB.C56_single",
    "SB.C56_kittel",
    "SB.C56_resonance_partial",
    "SB.C56_thickness_refuted",
    "SB.C56_choice"
   ],
   "note": "Hermitian structure, entries, decoupling and the single-layer frequency are proved over the reals; the thickness clause is refuted for single_layer_resonance, which multiplies by the thickness."
  },
  {
   "property": "C57",
   "status": "proved",
   "theorems": [
    "SB.C57_adam",
    "SB.C57_adam_count",
    "SB.C57_adam_rest",
    "SB.C57_amsgrad",
    "SB.C57_amsgrad_count",
    "SB.C57_amsgrad_rest"
   ],
   "note": "Over the reals; positions, gradient and noise of one length. The iteration is compared with closed sums of the gradients."
  },
  {
   "property": "C58",
   "status": "partial",
   "theorems": [
    "Oersted.C58_field",
    "Oersted.C58_others",
    "Oersted.C58_total_partial",
    "Oersted.C58_total_refuted",
    "Oersted.C58_default_region_refuted",
    "Oersted.C58_coordinates",
    "Oersted.C58_compute_ok",
    "Oersted.C58_biot_savart_refuted",
    "Oersted.C58_element",
    "Oersted.C58_again"
   ],
   "note": "Over the reals. Only the blocks of the region change, all to the same current (C58_others); fields are the sum over all other blocks (C58_field), computing never fails on a structure made by the constructor (C58_compute_ok) and adds again when repeated (C58_again). The total is right for regions that reach the top (C58_total_partial) and wrong for every other region (C58_total_refuted); the default upper end of set_region_I raises (C58_default_region_refuted). Indices are natural numbers. With the method biot-savart every structure of more than one cell in depth raises (C58_biot_savart_refuted)."
  },
  {
   "property": "C59",
   "status": "partial",
   "theorems": [
    "Domain.C59_rows",
    "Domain.C59_first_partial",
    "Domain.C59_second_refuted"
   ],
   "note": "The log has one row per layer and step with that layer's own columns (C59_rows); the velocity is right for the first layer (C59_first_partial) and, for the second, only when the old width of the first wall equals the old position (C59_second_refuted). The integrator is an arbitrary sequence of steps."
  },
  {
   "property": "C60",
   "status": "proved",
   "theorems": [
    "Filters.C60_rows",
    "Filters.C60_columns"
   ],
   "note": "Over the reals; the median is specified by order statistics, independently of sorting. Matrices with at least one row (columns) and one column (rows)."
  },
  {
   "property": "C61",
   "status": "proved",
   "theorems": [
    "PyResistance.C61_circuit",
    "PyResistance.C61_errors",
    "PyResistance.C61_strip"
   ],
   "note": "Over the reals, any number of layers and samples; agreement with the C++ strip model for equal geometry factors; exceptions for zero length and short lists."
  },
  {
   "property": "C62",
   "status": "partial",
   "theorems": [
    "PyPlotting.C62_cells_partial",
    "PyPlotting.C62_one_axis_partial",
    "PyPlotting.C62_diagonal_refuted",
    "PyPlotting.C62_lengths_refuted"
   ],
   "note": "Proved for one axis. For more axes exactly the cells with pairwise different indices are listed (C62_cells_partial), so the claim is false (C62_diagonal_refuted); axes of different lengths raise (C62_lengths_refuted)."
  },
  {
   "property": "C63",
   "status": "partial",
   "theorems": [
    "Proc.C63_partial",
    "Proc.C63_one_layer",
    "Proc.C63_refuted"
   ],
   "note": "Proved for classic junctions of two layers (`C63_partial`); refuted for one layer, whose column is \"R\" while the procedure reads \"Resistance\" (`C63_refuted`, and for all one-layer junctions `C63_one_layer`)."
  },
  {
   "property": "C64",
   "status": "partial",
   "theorems": [
    "Reservoir.C64_group",
    "Reservoir.C64_reservoir_actual",
    "Reservoir.C64_refuted"
   ],
   "note": "False: the group adds the dipole field (C64_group), the reservoir subtracts the same field (C64_reservoir_actual, C64_refuted)."
  },
  {
   "property": "C65",
   "status": "proved",
   "theorems": [
    "LLGB.C65_langevin",
    "LLGB.C65_derivative",
    "LLGB.C65_slope",
    "LLGB.C65_range",
    "LLGB.C65_monotone",
    "LLGB.C65_curie"
   ],
   "note": "Over the reals, for positive arguments (the code divides by the argument)."
  },
  {
   "property": "C66",
   "status": "partial",
   "theorems": [
    "LLGBJunction.C66_aligned",
    "LLGBJunction.C66_save",
    "LLGBJunction.C66_clear",
    "LLGBJunction.C66_run",
    "LLGBJunction.C66_recorded_eulerHeun_partial",
    "LLGBJunction.C66_recorded_heun",
    "LLGBJunction.C66_recorded_refuted",
    "LLGBJunction.C66_alphas_heun",
    "LLGBJunction.C66_alphas_eulerHeun"
   ],
   "note": "Every scalar type, all id strings. The last clause is false for the Heun solver: temperature and anisotropy columns are one step ahead of the time column (C66_recorded_heun, C66_recorded_refuted); it holds for Euler-Heun (C66_recorded_eulerHeun_partial). The damping columns: C66_alphas_heun, C66_alphas_eulerHeun (the perpendicular one is a step ahead even for Euler-Heun)."
  },
  {
   "property": "C67",
   "status": "proved",
   "theorems": [
    "LLGBJunction.C67_reaches",
    "LLGBJunction.C67_unknown"
   ],
   "note": "Every scalar type."
  },
  {
   "property": "C70",
   "status": "partial",
   "theorems": [
    "AlphaFilter.C70_weights",
    "AlphaFilter.C70_special",
    "AlphaFilter.C70_actual",
    "AlphaFilter.C70_linear",
    "AlphaFilter.C70_refuted"
   ],
   "note": "False as stated: C70_refuted (an impulse with alpha = 0 does not come out as it went in). Proved: weights of the filter (C70_weights, C70_special), what the buffer holds (C70_actual), linearity (C70_linear). The FFT library is modelled by the sums that define the transform."
  },
  {
   "property": "C68",
   "status": "proved",
   "theorems": [
    "GroupInteraction.C68_shape",
    "GroupInteraction.C68_aligned",
    "GroupInteraction.C68_clear",
    "GroupInteraction.C68_getLog",
    "GroupInteraction.C68_run"
   ],
   "note": "Every scalar type and interaction function. Alignment for members with distinct layer ids whose own runs logged no energies (see C28)."
  },
  {
   "property": "C69",
   "status": "proved",
   "theorems": [
    "Reservoir.C69_aligned",
    "Reservoir.C69_names",
    "Reservoir.C69_run",
    "Reservoir.C69_all",
    "Reservoir.C69_one",
    "Reservoir.C69_get_clear",
    "Reservoir.C69_save"
   ],
   "note": "Every scalar type, after any client program including failing calls."
  },
  {
   "property": "C71",
   "status": "proved",
   "theorems": [
    "PyResistance.C71_series",
    "PyResistance.C71_parallel",
    "PyResistance.C71_denominator",
    "PyResistance.C71_circuits"
   ],
   "note": "Directional derivative of the expression as it is in the code (which itself has a wrong sign, see C50)."
  },
  {
   "property": "C72",
   "status": "proved",
   "theorems": [
    "Ensemble.C72_meinert"
   ],
   "note": "Over the reals."
  },
  {
   "property": "C73",
   "status": "partial",
   "theorems": [
    "Oersted.C73_centres_refuted"
   ],
   "note": "False: centres are put at (k+1)d/2, so every distance is half the true one and every field doubled (C73_centres_refuted). The cell centres are specified as (k+1/2)d."
  },
  {
   "property": "C74",
   "status": "proved",
   "theorems": [
    "Oersted.C74_regions"
   ],
   "note": "Over the reals, for structures with one block per cell and no two blocks at the same place (which C58_compute_ok shows for constructed ones)."
  },
  {
   "property": "C75",
   "status": "proved",
   "theorems": [
    "Domain.C75_two_walls",
    "Domain.C75_walker",
    "Domain.C75_steady",
    "Domain.C75_spin_transfer",
    "Domain.C75_current",
    "Domain.C75_constructor",
    "Domain.C75_rest",
    "Domain.C75_width",
    "Domain.C75_coupling",
    "Domain.C75_contribution"
   ],
   "note": "Over the reals; current zero for the Walker velocity. The interlayer term is weighted with Ms, thickness, 1+alpha^2 and the inverse width. get_field_contribution, which nothing calls, agrees with the equations for Q = 1 (C75_contribution)."
  },
  {
   "property": "C76",
   "status": "partial",
   "theorems": [
    "Domain.C76_edge",
    "Domain.C76_pinning_refuted",
    "Domain.C76_period"
   ],
   "note": "Edge field and periodicity proved. The pinning field is the period times that of the potential (C76_pinning_refuted)."
  },
  {
   "property": "C77",
   "status": "proved",
   "theorems": [
    "LLGBLayer.C77_constructor",
    "LLGBJunction.C77_heun",
    "LLGBJunction.C77_eulerHeun",
    "LLGBJunction.C77_modes"
   ],
   "note": "Over the reals; the thermal fields are zero (C44)."
  },
  {
   "property": "C78",
   "status": "proved",
   "theorems": [
    "SB.C78_energy"
   ],
   "note": "Over the reals."
  },
  {
   "property": "C79",
   "status": "proved",
   "theorems": [
    "SB.C79_own"
   ],
   "note": "Over the reals; no interlayer DMI and no dipole tensors, which only the stack energy has."
  },
  {
   "property": "C80",
   "status": "proved",
   "theorems": [
    "SB.C80_reversal",
    "SB.C80_rotation",
    "SB.C80_upside_down"
   ],
   "note": "Over the reals."
  },
  {
   "property": "C81",
   "status": "partial",
   "theorems": [
    "SB.C81_landau_lifshitz",
    "SB.C81_field",
    "SB.C81_dissipation",
    "SB.C81_decreases",
    "SB.C81_torque_refuted",
    "SB.C81_torque_actual"
   ],
   "note": "Landau-Lifshitz-Gilbert form, effective field and dissipation are proved over the reals (with the code's sin+1e-15 in place of the sine); the spin-torque clause is refuted: damping enters their terms with the wrong sign (`C81_torque_actual` states what they are)."
  },
  {
   "property": "C82",
   "status": "proved",
   "theorems": [
    "SB.C82_equilibria"
   ],
   "note": "Over the reals, where the code's sin+1e-15 is not zero."
  },
  {
   "property": "C83",
   "status": "partial",
   "theorems": [
    "SB.C83_rows",
    "SB.C83_linearised",
    "SB.C83_single",
    "SB.C83_frequencies",
    "SB.C83_modes_refuted"
   ],
   "note": "Jacobian, linearisation, one layer and frequencies are proved; the eigenvector clause is refuted: rows of numpy's matrix are returned instead of columns."
  },
  {
   "property": "C84",
   "status": "partial",
   "theorems": [
    "SB.C84_raises_refuted",
    "SB.C84_given_partial",
    "SB.C84_refuted",
    "SB.C84_start"
   ],
   "note": "Proved when a start position is given; without one the caller's first field is set to length 1 (refuted). In the library as it stands every scan raises TypeError before its first result, because a sym.Matrix without hash goes to the cached create_energy (C84_raises_refuted); the other theorems are about the loop behind it."
  },
  {
   "property": "C85",
   "status": "partial",
   "theorems": [
    "SB.C85_drive",
    "SB.C85_actual",
    "SB.C85_refuted"
   ],
   "note": "Refuted: the excitation value does not enter and the response misses the factor 1+alpha^2; `C85_actual` states what is solved."
  },
  {
   "property": "C86",
   "status": "partial",
   "theorems": [
    "SB.C86_equal_partial",
    "SB.C86_equal_refuted",
    "SB.C86_dynamic_partial"
   ],
   "note": "Proved for layers that also agree in DMI field and demagnetisation, which the comparison ignores (refuted in general)."
  },
  {
   "property": "C87",
   "status": "proved",
   "theorems": [
    "Proc.C87_scan",
    "Proc.C87_refused",
    "Proc.C87_completes",
    "Proc.C87_parts",
    "Proc.C87_average"
   ],
   "note": "Over the reals, for distinct layer ids none of which is \"all\", and take_last_n > 0. The normal draws and the resistance function are arbitrary."
  },
  {
   "property": "C88",
   "status": "proved",
   "theorems": [
    "Proc.C88_empty",
    "Proc.C88_frequencies",
    "Proc.C88_tone",
    "Proc.C88_power",
    "Proc.C88_layers"
   ],
   "note": "Over the reals, with the transform given by its defining sum."
  },
  {
   "property": "C89",
   "status": "partial",
   "theorems": [
    "Proc.C89_resistance_partial",
    "Proc.C89_refuted"
   ],
   "note": "Proved for one layer; refuted for two: the weighted magnetisations of the average are passed to the resistance function."
  },
  {
   "property": "C90",
   "status": "proved",
   "theorems": [
    "Proc.C90_grid",
    "Proc.C90_linear",
    "Proc.C90_completes",
    "Proc.C90_refused"
   ],
   "note": "Over the reals, for distinct layer ids none of which is \"all\". Filter coefficients (scipy's butter), normal draws and the resistance function are arbitrary; the closed form of Rz is for classic junctions."
  },
  {
   "property": "C91",
   "status": "partial",
   "theorems": [
    "Compute.C91_value_partial",
    "Compute.C91_refused",
    "Compute.C91_late_refuted",
    "Compute.C91_rectified",
    "Compute.C91_junction"
   ],
   "note": "Value, rectification and the other refusals are proved over the reals; refuted: a minTime after the last row is not refused, an element of an empty range is read (`C91_late_refuted`)."
  },
  {
   "property": "C92",
   "status": "partial",
   "theorems": [
    "Compute.C92_spectrum_partial",
    "Compute.C92_tone",
    "Compute.C92_mean_refuted",
    "Compute.C92_refused",
    "Compute.C92_empty_refuted",
    "Compute.C92_lengths_refuted",
    "Compute.C92_junction"
   ],
   "note": "Over the reals, with the transform given by its defining sum. Refuted: the entry at frequency 0 is the sum, not the mean; an empty log is undefined behaviour; with one or two kept rows there is an amplitude without frequency."
  },
  {
   "property": "C93",
   "status": "partial",
   "theorems": [
    "Compute.C93_spectrum_partial",
    "Compute.C93_short",
    "Compute.C93_order",
    "Compute.C93_single",
    "Compute.C93_refuted"
   ],
   "note": "Over the reals, with the transform given by its defining sum. Refuted: there is always one amplitude more than frequencies; fewer than three rows are undefined behaviour."
  },
  {
   "property": "C94",
   "status": "partial",
   "theorems": [
    "Energy.C94_energy_partial",
    "Energy.C94_underscore",
    "Energy.C94_foreign",
    "Energy.C94_names_refuted",
    "Energy.C94_underscore_refuted"
   ],
   "note": "Proved for every scalar type, ids without underscores and, in classic two-layer junctions, not beginning with H or mx, for logs without torques; refuted for ids with an underscore (`C94_underscore`, `C94_underscore_refuted`) and beginning with H (`C94_names_refuted`). Interlayer fields are not treated as interfacial; an id ending with J is."
  },
  {
   "property": "C95",
   "status": "partial",
   "theorems": [
    "PyNoise.C95_rows",
    "PyNoise.C95_event_partial",
    "PyNoise.C95_between",
    "PyNoise.C95_counts",
    "PyNoise.C95_volumes",
    "PyNoise.C95_periods",
    "PyNoise.C95_common",
    "PyNoise.C95_refused",
    "PyNoise.C95_oscillations",
    "PyNoise.C95_thermal",
    "PyNoise.C95_plateau_refuted"
   ],
   "note": "Rows in steps of an event, counts, saved vectors, volumes, periods and refusals are proved; refuted between events, where the backgrounds of all steps since the last event add up (`C95_plateau_refuted`, `C95_between`). Without oscillations and background the call ends with an UnboundLocalError."
  },
  {
   "property": "C96",
   "status": "partial",
   "theorems": [
    "PyNoise.C96_circular",
    "PyNoise.C96_unit",
    "PyNoise.C96_bound",
    "PyNoise.C96_affine",
    "PyNoise.C96_linear_refuted",
    "PyNoise.C96_linear_partial"
   ],
   "note": "Over the reals, with the transforms given by their sums: it is the autocorrelation of the periodically continued signal (`C96_circular`), with unit, bound and invariance; refuted for the signal itself, whose end is multiplied with its beginning (`C96_linear_refuted`)."
  },
  {
   "property": "C97",
   "status": "partial",
   "theorems": [
    "PyFilters.C97_lowpass",
    "PyFilters.C97_lowpass_errors",
    "PyFilters.C97_units",
    "PyFilters.C97_band_partial",
    "PyFilters.C97_ignores_fs",
    "PyFilters.C97_hertz",
    "PyFilters.C97_band_refuted",
    "PyFilters.C97_float",
    "PyFilters.C97_linear",
    "PyFilters.C97_causal",
    "PyFilters.C97_delay"
   ],
   "note": "Low-pass, linearity, causality and delays are proved (design given, lfilter by its recursion); refuted for the band-pass: tuple edges are not divided by the Nyquist frequency, floats other than 0 are an UnboundLocalError."
  },
  {
   "property": "C98",
   "status": "partial",
   "theorems": [
    "PyDrivers.C98_sine",
    "PyDrivers.C98_same_partial",
    "PyDrivers.C98_same_refuted",
    "PyDrivers.C98_decay",
    "PyDrivers.C98_gaussian",
    "PyDrivers.C98_sigma_refuted"
   ],
   "note": "Shapes are proved over the reals; refuted: the frequency of the sine is angular unlike in the C++ driver, and sigma is not the standard deviation."
  },
  {
   "property": "C99",
   "status": "partial",
   "theorems": [
    "View.C99_vector",
    "View.C99_angles",
    "View.C99_excitation",
    "View.C99_sweep_refuted"
   ],
   "note": "The three tables are proved, with errors for other names; refuted for the Smit-Beljers sweep, which takes the angles in degrees as radians: the field is along the axis only for z (`C99_sweep_refuted`)."
  },
  {
   "property": "C100",
   "status": "proved",
   "theorems": [
    "View.C100_junction",
    "View.C100_pimm",
    "View.C100_short_refused",
    "View.C100_vsd"
   ],
   "note": "Junction, couplings, resistance parameters and the arguments of both procedures, in SI units; pulse measurements shorter than 4 ns are refused (`C100_short_refused`)."
  },
  {
   "property": "C101",
   "status": "partial",
   "theorems": [
    "View.C101_config",
    "View.C101_swap_refuted",
    "View.C101_arguments",
    "View.C101_setup",
    "View.C101_fit_refuted"
   ],
   "note": "Search space and fixed parameters are proved; refuted: bounds entered the wrong way round are not exchanged (`C101_swap_refuted`), and the setup of the fit always raises a KeyError since no widget has the key of the anisotropy axis (`C101_fit_refuted`)."
  },
  {
   "property": "C102",
   "status": "partial",
   "theorems": [
    "View.C102_layer",
    "View.C102_tilted_refuted",
    "View.C102_sweep",
    "View.C102_page",
    "View.C102_fit",
    "View.C102_returns",
    "View.C102_same_refuted"
   ],
   "note": "Layers for the axes along the coordinates and in the plane, the sweep, and that it returns; refuted for the easy axes xz and yz (`C102_tilted_refuted`) and for page and fit computing the same (`C102_same_refuted`: a weak anisotropy of 10 and of 1)."
  },
  {
   "property": "C103",
   "status": "partial",
   "theorems": [
    "View.C103_error",
    "View.C103_fields_partial",
    "View.C103_perfect_partial",
    "View.C103_missing_refuted",
    "View.C103_columns_refuted"
   ],
   "note": "The value for all data (`C103_error`: by runs of equal fields); by fields if every field has a frequency, neighbours differ and there is one target per field; refuted if a field has no frequency and for two columns of targets."
  },
  {
   "property": "C104",
   "status": "partial",
   "theorems": [
    "View.C104_read",
    "View.C104_lengths",
    "View.C104_bad",
    "View.C104_header_refuted"
   ],
   "note": "All rows after the first line, with comments, blank lines, white space and errors; refuted for files without a header, whose first row is lost. `float` is an argument."
  },
  {
   "property": "C105",
   "status": "partial",
   "theorems": [
    "View.C105_refuted"
   ],
   "note": "Refuted for all arguments: whatever is returned, no line holds a frequency, since numpy adds the list instead of appending it."
  },
  {
   "property": "C106",
   "status": "proved",
   "theorems": [
    "View.C106_mixture",
    "View.C106_weights",
    "View.C106_alone"
   ],
   "note": "Over the reals (float16 not rounded); independence of the domains from C20."
  },
  {
   "property": "C107",
   "status": "partial",
   "theorems": [
    "Bind.C107_positional",
    "Bind.C107_keywords",
    "Bind.C107_keywords_refuted",
    "Bind.C107_layer_refuted",
    "Bind.C107_run_refuted",
    "Bind.C107_group_refuted",
    "Bind.C107_axial_refuted",
    "Bind.C107_targets",
    "Bind.C107_defaults",
    "Bind.C107_defaults_refuted"
   ],
   "note": "Positional calls of all functions but five, keyword calls of those bound with the documented names, defaults and targets; refuted by keyword for 62 functions, for the orders of `Layer` and `runSimulation`, for `GroupInteraction.getLog()`, `getVectorAxialDriver` and two defaults. pybind11's rules for arguments are modelled, not verified."
  },
  {
   "property": "C108",
   "status": "partial",
   "theorems": [
    "Bind.C108_overloads",
    "Bind.C108_junction",
    "Bind.C108_junction_refuted",
    "Bind.C108_values"
   ],
   "note": "All functions; refuted for `Junction(layers)`, which fits two overloads (the one without resistances runs, `C108_junction`)."
  },
  {
   "property": "C109",
   "status": "partial",
   "theorems": [
    "Bind.C109_items",
    "Bind.C109_iterate_refuted",
    "Bind.C109_unpack_refuted",
    "Bind.C109_index_refuted"
   ],
   "note": "Length and items 0 to 2; refuted for iteration (never ends), unpacking (always ValueError) and indices out of range (all give z)."
  },
  {
   "property": "C110",
   "status": "partial",
   "theorems": [
    "Bind.C110_lists_refuted",
    "Bind.C110_names",
    "Bind.C110_none_refuted"
   ],
   "note": "Module-level names but `none`; refuted for lists (none is ever taken for a CVector) and for `none`, which is the member of Reference only."
  },
  {
   "property": "C111",
   "status": "partial",
   "theorems": [
    "Junction.C111_ends",
    "Junction.C111_rk4_partial",
    "Junction.C111_heun",
    "Junction.C111_eulerHeun",
    "Junction.C111_all",
    "Junction.C111_drivers",
    "Junction.C111_poleless",
    "Junction.C111_exists",
    "Junction.C111_unique",
    "Junction.C111_coupled_refuted",
    "Junction.C111_global"
   ],
   "note": "Order 4 for one layer with RK4, order 2 for Heun with any number of layers, order 1 for Euler-Heun and for RK4 with any number of layers; the exact solution exists and is unique. Order 4 (and order 2) is refuted for RK4 with several coupled layers: each layer is stepped in the field of neighbours that stand still during the step."
  },
  {
   "property": "C112",
   "status": "partial",
   "theorems": [
    "LLGBJunction.C112_ends",
    "LLGBJunction.C112_all",
    "LLGBJunction.C112_heun_partial",
    "LLGBJunction.C112_heun_refuted"
   ],
   "note": "Order 1 for both solvers and all smooth drivers, order 2 for Heun when the drivers do not depend on time. Order 2 is refuted for Heun with a sine field: the clock is advanced before the step, so drivers are sampled one step late."
  },
  {
   "property": "C113",
   "status": "partial",
   "theorems": [
    "Junction.C113_drivers",
    "Junction.C113_current",
    "Junction.C113_fields",
    "Junction.C113_thermal",
    "Junction.C113_time_refuted",
    "Junction.C113_thermal_refuted"
   ],
   "note": "Every column is given exactly, at the point where the step last evaluates the equation of motion. This is not the point of the row: refuted for the time (RK4 row with time 0 holds the field at time dt) and for the thermal columns, which stay at zero."
  },
  {
   "property": "C114",
   "status": "proved",
   "theorems": [
    "Junction.C114_eulerHeun",
    "Junction.C114_heun",
    "Junction.C114_draws",
    "Junction.C114_completes"
   ],
   "note": "Both stochastic solvers; runs with temperature and without alpha noise also complete. The alpha noise term enters as the value its generator returns."
  },
  {
   "property": "C115",
   "status": "proved",
   "theorems": [
    "Junction.C115_law"
   ],
   "note": "The draws are an arbitrary family of independent standard normal variables; such a family is shown to exist. mt19937 itself is not modelled."
  },
  {
   "property": "C116",
   "status": "proved",
   "theorems": [
    "Layer.C116_plain",
    "Layer.C116_sot",
    "Layer.C116_stt",
    "Layer.C116_record"
   ],
   "note": "Ms times thickness must not be zero, as in the code. C116_record adds that the logged current and thermal field start at zero."
  },
  {
   "property": "C117",
   "status": "proved",
   "theorems": [
    "CVec.C117_normalize",
    "Junction.C117_step",
    "Junction.C117_run"
   ],
   "note": "Standard model of rounding: every operation has relative error at most u, no overflow or underflow. Fl p is an instance for every precision p."
  },
  {
   "property": "C118",
   "status": "partial",
   "theorems": [
    "Junction.C118_run_partial",
    "Junction.C118_double",
    "Junction.C118_double_refuted"
   ],
   "note": "Up to the rounding error of the quotient (C118_run_partial). Without that allowance it is false in double precision: 30e-9 / 1e-12 rounds to 29999.999999999996, and every such run makes 29999 steps."
  },
  {
   "property": "C119",
   "status": "proved",
   "theorems": [
    "PyHebo.C119_errors",
    "PyHebo.C119_order",
    "PyHebo.C119_refuses",
    "PyHebo.C119_first",
    "PyHebo.C119_loop",
    "PyHebo.C119_reports",
    "PyHebo.C119_completes"
   ],
   "note": "The optimiser is an arbitrary object whose calls may raise; a data frame is the list of its records. Scores are linearly ordered, so there is no NaN. C119_reports assumes an optimiser that keeps all errors it is shown."
  },
  {
   "property": "C120",
   "status": "partial",
   "theorems": [
    "PyHebo.C120_fit_partial",
    "PyHebo.C120_completes",
    "PyHebo.C120_values",
    "PyHebo.C120_interrupt",
    "PyHebo.C120_interrupt_refuted"
   ],
   "note": "Proved for fits that are not interrupted (C120_fit_partial). Refuted for interrupted ones: line 75 returns a name without a value, an UnboundLocalError (C120_interrupt, C120_interrupt_refuted). C120_completes is the converse: what the fit returns when the rounds succeed; C120_values says which of two values for a parameter holds."
  },
  {
   "property": "C121",
   "status": "proved",
   "theorems": [
    "Junction.C121_run",
    "Junction.C121_counts",
    "Junction.C121_smooth",
    "Junction.C121_completes",
    "Junction.C121_layer"
   ],
   "note": "C121_run takes the counts as hypotheses; C121_counts supplies them for quotients that are not integers, C121_completes the success of the rounded runs, C121_smooth the absence of jumps for junctions without spin transfer torque and with continuous drivers. The errors of all operations are relative; overflow and underflow do not exist in these arithmetics. At integer quotients the counts can differ (C118)."
  },
  {
   "property": "C122",
   "status": "partial",
   "theorems": [
    "SB.C122_transparent",
    "SB.C122_bounded",
    "SB.C122_layer_text",
    "SB.C122_solver_text",
    "SB.C122_energy_partial",
    "SB.C122_layer_energy",
    "SB.C122_collision",
    "SB.C122_energy_collision",
    "SB.C122_layer_collision",
    "SB.C122_three",
    "SB.C122_stale_refuted",
    "SB.C122_hash_refuted"
   ],
   "note": "Proved for edits of all declared fields, provided no two different keys of the program have the same hash and the numbers used are printed faithfully (C122_energy_partial, C122_layer_energy; sympy prints 15 digits, so DMI fields and tensors that differ beyond them count as equal). Refuted for the attribute dipoleMatrix, which does not enter the hash (C122_stale_refuted). Equal layers can hash differently (C122_hash_refuted). Without edits the results are right for every hash (C122_energy_collision, C122_layer_collision)."
  },
  {
   "property": "C123",
   "status": "proved",
   "theorems": [
    "Junction.C123_rate",
    "Junction.C123_decreases",
    "Junction.C123_conserved",
    "Junction.C123_simulated",
    "Junction.C123_settles",
    "Junction.C123_simulated_settles"
   ],
   "note": "Mutual couplings: exchange constants equal from both sides, stray-field tensors adjoint, no interlayer DMI (which the code makes one-sided, C13). Exact arithmetic; C111_global gives one solution for all times."
  },
  {
   "property": "C124",
   "status": "proved",
   "theorems": [
    "SB.C124_energy",
    "SB.C124_slopes",
    "SB.C124_equilibria",
    "SB.C124_nearly",
    "SB.C124_angles",
    "SB.C124_relaxed",
    "SB.C124_speed",
    "SB.C124_constants_refuted"
   ],
   "note": "Exchange of both kinds, uniaxial and in-plane anisotropy, diagonal demagnetisation, external and intralayer DMI fields; interlayer DMI and stray fields excluded, as the conventions of the two parts differ. C124_constants_refuted: with the same demagnetisation factors the energies differ, because the two parts use 12.566e-7 and 12.57e-7 for mu0; the theorems rescale by the ratio. The gyromagnetic constants differ by a factor 1.00127."
  },
  {
   "property": "C125",
   "status": "proved",
   "theorems": [
    "SB.C125_modes",
    "SB.C125_kittel"
   ],
   "note": "C125_modes for any stack in the setting of C124 (SameStack, Passive), undamped, equilibrium with sin theta nonzero; C125_kittel for one film. Spec.Precesses speaks of the derivative of the motion of the simulated layers along small displacements and mentions neither angles nor energies. The solver reports f with an angular frequency of 6.2723 f, not 2 pi f, because of the rounded constants."
  },
  {
   "property": "C126",
   "status": "proved",
   "theorems": [
    "Junction.C126_rate",
    "Junction.C126_switches",
    "Junction.C126_up",
    "Junction.C126_down",
    "Junction.C126_loop",
    "Junction.C126_hard",
    "Junction.C126_stable",
    "Junction.C126_unstable"
   ],
   "note": "The component along the axis obeys an equation of its own (C126_rate); the theorems on simulations (GoesTo) combine it with the convergence of runs (C111). C126_unstable speaks of the exact solution."
  },
  {
   "property": "C127",
   "status": "partial",
   "theorems": [
    "Junction.C127_samples",
    "Junction.C127_renewed",
    "Junction.C127_refused",
    "Junction.C127_request",
    "Junction.C127_completes",
    "Junction.C127_empty_refuted"
   ],
   "note": "Proved for runs of at least one step. C127_empty_refuted: a run of no steps of a layer with coloured noise writes outside its buffer (undefined behaviour), while the same run without noise completes."
  },
  {
   "property": "C128",
   "status": "partial",
   "theorems": [
    "EnergyDriver.C128_angle",
    "EnergyDriver.C128_layer",
    "EnergyDriver.C128_stack",
    "EnergyDriver.C128_rate",
    "EnergyDriver.C128_decreases",
    "EnergyDriver.C128_units_refuted"
   ],
   "note": "Proved for the saturation magnetisation in A/m. C128_units_refuted: with the saturation magnetisation in tesla, as every layer holds it, the energies order two states of a layer the wrong way round."
  },
  {
   "property": "C129",
   "status": "partial",
   "theorems": [
    "Domain.C129_rate",
    "Domain.C129_decreases",
    "Domain.C129_rest",
    "Domain.C129_pair",
    "Domain.C129_pair_decreases",
    "Domain.C129_edges_refuted",
    "Domain.C129_width_refuted"
   ],
   "note": "Proved for exact solutions (scipy's RK45 is not modelled) and static widths, with the energy of the edges and the pinning multiplied by Q as in the code. C129_edges_refuted: walls with Q = -1 are drawn to the edges that repel walls with Q = 1. C129_width_refuted: with a dynamic width the angle climbs the energy that the width descends."
  },
  {
   "property": "C130",
   "status": "proved",
   "theorems": [
    "Domain.C130_steady",
    "Domain.C130_settles",
    "Domain.C130_turns"
   ],
   "note": "Exact solutions of the equations (scipy's RK45 is not modelled)."
  },
  {
   "property": "C131",
   "status": "proved",
   "theorems": [
    "Junction.C131_step",
    "Junction.C131_run",
    "Junction.C131_twice",
    "Junction.C131_couplings",
    "Junction.C131_resistance"
   ],
   "note": "Steps and runs for every scalar type with commutative addition; resistances for reals."
  },
  {
   "property": "C132",
   "status": "partial",
   "theorems": [
    "Junction.C132_separate",
    "Junction.C132_copies",
    "Junction.C132_average",
    "Junction.C132_average_copies",
    "Junction.C132_independent_refuted",
    "Stack.C132_lockstep"
   ],
   "note": "Proved for layers made by separate constructor calls. C132_independent_refuted: a layer object used in several junctions is copied with the state of its generator, all copies see the same noise (C132_copies), averaging does not help (C132_average_copies), and a stack of copies moves in lockstep (C132_lockstep). The generator is taken as a sequence of independent standard normal numbers."
  },
  {
   "property": "C133",
   "status": "proved",
   "theorems": [
    "ScalarDriver.C133_driver",
    "Junction.C133_step",
    "Junction.C133_run"
   ],
   "note": "For reals, without coloured noise (its amplitude is a parameter without a driver). Thermal noise is included: the temperature is s times larger."
  },
  {
   "property": "C134",
   "status": "proved",
   "theorems": [
    "GroupInteraction.C134_converges",
    "GroupInteraction.C134_ends",
    "GroupInteraction.C134_exists",
    "GroupInteraction.C134_unique"
   ],
   "note": "For reals. The default dipole function enters with its factor 4 pi (see C41). Groups whose last member has one layer while another has several are excluded: they do not advance all layers (C40_mixed_refuted)."
  },
  {
   "property": "C135",
   "status": "proved",
   "theorems": [
    "Stack.C135_converges",
    "Stack.C135_ends",
    "Stack.C135_exists",
    "Stack.C135_unique",
    "Stack.C135_delay"
   ],
   "note": "For reals. Stacks whose last member has one layer while another has two are excluded: they do not advance all layers (C37_mixed_refuted)."
  },
  {
   "property": "C136",
   "status": "proved",
   "theorems": [
    "Antiferro.C136_energy",
    "Antiferro.C136_ground",
    "Antiferro.C136_rest",
    "Antiferro.C136_opens",
    "Antiferro.C136_saturates",
    "Antiferro.C136_linear",
    "Antiferro.C136_saturated",
    "Antiferro.C136_flop"
   ],
   "note": "For reals and without noise. Starts that are not nearer to the open state than a collinear state are covered when antiparallel across the field with equal damping (C136_flop)."
  },
  {
   "property": "C137",
   "status": "partial",
   "theorems": [
    "Reservoir.C137_converges_partial",
    "Reservoir.C137_ends",
    "Reservoir.C137_exists",
    "Reservoir.C137_unique",
    "Reservoir.C137_refuted",
    "Reservoir.C137_refuted_sign"
   ],
   "note": "False of the code for the dipole fields of the elements (C137_refuted, with either sign C137_refuted_sign). Proved: runs converge, of first order, to the solution with the wrongly paired fields (C137_converges_partial); both equations have unique solutions. For reals; the reserved driver of the elements is not used."
  },
  {
   "property": "C138",
   "status": "proved",
   "theorems": [
    "Larmor.C138_solves",
    "Larmor.C138_runs",
    "Larmor.C138_only",
    "Larmor.C138_tanh",
    "Larmor.C138_switching_time",
    "Larmor.C138_larmor"
   ],
   "note": "For reals and without noise; spin-transfer torque with an efficiency that does not depend on the angle (Slonczewski parameter 1, or 0 in the alternative form)."
  },
  {
   "property": "C139",
   "status": "proved",
   "theorems": [
    "Domain.C139_period",
    "Domain.C139_drift",
    "Domain.C139_mean",
    "Domain.C139_slower",
    "Domain.C139_exists"
   ],
   "note": "About the exact solutions of the equations handed to scipy, over reals; scipy's integrator is not modelled."
  },
  {
   "property": "C140",
   "status": "proved",
   "theorems": [
    "Switching.C140_up",
    "Switching.C140_down",
    "Switching.C140_runs",
    "Switching.C140_closed",
    "Switching.C140_field"
   ],
   "note": "Over the reals and without noise; everything along the axis z as in C126, constant drivers."
  },
  {
   "property": "C141",
   "status": "proved",
   "theorems": [
    "Switching.C141_rates",
    "Switching.C141_orbit",
    "Switching.C141_runs",
    "Switching.C141_period",
    "Switching.C141_attracts",
    "Switching.C141_goes",
    "Switching.C141_frequency"
   ],
   "note": "Over the reals and without noise; everything along the axis z as in C126, constant drivers."
  },
  {
   "property": "C142",
   "status": "proved",
   "theorems": [
    "LLGBJunction.C142_solves",
    "LLGBJunction.C142_runs",
    "LLGBJunction.C142_below",
    "LLGBJunction.C142_above",
    "LLGBJunction.C142_settles",
    "LLGBJunction.C142_ends"
   ],
   "note": "Over the reals; temperature positive and not the Curie temperature."
  },
  {
   "property": "C143",
   "status": "proved",
   "theorems": [
    "Astroid.C143_energy",
    "Astroid.C143_single",
    "Astroid.C143_forgets",
    "Astroid.C143_outside",
    "Astroid.C143_trapped",
    "Astroid.C143_kept",
    "Astroid.C143_inside",
    "Astroid.C143_half"
   ],
   "note": "Over the reals and without noise; easy axis z, positive anisotropy field, constant field. Fields on the astroid itself are not claimed."
  },
  {
   "property": "C144",
   "status": "proved",
   "theorems": [
    "Domain.C144_rest",
    "Domain.C144_free",
    "Domain.C144_held",
    "Domain.C144_wells"
   ],
   "note": "About the equations of motion over the reals (any path of them), with no edge potential and a width that is not relaxed dynamically; the amplitude is that of the field in the code, which lacks the division by the period (C76)."
  },
  {
   "property": "C145",
   "status": "proved",
   "theorems": [
    "Junction.C145_run",
    "Junction.C145_field",
    "Junction.C145_start",
    "Junction.C145_short",
    "Junction.C145_curve"
   ],
   "note": "Over the reals and without noise; the hypotheses exclude the points at which pulses, steps and trapezoids jump, and steps that end at a zero magnetisation before it is normalised."
  },
  {
   "property": "C146",
   "status": "proved",
   "theorems": [
    "Junction.C146_run",
    "Junction.C146_response"
   ],
   "note": "Over the reals, without noise and without spin transfer torque, for smooth drivers (no pulses, steps, trapezoids)."
  },
  {
   "property": "C147",
   "status": "proved",
   "theorems": [
    "Domain.C147_frame",
    "Domain.C147_steady",
    "Domain.C147_settles",
    "Domain.C147_mean",
    "Domain.C147_intrinsic",
    "Domain.C147_exists"
   ],
   "note": "Over the reals, for exact solutions of the equations that the code integrates, with a fixed width and constant current."
  },
  {
   "property": "C148",
   "status": "proved",
   "theorems": [
    "Domain.C148_steady",
    "Domain.C148_settles",
    "Domain.C148_saturates"
   ],
   "note": "Over the reals, for exact solutions of the equations that the code integrates, with a fixed width and constant current, without in-plane anisotropy."
  }
 ]
}