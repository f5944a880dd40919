import Verif.Props.Antiferro
import Verif.Props.Astroid
import Verif.Props.Autocorr
import Verif.Props.BindCalls
import Verif.Props.BindDispatch
import Verif.Props.Colour
import Verif.Props.Coloured
import Verif.Props.Compute
import Verif.Props.ComputeFft
import Verif.Props.Continuity
import Verif.Props.Convergence
import Verif.Props.ConvergenceCoupled
import Verif.Props.ConvergenceGroups
import Verif.Props.ConvergenceLlgb
import Verif.Props.ConvergenceReservoirs
import Verif.Props.ConvergenceStacks
import Verif.Props.CopiedNoise
import Verif.Props.CurrentWall
import Verif.Props.Depinning
import Verif.Props.Dipoles
import Verif.Props.Drivers
import Verif.Props.Drivers2
import Verif.Props.EnergyDriver
import Verif.Props.Equilibrium
import Verif.Props.Fields
import Verif.Props.GroupExamples
import Verif.Props.GroupLogs
import Verif.Props.GroupRuns
import Verif.Props.Groups
import Verif.Props.HallWall
import Verif.Props.Hebo
import Verif.Props.Larmor
import Verif.Props.LlgbClear
import Verif.Props.LlgbField
import Verif.Props.LlgbLogs
import Verif.Props.LlgbRelaxation
import Verif.Props.LlgbRuns
import Verif.Props.LlgbSteps
import Verif.Props.Logs
import Verif.Props.Modes
import Verif.Props.Neighbours
import Verif.Props.NewLayer
import Verif.Props.NoiseLaw
import Verif.Props.Oscillator
import Verif.Props.Precision
import Verif.Props.PyCache
import Verif.Props.PyDomain
import Verif.Props.PyEnergy
import Verif.Props.PyFilters
import Verif.Props.PyNoise
import Verif.Props.PyOersted
import Verif.Props.PyProc
import Verif.Props.PyProcScan
import Verif.Props.PyProcSpectra
import Verif.Props.PyProcVsd
import Verif.Props.PyResistance
import Verif.Props.PySb
import Verif.Props.PySbDescent
import Verif.Props.PySbDyn
import Verif.Props.PySbHessian
import Verif.Props.PySbMore
import Verif.Props.PySbScan
import Verif.Props.PyTools
import Verif.Props.PyVector
import Verif.Props.Quiet
import Verif.Props.Record
import Verif.Props.Relax
import Verif.Props.Repeat
import Verif.Props.ReservoirLogs
import Verif.Props.Reservoirs
import Verif.Props.Resistance
import Verif.Props.Rotation
import Verif.Props.Rounding
import Verif.Props.Runs
import Verif.Props.Scaling
import Verif.Props.Setters
import Verif.Props.Small
import Verif.Props.Smoothness
import Verif.Props.StackAlone
import Verif.Props.StackCurrents
import Verif.Props.StackExamples
import Verif.Props.StackLogs
import Verif.Props.StackRuns
import Verif.Props.Stacks
import Verif.Props.Stochastic
import Verif.Props.Switching
import Verif.Props.SwitchingTime
import Verif.Props.Ticks
import Verif.Props.Torque
import Verif.Props.Turned
import Verif.Props.TwoModels
import Verif.Props.Uncoupled
import Verif.Props.UnitLength
import Verif.Props.Vectors
import Verif.Props.ViewAxes
import Verif.Props.ViewDomains
import Verif.Props.ViewError
import Verif.Props.ViewFiles
import Verif.Props.ViewFit
import Verif.Props.ViewJunction
import Verif.Props.ViewSweep
import Verif.Props.WalkerPeriod
import Verif.Props.WallEnergy
import Verif.Props.Weiss

/-! Prints, at build time, the axioms every property theorem depends on. -/
#print axioms C01_normalize_unit
#print axioms C01_normalize_unique
#print axioms C01_normalize_zero
#print axioms C01_normalize_idem
#print axioms C01_length
#print axioms CVec.C02_setters
#print axioms CVec.C02_addScalar
#print axioms C02_ofList_iff
#print axioms C02_ofList_error
#print axioms C02_roundtrip
#print axioms C02_index
#print axioms C02_index_other
#print axioms C02_div_error_iff
#print axioms C02_div_mul
#print axioms ScalarDriver.C03_factory
#print axioms ScalarDriver.C03_value
#print axioms ScalarDriver.C03_window
#print axioms ScalarDriver.C04_value
#print axioms ScalarDriver.C04_periodic
#print axioms ScalarDriver.C04_factory
#print axioms ScalarDriver.C04_negative_time
#print axioms ScalarDriver.C05_value
#print axioms ScalarDriver.C05_continuous
#print axioms ScalarDriver.C05_bounds
#print axioms ScalarDriver.C05_outside_plateau
#print axioms ScalarDriver.C06_sine
#print axioms ScalarDriver.C06_posine
#print axioms ScalarDriver.C06_halfsine
#print axioms ScalarDriver.C06_periodic
#print axioms ScalarDriver.C06_factories
#print axioms ScalarDriver.C07_impulse_value
#print axioms ScalarDriver.C07_impulse_shape
#print axioms ScalarDriver.C07_impulse_decay
#print axioms ScalarDriver.C07_gaussianStep_refuted
#print axioms ScalarDriver.C07_gaussStep_branch_partial
#print axioms ScalarDriver.C08_forms_agree
#print axioms ScalarDriver.C08_frame
#print axioms ScalarDriver.C08_scale_partial
#print axioms ScalarDriver.C08_negative_refuted
#print axioms ScalarDriver.C08_shift_sine
#print axioms ScalarDriver.C08_offset
#print axioms AxialDriver.C09_componentwise
#print axioms AxialDriver.C09_uniaxial
#print axioms AxialDriver.C09_constant
#print axioms AxialDriver.C09_ofList
#print axioms AxialDriver.C09_mask_binary
#print axioms AxialDriver.C09_mask_error_iff
#print axioms AxialDriver.C09_mask_half_applied
#print axioms AxialDriver.C09_scalars
#print axioms AxialDriver.C09_mask_vector
#print axioms AxialDriver.C09_mask_vector_error
#print axioms Layer.C10_torque_orthogonal
#print axioms Layer.C10_torque_orthogonal_dipole
#print axioms Layer.C10_evaluates_iff
#print axioms View.C100_junction
#print axioms View.C100_pimm
#print axioms View.C100_short_refused
#print axioms View.C100_vsd
#print axioms View.C101_config
#print axioms View.C101_swap_refuted
#print axioms View.C101_arguments
#print axioms View.C101_setup
#print axioms View.C101_fit_refuted
#print axioms View.C102_layer
#print axioms View.C102_tilted_refuted
#print axioms View.C102_sweep
#print axioms View.C102_page
#print axioms View.C102_fit
#print axioms View.C102_returns
#print axioms View.C102_same_refuted
#print axioms View.C103_error
#print axioms View.C103_fields_partial
#print axioms View.C103_perfect_partial
#print axioms View.C103_missing_refuted
#print axioms View.C103_columns_refuted
#print axioms View.C104_read
#print axioms View.C104_lengths
#print axioms View.C104_bad
#print axioms View.C104_header_refuted
#print axioms View.C105_refuted
#print axioms View.C106_mixture
#print axioms View.C106_weights
#print axioms View.C106_alone
#print axioms Bind.C107_positional
#print axioms Bind.C107_keywords
#print axioms Bind.C107_keywords_refuted
#print axioms Bind.C107_layer_refuted
#print axioms Bind.C107_run_refuted
#print axioms Bind.C107_group_refuted
#print axioms Bind.C107_axial_refuted
#print axioms Bind.C107_targets
#print axioms Bind.C107_defaults
#print axioms Bind.C107_defaults_refuted
#print axioms Bind.C108_overloads
#print axioms Bind.C108_junction
#print axioms Bind.C108_junction_refuted
#print axioms Bind.C108_values
#print axioms Bind.C109_items
#print axioms Bind.C109_iterate_refuted
#print axioms Bind.C109_unpack_refuted
#print axioms Bind.C109_index_refuted
#print axioms Layer.C11_dissipation
#print axioms Layer.C11_projection_nondecreasing
#print axioms Layer.C11_conservative
#print axioms Layer.C11_stationary_iff
#print axioms Bind.C110_lists_refuted
#print axioms Bind.C110_names
#print axioms Bind.C110_none_refuted
#print axioms Junction.C111_ends
#print axioms Junction.C111_rk4_partial
#print axioms Junction.C111_heun
#print axioms Junction.C111_eulerHeun
#print axioms Junction.C111_all
#print axioms Junction.C111_drivers
#print axioms Junction.C111_poleless
#print axioms Junction.C111_exists
#print axioms Junction.C111_unique
#print axioms Junction.C111_coupled_refuted
#print axioms Junction.C111_global
#print axioms LLGBJunction.C112_ends
#print axioms LLGBJunction.C112_all
#print axioms LLGBJunction.C112_heun_partial
#print axioms LLGBJunction.C112_heun_refuted
#print axioms Junction.C113_drivers
#print axioms Junction.C113_current
#print axioms Junction.C113_fields
#print axioms Junction.C113_thermal
#print axioms Junction.C113_time_refuted
#print axioms Junction.C113_thermal_refuted
#print axioms Junction.C114_eulerHeun
#print axioms Junction.C114_heun
#print axioms Junction.C114_draws
#print axioms Junction.C114_completes
#print axioms Junction.C115_law
#print axioms Layer.C116_plain
#print axioms Layer.C116_sot
#print axioms Layer.C116_stt
#print axioms Layer.C116_record
#print axioms CVec.C117_normalize
#print axioms Junction.C117_step
#print axioms Junction.C117_run
#print axioms Junction.C118_run_partial
#print axioms Junction.C118_double
#print axioms Junction.C118_double_refuted
#print axioms PyHebo.C119_errors
#print axioms PyHebo.C119_order
#print axioms PyHebo.C119_refuses
#print axioms PyHebo.C119_first
#print axioms PyHebo.C119_loop
#print axioms PyHebo.C119_reports
#print axioms PyHebo.C119_completes
#print axioms Layer.C12_stt_zero_current
#print axioms Layer.C12_stt_zero_polarisation
#print axioms Layer.C12_sot_dynamic_zero
#print axioms Layer.C12_sot_static_zero_current
#print axioms Layer.C12_zero_reference
#print axioms Layer.C12_sot_is_effective_field
#print axioms PyHebo.C120_fit_partial
#print axioms PyHebo.C120_completes
#print axioms PyHebo.C120_values
#print axioms PyHebo.C120_interrupt
#print axioms PyHebo.C120_interrupt_refuted
#print axioms Junction.C121_run
#print axioms Junction.C121_counts
#print axioms Junction.C121_smooth
#print axioms Junction.C121_completes
#print axioms Junction.C121_layer
#print axioms SB.C122_transparent
#print axioms SB.C122_bounded
#print axioms SB.C122_layer_text
#print axioms SB.C122_solver_text
#print axioms SB.C122_energy_partial
#print axioms SB.C122_layer_energy
#print axioms SB.C122_collision
#print axioms SB.C122_energy_collision
#print axioms SB.C122_layer_collision
#print axioms SB.C122_three
#print axioms SB.C122_stale_refuted
#print axioms SB.C122_hash_refuted
#print axioms Junction.C123_rate
#print axioms Junction.C123_decreases
#print axioms Junction.C123_conserved
#print axioms Junction.C123_simulated
#print axioms Junction.C123_settles
#print axioms Junction.C123_simulated_settles
#print axioms SB.C124_energy
#print axioms SB.C124_slopes
#print axioms SB.C124_equilibria
#print axioms SB.C124_nearly
#print axioms SB.C124_angles
#print axioms SB.C124_relaxed
#print axioms SB.C124_speed
#print axioms SB.C124_constants_refuted
#print axioms SB.C125_modes
#print axioms SB.C125_kittel
#print axioms Junction.C126_rate
#print axioms Junction.C126_switches
#print axioms Junction.C126_up
#print axioms Junction.C126_down
#print axioms Junction.C126_loop
#print axioms Junction.C126_hard
#print axioms Junction.C126_stable
#print axioms Junction.C126_unstable
#print axioms Junction.C127_samples
#print axioms Junction.C127_renewed
#print axioms Junction.C127_refused
#print axioms Junction.C127_request
#print axioms Junction.C127_completes
#print axioms Junction.C127_empty_refuted
#print axioms EnergyDriver.C128_angle
#print axioms EnergyDriver.C128_layer
#print axioms EnergyDriver.C128_stack
#print axioms EnergyDriver.C128_rate
#print axioms EnergyDriver.C128_decreases
#print axioms EnergyDriver.C128_units_refuted
#print axioms Domain.C129_rate
#print axioms Domain.C129_decreases
#print axioms Domain.C129_rest
#print axioms Domain.C129_pair
#print axioms Domain.C129_pair_decreases
#print axioms Domain.C129_edges_refuted
#print axioms Domain.C129_width_refuted
#print axioms Layer.C13_iec_torques_cancel
#print axioms Layer.C13_iec_gradient_first
#print axioms Layer.C13_iec_gradient_second
#print axioms Layer.C13_pair_torques_cancel
#print axioms Layer.C13_idmi_refuted
#print axioms Layer.C13_idmi_antisymmetric_partial
#print axioms Domain.C130_steady
#print axioms Domain.C130_settles
#print axioms Domain.C130_turns
#print axioms Junction.C131_step
#print axioms Junction.C131_run
#print axioms Junction.C131_twice
#print axioms Junction.C131_couplings
#print axioms Junction.C131_resistance
#print axioms Junction.C132_separate
#print axioms Junction.C132_copies
#print axioms Junction.C132_average
#print axioms Junction.C132_average_copies
#print axioms Junction.C132_independent_refuted
#print axioms Stack.C132_lockstep
#print axioms ScalarDriver.C133_driver
#print axioms Junction.C133_step
#print axioms Junction.C133_run
#print axioms GroupInteraction.C134_converges
#print axioms GroupInteraction.C134_ends
#print axioms GroupInteraction.C134_exists
#print axioms GroupInteraction.C134_unique
#print axioms Stack.C135_converges
#print axioms Stack.C135_ends
#print axioms Stack.C135_exists
#print axioms Stack.C135_unique
#print axioms Stack.C135_delay
#print axioms Antiferro.C136_energy
#print axioms Antiferro.C136_ground
#print axioms Antiferro.C136_rest
#print axioms Antiferro.C136_opens
#print axioms Antiferro.C136_saturates
#print axioms Antiferro.C136_linear
#print axioms Antiferro.C136_saturated
#print axioms Antiferro.C136_flop
#print axioms Reservoir.C137_converges_partial
#print axioms Reservoir.C137_ends
#print axioms Reservoir.C137_exists
#print axioms Reservoir.C137_unique
#print axioms Reservoir.C137_refuted
#print axioms Reservoir.C137_refuted_sign
#print axioms Larmor.C138_solves
#print axioms Larmor.C138_runs
#print axioms Larmor.C138_only
#print axioms Larmor.C138_tanh
#print axioms Larmor.C138_switching_time
#print axioms Larmor.C138_larmor
#print axioms Domain.C139_period
#print axioms Domain.C139_drift
#print axioms Domain.C139_mean
#print axioms Domain.C139_slower
#print axioms Domain.C139_exists
#print axioms Layer.C14_sum
#print axioms Layer.C14_external
#print axioms Layer.C14_oersted
#print axioms Layer.C14_dmi
#print axioms Layer.C14_reserved
#print axioms Layer.C14_anisotropy
#print axioms Layer.C14_iecBottom
#print axioms Layer.C14_iecTop
#print axioms Layer.C14_quadBottom
#print axioms Layer.C14_quadTop
#print axioms Layer.C14_idmiBottom
#print axioms Layer.C14_idmiTop
#print axioms Layer.C14_others
#print axioms Switching.C140_up
#print axioms Switching.C140_down
#print axioms Switching.C140_runs
#print axioms Switching.C140_closed
#print axioms Switching.C140_field
#print axioms Switching.C141_rates
#print axioms Switching.C141_orbit
#print axioms Switching.C141_runs
#print axioms Switching.C141_period
#print axioms Switching.C141_attracts
#print axioms Switching.C141_goes
#print axioms Switching.C141_frequency
#print axioms LLGBJunction.C142_solves
#print axioms LLGBJunction.C142_runs
#print axioms LLGBJunction.C142_below
#print axioms LLGBJunction.C142_above
#print axioms LLGBJunction.C142_settles
#print axioms LLGBJunction.C142_ends
#print axioms Astroid.C143_energy
#print axioms Astroid.C143_single
#print axioms Astroid.C143_forgets
#print axioms Astroid.C143_outside
#print axioms Astroid.C143_trapped
#print axioms Astroid.C143_kept
#print axioms Astroid.C143_inside
#print axioms Astroid.C143_half
#print axioms Domain.C144_rest
#print axioms Domain.C144_free
#print axioms Domain.C144_held
#print axioms Domain.C144_wells
#print axioms Junction.C145_run
#print axioms Junction.C145_field
#print axioms Junction.C145_start
#print axioms Junction.C145_short
#print axioms Junction.C145_curve
#print axioms Junction.C146_run
#print axioms Junction.C146_response
#print axioms Domain.C147_frame
#print axioms Domain.C147_steady
#print axioms Domain.C147_settles
#print axioms Domain.C147_mean
#print axioms Domain.C147_intrinsic
#print axioms Domain.C147_exists
#print axioms Domain.C148_steady
#print axioms Domain.C148_settles
#print axioms Domain.C148_saturates
#print axioms Junction.C15_step
#print axioms Junction.C15_run
#print axioms Junction.C15_magnetoresistance
#print axioms Junction.C16_step
#print axioms Junction.C16_single_only_alone
#print axioms Junction.C16_run
#print axioms Junction.C16_eulerHeun_unit
#print axioms Junction.C16_heun_unit
#print axioms Junction.C16_rk4_unit
#print axioms Layer.C17_setMagnetisation
#print axioms Layer.C17_constructor_refuted
#print axioms Layer.C17_constructors_partial
#print axioms Junction.C17_setLayerMagnetisation
#print axioms Junction.C18_steps
#print axioms Junction.C18_run
#print axioms Junction.C18_constant_drivers
#print axioms Junction.C19_step
#print axioms Junction.C19_only_neighbours
#print axioms Junction.C19_eulerHeun
#print axioms Junction.C19_order
#print axioms Junction.C20_step
#print axioms Junction.C20_steps
#print axioms Junction.C20_run_partial
#print axioms Junction.C20_refuted
#print axioms Junction.C21_setters
#print axioms Junction.C21_torque_setters
#print axioms Junction.C21_magnetisation
#print axioms Junction.C21_not_found
#print axioms Junction.C21_first_match_partial
#print axioms Junction.C21_getters
#print axioms Junction.C21_first_match_refuted
#print axioms Junction.C22_unchanged_partial
#print axioms Junction.C22_torque_dynamics_partial
#print axioms Junction.C22_torque_refuted
#print axioms Junction.C22_torque_all_refuted
#print axioms Junction.C22_reference_refuted
#print axioms Junction.C23_symmetric
#print axioms Junction.C23_adjacent
#print axioms Junction.C23_not_adjacent
#print axioms Junction.C24_plain
#print axioms Junction.C24_classic
#print axioms Junction.C24_classic_fields
#print axioms Junction.C24_strip
#print axioms Junction.C24_empty
#print axioms Junction.C24_read
#print axioms Junction.C25_formula
#print axioms Junction.C25_bounds
#print axioms Junction.C25_monotone
#print axioms Junction.C25_angle_range
#print axioms Junction.C26_parallel
#print axioms Junction.C26_bounds
#print axioms Junction.C26_single
#print axioms Junction.C27_run
#print axioms Junction.C27_resistance
#print axioms Junction.C27_sample_steps
#print axioms Junction.C27_count
#print axioms Junction.C27_refuses
#print axioms Junction.C27_real
#print axioms Junction.C27_completes_any
#print axioms Junction.C27_completes
#print axioms Junction.C28_aligned
#print axioms Junction.C28_energies_partial
#print axioms Junction.C28_save
#print axioms Junction.C28_current_doubled
#print axioms Junction.C28_refuted
#print axioms Junction.C28_toggle_refuted
#print axioms Junction.C28_ids_needed
#print axioms LLGBJunction.C29_llgb_clear
#print axioms LLGBJunction.C29_llgb
#print axioms LLGBJunction.C29_llgb_succeeds
#print axioms LLGBJunction.C29_llgb_real
#print axioms Junction.C29_split
#print axioms Junction.C29_join
#print axioms Junction.C29_real
#print axioms Junction.C29_restart
#print axioms Junction.C29_needs_time_independence
#print axioms Junction.C30_append
#print axioms Junction.C30_clear
#print axioms Junction.C30_prefix
#print axioms Junction.C31_integrator
#print axioms Junction.C31_dormand_prince
#print axioms Junction.C31_noisy
#print axioms Junction.C32_deterministic
#print axioms Junction.C32_quiet_layers
#print axioms Junction.C32_oneF
#print axioms Junction.C32_nonstochastic_partial
#print axioms Junction.C32_nonstochastic_refuted
#print axioms Layer.C33_formula
#print axioms Layer.C33_error_iff
#print axioms Layer.C33_monotone
#print axioms Layer.C33_zero_temperature
#print axioms Layer.C33_vector
#print axioms Layer.C33_vector_refuses
#print axioms Layer.C33_vector_cold
#print axioms Layer.C33_torque_orthogonal
#print axioms Layer.C33_torque_is_llg
#print axioms Layer.C33_volume
#print axioms Junction.C33_steps_refuse
#print axioms Stack.C34_magnetisation
#print axioms Stack.C34_completes
#print axioms Stack.C34_constructor
#print axioms Stack.C34_couplings
#print axioms Stack.C34_delayed
#print axioms Stack.C34_index
#print axioms Stack.C34_reachable
#print axioms Stack.C35_common_reference
#print axioms Stack.C35_delayed
#print axioms Stack.C35_direct
#print axioms Stack.C35_run
#print axioms Stack.C35_zero_coupling
#print axioms Stack.C35_value_partial
#print axioms Stack.C36_run
#print axioms Stack.C36_formula
#print axioms Stack.C36_bounds
#print axioms Stack.C37_independent_partial
#print axioms Stack.C37_mixed_refuted
#print axioms Stack.C38_aligned
#print axioms Stack.C38_rows
#print axioms Stack.C38_save
#print axioms Stack.C38_members
#print axioms Stack.C38_time
#print axioms GroupInteraction.C39_completes
#print axioms GroupInteraction.C39_apart
#print axioms GroupInteraction.C39_order_refuted
#print axioms GroupInteraction.C39_step_order
#print axioms GroupInteraction.C39_order_partial
#print axioms GroupInteraction.C39_accepted
#print axioms GroupInteraction.C39_accepted_real
#print axioms GroupInteraction.C39_simultaneous
#print axioms GroupInteraction.C39_blind
#print axioms GroupInteraction.C40_mixed_refuted
#print axioms GroupInteraction.C40_independent_partial
#print axioms Dipole.C41_tensor_function
#print axioms Dipole.C41_default_function
#print axioms Dipole.C41_agreement_refuted
#print axioms Dipole.C41_physical
#print axioms Dipole.C41_tensor
#print axioms Reservoir.C42_constructor
#print axioms Reservoir.C42_step_actual
#print axioms Reservoir.C42_last_partial
#print axioms Reservoir.C42_last_ignored
#print axioms Reservoir.C42_refuted
#print axioms LLGBLayer.C43_coefficients
#print axioms LLGBLayer.C43_below
#print axioms LLGBLayer.C43_above
#print axioms LLGBLayer.C43_longitudinal
#print axioms LLGBLayer.C43_field
#print axioms LLGBLayer.C43_equation
#print axioms LLGBLayer.C43_length_rate
#print axioms LLGBLayer.C43_relaxes_partial
#print axioms LLGBLayer.C43_equilibrium
#print axioms LLGBLayer.C43_paramagnetic
#print axioms LLGBLayer.C43_zero_temperature
#print axioms LLGBJunction.C44_fields_vanish
#print axioms LLGBJunction.C44_noise_ignored
#print axioms LLGBJunction.C44_refuted
#print axioms LLGB.C45_stops
#print axioms LLGB.C45_reported
#print axioms LLGB.C45_no_iterations
#print axioms LLGB.C45_self_consistent_partial
#print axioms BufferedAlphaNoise.C46_nth
#print axioms BufferedAlphaNoise.C46_refills
#print axioms BufferedAlphaNoise.C46_manual_fill
#print axioms BufferedAlphaNoise.C46_zero_refuted
#print axioms VectorAlphaNoise.C47_scalar
#print axioms VectorAlphaNoise.C47_axis_none
#print axioms VectorAlphaNoise.C47_previous
#print axioms VectorAlphaNoise.C47_one_axis
#print axioms VectorAlphaNoise.C47_all_axes
#print axioms OneFNoise.C47_oneF
#print axioms OneFNoise.C47_oneF_touches
#print axioms PinkNoise.C47_pink
#print axioms VectorObj.C48_cartesian
#print axioms VectorObj.C48_cvector
#print axioms VectorObj.C48_equal
#print axioms VectorObj.C48_spherical
#print axioms VectorObj.C48_range
#print axioms VectorObj.C48_norm
#print axioms VectorObj.C48_arith
#print axioms PyGeneral.C48_box_muller
#print axioms FieldScan.C49_unit
#print axioms FieldScan.C49_vector
#print axioms FieldScan.C49_to_angles
#print axioms FieldScan.C49_from_angles
#print axioms FieldScan.C49_span
#print axioms FieldScan.C49_amplitude
#print axioms FieldScan.C49_back
#print axioms FieldScan.C49_theta
#print axioms FieldScan.C49_phi
#print axioms PyResistance.C50_gmr_partial
#print axioms PyResistance.C50_extremes
#print axioms PyResistance.C50_sign_refuted
#print axioms PyResistance.C50_layers
#print axioms PyResistance.C50_angular
#print axioms PyResistance.C50_polar_refuted
#print axioms PyResistance.C50_linearised_refuted
#print axioms PyParallel.C51_distribute_partial
#print axioms PyParallel.C51_values
#print axioms PyParallel.C51_repeated_refuted
#print axioms PyOptim.C52_best
#print axioms PyOptim.C52_params_partial
#print axioms PyOptim.C52_params_refuted
#print axioms RootFinder.C53_sound
#print axioms RootFinder.C53_separated
#print axioms RootFinder.C53_complete
#print axioms RootFinder.C53_skip
#print axioms RootFinder.C53_reuse_refuted
#print axioms Ensemble.C54_symmetric
#print axioms Ensemble.C54_antisymmetric
#print axioms Ensemble.C54_mixed
#print axioms SB.C55_accept
#print axioms SB.C55_ten
#print axioms SB.C55_references
#print axioms SB.C55_mutual
#print axioms SB.C55_symbols
#print axioms SB.C56_hermitian
#print axioms SB.C56_entries
#print axioms SB.C56_uncoupled
#print axioms SB.C56_single
#print axioms SB.C56_kittel
#print axioms SB.C56_resonance_partial
#print axioms SB.C56_thickness_refuted
#print axioms SB.C56_choice
#print axioms SB.C57_adam
#print axioms SB.C57_adam_count
#print axioms SB.C57_adam_rest
#print axioms SB.C57_amsgrad
#print axioms SB.C57_amsgrad_count
#print axioms SB.C57_amsgrad_rest
#print axioms Oersted.C58_field
#print axioms Oersted.C58_others
#print axioms Oersted.C58_total_partial
#print axioms Oersted.C58_total_refuted
#print axioms Oersted.C58_default_region_refuted
#print axioms Oersted.C58_coordinates
#print axioms Oersted.C58_compute_ok
#print axioms Oersted.C58_biot_savart_refuted
#print axioms Oersted.C58_element
#print axioms Oersted.C58_again
#print axioms Domain.C59_rows
#print axioms Domain.C59_first_partial
#print axioms Domain.C59_second_refuted
#print axioms Filters.C60_rows
#print axioms Filters.C60_columns
#print axioms PyResistance.C61_circuit
#print axioms PyResistance.C61_errors
#print axioms PyResistance.C61_strip
#print axioms PyPlotting.C62_cells_partial
#print axioms PyPlotting.C62_one_axis_partial
#print axioms PyPlotting.C62_diagonal_refuted
#print axioms PyPlotting.C62_lengths_refuted
#print axioms Proc.C63_partial
#print axioms Proc.C63_one_layer
#print axioms Proc.C63_refuted
#print axioms Reservoir.C64_group
#print axioms Reservoir.C64_reservoir_actual
#print axioms Reservoir.C64_refuted
#print axioms LLGB.C65_langevin
#print axioms LLGB.C65_derivative
#print axioms LLGB.C65_slope
#print axioms LLGB.C65_range
#print axioms LLGB.C65_monotone
#print axioms LLGB.C65_curie
#print axioms LLGBJunction.C66_aligned
#print axioms LLGBJunction.C66_save
#print axioms LLGBJunction.C66_clear
#print axioms LLGBJunction.C66_run
#print axioms LLGBJunction.C66_recorded_eulerHeun_partial
#print axioms LLGBJunction.C66_recorded_heun
#print axioms LLGBJunction.C66_recorded_refuted
#print axioms LLGBJunction.C66_alphas_heun
#print axioms LLGBJunction.C66_alphas_eulerHeun
#print axioms LLGBJunction.C67_reaches
#print axioms LLGBJunction.C67_unknown
#print axioms GroupInteraction.C68_shape
#print axioms GroupInteraction.C68_aligned
#print axioms GroupInteraction.C68_clear
#print axioms GroupInteraction.C68_getLog
#print axioms GroupInteraction.C68_run
#print axioms Reservoir.C69_aligned
#print axioms Reservoir.C69_names
#print axioms Reservoir.C69_run
#print axioms Reservoir.C69_all
#print axioms Reservoir.C69_one
#print axioms Reservoir.C69_get_clear
#print axioms Reservoir.C69_save
#print axioms AlphaFilter.C70_weights
#print axioms AlphaFilter.C70_special
#print axioms AlphaFilter.C70_actual
#print axioms AlphaFilter.C70_linear
#print axioms AlphaFilter.C70_refuted
#print axioms PyResistance.C71_series
#print axioms PyResistance.C71_parallel
#print axioms PyResistance.C71_denominator
#print axioms PyResistance.C71_circuits
#print axioms Ensemble.C72_meinert
#print axioms Oersted.C73_centres_refuted
#print axioms Oersted.C74_regions
#print axioms Domain.C75_two_walls
#print axioms Domain.C75_walker
#print axioms Domain.C75_steady
#print axioms Domain.C75_spin_transfer
#print axioms Domain.C75_current
#print axioms Domain.C75_constructor
#print axioms Domain.C75_rest
#print axioms Domain.C75_width
#print axioms Domain.C75_coupling
#print axioms Domain.C75_contribution
#print axioms Domain.C76_edge
#print axioms Domain.C76_pinning_refuted
#print axioms Domain.C76_period
#print axioms LLGBLayer.C77_constructor
#print axioms LLGBJunction.C77_heun
#print axioms LLGBJunction.C77_eulerHeun
#print axioms LLGBJunction.C77_modes
#print axioms SB.C78_energy
#print axioms SB.C79_own
#print axioms SB.C80_reversal
#print axioms SB.C80_rotation
#print axioms SB.C80_upside_down
#print axioms SB.C81_landau_lifshitz
#print axioms SB.C81_field
#print axioms SB.C81_dissipation
#print axioms SB.C81_decreases
#print axioms SB.C81_torque_refuted
#print axioms SB.C81_torque_actual
#print axioms SB.C82_equilibria
#print axioms SB.C83_rows
#print axioms SB.C83_linearised
#print axioms SB.C83_single
#print axioms SB.C83_frequencies
#print axioms SB.C83_modes_refuted
#print axioms SB.C84_raises_refuted
#print axioms SB.C84_given_partial
#print axioms SB.C84_refuted
#print axioms SB.C84_start
#print axioms SB.C85_drive
#print axioms SB.C85_actual
#print axioms SB.C85_refuted
#print axioms SB.C86_equal_partial
#print axioms SB.C86_equal_refuted
#print axioms SB.C86_dynamic_partial
#print axioms Proc.C87_scan
#print axioms Proc.C87_refused
#print axioms Proc.C87_completes
#print axioms Proc.C87_parts
#print axioms Proc.C87_average
#print axioms Proc.C88_empty
#print axioms Proc.C88_frequencies
#print axioms Proc.C88_tone
#print axioms Proc.C88_power
#print axioms Proc.C88_layers
#print axioms Proc.C89_resistance_partial
#print axioms Proc.C89_refuted
#print axioms Proc.C90_grid
#print axioms Proc.C90_linear
#print axioms Proc.C90_completes
#print axioms Proc.C90_refused
#print axioms Compute.C91_value_partial
#print axioms Compute.C91_refused
#print axioms Compute.C91_late_refuted
#print axioms Compute.C91_rectified
#print axioms Compute.C91_junction
#print axioms Compute.C92_spectrum_partial
#print axioms Compute.C92_tone
#print axioms Compute.C92_mean_refuted
#print axioms Compute.C92_refused
#print axioms Compute.C92_empty_refuted
#print axioms Compute.C92_lengths_refuted
#print axioms Compute.C92_junction
#print axioms Compute.C93_spectrum_partial
#print axioms Compute.C93_short
#print axioms Compute.C93_order
#print axioms Compute.C93_single
#print axioms Compute.C93_refuted
#print axioms Energy.C94_energy_partial
#print axioms Energy.C94_underscore
#print axioms Energy.C94_foreign
#print axioms Energy.C94_names_refuted
#print axioms Energy.C94_underscore_refuted
#print axioms PyNoise.C95_rows
#print axioms PyNoise.C95_event_partial
#print axioms PyNoise.C95_between
#print axioms PyNoise.C95_counts
#print axioms PyNoise.C95_volumes
#print axioms PyNoise.C95_periods
#print axioms PyNoise.C95_common
#print axioms PyNoise.C95_refused
#print axioms PyNoise.C95_oscillations
#print axioms PyNoise.C95_thermal
#print axioms PyNoise.C95_plateau_refuted
#print axioms PyNoise.C96_circular
#print axioms PyNoise.C96_unit
#print axioms PyNoise.C96_bound
#print axioms PyNoise.C96_affine
#print axioms PyNoise.C96_linear_refuted
#print axioms PyNoise.C96_linear_partial
#print axioms PyFilters.C97_lowpass
#print axioms PyFilters.C97_lowpass_errors
#print axioms PyFilters.C97_units
#print axioms PyFilters.C97_band_partial
#print axioms PyFilters.C97_ignores_fs
#print axioms PyFilters.C97_hertz
#print axioms PyFilters.C97_band_refuted
#print axioms PyFilters.C97_float
#print axioms PyFilters.C97_linear
#print axioms PyFilters.C97_causal
#print axioms PyFilters.C97_delay
#print axioms PyDrivers.C98_sine
#print axioms PyDrivers.C98_same_partial
#print axioms PyDrivers.C98_same_refuted
#print axioms PyDrivers.C98_decay
#print axioms PyDrivers.C98_gaussian
#print axioms PyDrivers.C98_sigma_refuted
#print axioms View.C99_vector
#print axioms View.C99_angles
#print axioms View.C99_excitation
#print axioms View.C99_sweep_refuted
