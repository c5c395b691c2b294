import Verif.Props.Accumulate
import Verif.Props.Action
import Verif.Props.Agrawal
import Verif.Props.Arrival
import Verif.Props.Attr
import Verif.Props.Balance
import Verif.Props.Bounded
import Verif.Props.Buffered
import Verif.Props.Build
import Verif.Props.Butter
import Verif.Props.Cache
import Verif.Props.Capacity
import Verif.Props.Checkpoint
import Verif.Props.Circuits
import Verif.Props.Clements
import Verif.Props.Components
import Verif.Props.Construct
import Verif.Props.Continuum
import Verif.Props.Crow
import Verif.Props.Detector
import Verif.Props.DetectorCall
import Verif.Props.Devices
import Verif.Props.Dispersion
import Verif.Props.Draw
import Verif.Props.Drift
import Verif.Props.Energy
import Verif.Props.EnvConstruct
import Verif.Props.EnvCopy
import Verif.Props.ErrorRate
import Verif.Props.Exact
import Verif.Props.Factory
import Verif.Props.Filters
import Verif.Props.Gear
import Verif.Props.Gradient
import Verif.Props.Graph
import Verif.Props.Impulse
import Verif.Props.Interferometer
import Verif.Props.Keywords
import Verif.Props.Lasting
import Verif.Props.Length
import Verif.Props.Linear
import Verif.Props.Link
import Verif.Props.Loss
import Verif.Props.Lossy
import Verif.Props.Mesh
import Verif.Props.Michelson
import Verif.Props.Modulate
import Verif.Props.Named
import Verif.Props.Nested
import Verif.Props.Noise
import Verif.Props.Numbers
import Verif.Props.Opened
import Verif.Props.Order
import Verif.Props.OrderActive
import Verif.Props.Parts
import Verif.Props.Period
import Verif.Props.Pinned
import Verif.Props.Plot
import Verif.Props.Ports
import Verif.Props.PortsExact
import Verif.Props.Powers
import Verif.Props.Readout
import Verif.Props.Reduction
import Verif.Props.Replace
import Verif.Props.Responses
import Verif.Props.RingChain
import Verif.Props.Rounded
import Verif.Props.RoundedBounded
import Verif.Props.RoundedCopy
import Verif.Props.RoundedCoupler
import Verif.Props.RoundedDelay
import Verif.Props.RoundedMesh
import Verif.Props.RoundedMzi
import Verif.Props.RoundedSignal
import Verif.Props.RoundedWave
import Verif.Props.Scoping
import Verif.Props.Seeded
import Verif.Props.Sensitive
import Verif.Props.SensitiveMesh
import Verif.Props.SensitiveTime
import Verif.Props.Series
import Verif.Props.Settle
import Verif.Props.Shaped
import Verif.Props.Shared
import Verif.Props.Shelf
import Verif.Props.Show
import Verif.Props.ShowComp
import Verif.Props.Soa
import Verif.Props.Source
import Verif.Props.SourceArg
import Verif.Props.Spectrum
import Verif.Props.Stable
import Verif.Props.Stream
import Verif.Props.StreamFilter
import Verif.Props.TermList
import Verif.Props.Terminate
import Verif.Props.Threshold
import Verif.Props.TimeDomain
import Verif.Props.Tolerance
import Verif.Props.Topology
import Verif.Props.Train
import Verif.Props.Transmission
import Verif.Props.Undamped
import Verif.Props.Universal
import Verif.Props.UserComponents
import Verif.Props.Warning
import Verif.Props.Weights

/-! Prints the axioms of every theorem cited in MANIFEST.json. Generated by tools/gen_manifest.py. -/

#print axioms PT.C01_conflict_rejected
#print axioms PT.C01_bad_times_rejected
#print axioms PT.C01_only_these
#print axioms PT.C02_num_t_grid
#print axioms PT.C02_accepted
#print axioms PT.C02_default
#print axioms PT.C03_interval_grid
#print axioms PT.C03_accepted
#print axioms PT.C04_time_attributes
#print axioms PT.C04_uniform_end
#print axioms PT.C04_bit_arguments
#print axioms PT.C05_num_wl_grid
#print axioms PT.C05_accepted
#print axioms PT.C05_dwl_grid
#print axioms PT.C06_violation
#print axioms PT.C06_always_fails
#print axioms PT.C06_freq_bounds_partial
#print axioms PT.C06_df_partial
#print axioms PT.C07_violation
#print axioms PT.C07_copy_exact_iff
#print axioms PT.C07_copy_partial
#print axioms PT.C07_override_wavelengths
#print axioms PT.C07_override_time
#print axioms PT.C07_override_num_t
#print axioms PT.C08_frozen
#print axioms PT.C08_stored
#print axioms PT.C08_delete_unlocks
#print axioms PT.C09_lexical_environments
#print axioms PT.C09_stack_restored
#print axioms PT.C09_inside
#print axioms PT.C09_none_open
#print axioms PT.C09_set
#print axioms PT.C10_violation
#print axioms PT.C10_gradient_mode_partial
#print axioms PT.C10_block_restores_partial
#print axioms PT.C11_freqdomain
#print axioms PT.C11_single_sample
#print axioms PT.C12_violation
#print axioms PT.C12_eq_partial
#print axioms PT.C12_iff_partial
#print axioms PT.C12_short_partial
#print axioms PT.C13_link
#print axioms PT.C13_text_injective
#print axioms PT.C14_reciprocal
#print axioms PT.C15_exact
#print axioms PT.C16_unknown_component
#print axioms PT.C16_bad_part
#print axioms PT.C16_port_too_high
#print axioms PT.C16_same_port
#print axioms PT.C16_external_too_high
#print axioms PT.C16_violation
#print axioms PT.C16_no_self_partial
#print axioms PT.C16_self_iff_partial
#print axioms PT.C17_numbering
#print axioms PT.C18_violation
#print axioms PT.C18_numbering_partial
#print axioms PT.C19_violation
#print axioms PT.C19_permutation_partial
#print axioms PT.C19_iff_partial
#print axioms PT.C19_clean_partial
#print axioms PT.C20_terminate
#print axioms PT.C20_no_free_ports
#print axioms PT.C20_too_many_terms
#print axioms PT.C20_single
#print axioms PT.C20_list
#print axioms PT.C21_violation
#print axioms PT.C21_named_never
#print axioms PT.C21_not_terminated
#print axioms PT.C21_unterminate_partial
#print axioms PT.C22_violation
#print axioms PT.C22_lexical_networks_partial
#print axioms PT.C22_exception_leaks
#print axioms PT.C23_violation
#print axioms PT.C23_poisoned_forever
#print axioms PT.C23_repair_partial
#print axioms PT.C24_violation
#print axioms PT.C24_pairing_partial
#print axioms PT.C24_iff_partial
#print axioms PT.C25_failure
#print axioms PT.C25_solution
#print axioms PT.C26_time_domain
#print axioms PT.C26_initialized
#print axioms PT.C27_freq_domain
#print axioms PT.C28_steps
#print axioms PT.C28_buffer_size
#print axioms PT.C28_rounding
#print axioms PT.C29_linear
#print axioms PT.C29_power
#print axioms PT.C30_causal
#print axioms PT.C30_shift
#print axioms PT.C31_independent
#print axioms PT.C31_local
#print axioms PT.C32_energy
#print axioms PT.C33_lossless
#print axioms PT.C34_reciprocity
#print axioms PT.C34_reciprocal_signals
#print axioms PT.C35_settled
#print axioms PT.C36_channels
#print axioms PT.C37_violation
#print axioms PT.C37_fresh_partial
#print axioms PT.C37_history_partial
#print axioms PT.C38_named
#print axioms PT.C38_unnamed_four
#print axioms PT.C38_unnamed_five
#print axioms PT.C38_scalar
#print axioms PT.C38_partly_named
#print axioms PT.C38_bad_dimension
#print axioms PT.C38_bad_name
#print axioms PT.C38_wrong_size
#print axioms PT.C38_forward
#print axioms PT.C39_violation
#print axioms PT.C39_cut_partial
#print axioms PT.C39_two_samples_partial
#print axioms PT.C40_violation
#print axioms PT.C40_own_ports_partial
#print axioms PT.C41_violation
#print axioms PT.C41_single_node_partial
#print axioms PT.C42_unitary
#print axioms PT.C43_violation
#print axioms PT.C43_reciprocal_partial
#print axioms PT.C44_violation
#print axioms PT.C44_waveguide_partial
#print axioms PT.C44_coupler_partial
#print axioms PT.C45_series
#print axioms PT.C45_phase
#print axioms PT.C46_value
#print axioms PT.C46_rejected
#print axioms PT.C46_bounds
#print axioms PT.C47_soa_partial
#print axioms PT.C47_physics_partial
#print axioms PT.C47_stationary_partial
#print axioms PT.C47_saturation_partial
#print axioms PT.C47_violation
#print axioms PT.C47_phase_violation
#print axioms PT.C48_entries
#print axioms PT.C48_left
#print axioms PT.C48_right
#print axioms PT.C49_samples
#print axioms PT.C49_cutoff
#print axioms PT.C50_fraction
#print axioms PT.C51_bounds
#print axioms PT.C51_violation
#print axioms PT.C51_perfect_partial
#print axioms PT.C51_exact_partial
#print axioms PT.C52_violation
#print axioms PT.C52_ber_violation
#print axioms PT.C52_mse_partial
#print axioms PT.C52_ber_partial
#print axioms PT.C52_negative_partial
#print axioms PT.C53_formula
#print axioms PT.C53_nonneg
#print axioms PT.C53_zero_iff
#print axioms PT.C53_symmetric
#print axioms PT.C53_warmup
#print axioms PT.C53_constant
#print axioms PT.C53_lengths
#print axioms PT.C54_violation
#print axioms PT.C54_short_violation
#print axioms PT.C54_length_violation
#print axioms PT.C54_palindromic_partial
#print axioms PT.C55_violation
#print axioms PT.C55_nyquist
#print axioms PT.C55_axis_partial
#print axioms PT.C55_filter_partial
#print axioms PT.C55_linear_partial
#print axioms PT.C55_causal_partial
#print axioms PT.C55_amplitude_partial
#print axioms PT.C56_unitary
#print axioms PT.C56_network
#print axioms PT.C56_constructor
#print axioms PT.C56_terminate
#print axioms PT.C57_unitary
#print axioms PT.C57_network
#print axioms PT.C57_no_connections
#print axioms PT.C58_ring
#print axioms PT.C58_odd
#print axioms PT.C59_violation
#print axioms PT.C59_nested_violation
#print axioms PT.C59_wavelength_violation
#print axioms PT.C59_time_partial
#print axioms PT.C59_nobatch_partial
#print axioms PT.C59_freq_partial
#print axioms PT.C59_selected_partial
#print axioms PT.C59_axis
#print axioms PT.C60_violation
#print axioms PT.C60_partial
#print axioms PT.C61_accepted
#print axioms PT.C62_violation
#print axioms PT.C62_recovery_partial
#print axioms PT.C63_violation
#print axioms PT.C64_iff
#print axioms PT.C64_violation
#print axioms PT.C65_violation
#print axioms PT.C65_contracts_partial
#print axioms PT.C65_grating_partial
#print axioms PT.C65_grating_iff_partial
#print axioms PT.C66_time_domain
#print axioms PT.C66_freq_domain
#print axioms PT.C66_scattering
#print axioms PT.C66_energy
#print axioms PT.C66_power
#print axioms PT.C66_lossless
#print axioms PT.C66_reciprocity
#print axioms PT.C67_active
#print axioms PT.C68_violation
#print axioms PT.C68_gain_partial
#print axioms PT.C69_violation
#print axioms PT.C69_inside_partial
#print axioms PT.C70_violation
#print axioms PT.C70_array_partial
#print axioms PT.C71_filtered
#print axioms PT.C72_precedence
#print axioms PT.C73_violation
#print axioms PT.C74_violation
#print axioms PT.C74_nan_violation
#print axioms PT.C74_noiseless
#print axioms PT.C75_initialized
#print axioms PT.C75_unitary
#print axioms PT.C76_reck
#print axioms PT.C76_exact
#print axioms PT.C76_iff
#print axioms PT.C77_violation
#print axioms PT.C77_last_partial
#print axioms PT.C77_sticky
#print axioms PT.C77_rejects
#print axioms PT.C78_violation
#print axioms PT.C78_external
#print axioms PT.C78_graph
#print axioms PT.C78_closed_partial
#print axioms PT.C78_labels
#print axioms PT.C79_violation
#print axioms PT.C79_arrays
#print axioms PT.C79_broadcast
#print axioms PT.C79_unusable
#print axioms PT.C79_forms_partial
#print axioms PT.C80_violation
#print axioms PT.C80_rejects_partial
#print axioms PT.C80_trained
#print axioms PT.C81_violation
#print axioms PT.C81_waveguide_partial
#print axioms PT.C81_mzi_partial
#print axioms PT.C81_reference
#print axioms PT.C81_period
#print axioms PT.C82_settles
#print axioms PT.C82_feedforward
#print axioms PT.C82_lossy
#print axioms PT.C83_modulated
#print axioms PT.C84_violation
#print axioms PT.C84_amplifies_partial
#print axioms PT.C85_loops
#print axioms PT.C85_absorbing
#print axioms PT.C85_ring
#print axioms PT.C86_violation
#print axioms PT.C86_override_partial
#print axioms PT.C86_photo_partial
#print axioms PT.C86_rejected
#print axioms PT.C86_call
#print axioms PT.C86_default
#print axioms PT.C87_clements
#print axioms PT.C87_capacity
#print axioms PT.C87_iff
#print axioms PT.C88_to_partial
#print axioms PT.C88_cuda
#print axioms PT.C88_dtype_violation
#print axioms PT.C88_terminate_violation
#print axioms PT.C88_terminate_partial
#print axioms PT.C88_terminate_terms
#print axioms PT.C88_mesh
#print axioms PT.C89_all_pass
#print axioms PT.C89_round_trips
#print axioms PT.C89_add_drop
#print axioms PT.C89_passive
#print axioms PT.C89_lossless
#print axioms PT.C89_critical
#print axioms PT.C90_nearby
#print axioms PT.C90_differentiable
#print axioms PT.C90_power
#print axioms PT.C90_derivative_time
#print axioms PT.C90_derivative_freq
#print axioms PT.C91_grating
#print axioms PT.C91_bandwidth
#print axioms PT.C91_realistic
#print axioms PT.C91_series
#print axioms PT.C91_ratios
#print axioms PT.C91_delays
#print axioms PT.C92_violation
#print axioms PT.C92_roles_partial
#print axioms PT.C92_numbers
#print axioms PT.C93_frequency
#print axioms PT.C93_time
#print axioms PT.C93_xor
#print axioms PT.C94_built
#print axioms PT.C94_frequency
#print axioms PT.C94_time
#print axioms PT.C94_initialized
#print axioms PT.C95_response
#print axioms PT.C95_passive
#print axioms PT.C95_lossless
#print axioms PT.C96_closed
#print axioms PT.C96_built
#print axioms PT.C96_built_declared
#print axioms PT.C96_initialized
#print axioms PT.C96_frequency
#print axioms PT.C96_time
#print axioms PT.C97_initialized
#print axioms PT.C97_frequency
#print axioms PT.C97_time
#print axioms PT.C97_joined
#print axioms PT.C97_active_initialized
#print axioms PT.C97_active
#print axioms PT.C98_built
#print axioms PT.C98_run
#print axioms PT.C98_initialized
#print axioms PT.C98_passive
#print axioms PT.C98_parts
#print axioms PT.C98_soas
#print axioms PT.C99_violation
#print axioms PT.C99_gain_partial
#print axioms PT.C99_step
#print axioms PT.C99_row_partial
#print axioms PT.C100_violation
#print axioms PT.C100_nested_partial
#print axioms PT.C101_violation
#print axioms PT.C101_violation_failed
#print axioms PT.C101_initialized_partial
#print axioms PT.C101_unshared_partial
#print axioms PT.C102_composed
#print axioms PT.C102_alike
#print axioms PT.C102_alike_time
#print axioms PT.C102_frequency
#print axioms PT.C102_time
#print axioms PT.C102_initialized
#print axioms PT.C102_initialized_time
#print axioms PT.C103_violation
#print axioms PT.C103_steady
#print axioms PT.C103_time_partial
#print axioms PT.C103_iff_partial
#print axioms PT.C103_rounding
#print axioms PT.C103_still
#print axioms PT.C103_still_time
#print axioms PT.C104_clements
#print axioms PT.C104_reck
#print axioms PT.C104_pulse
#print axioms PT.C104_universal
#print axioms PT.C105_violation
#print axioms PT.C105_rounding
#print axioms PT.C105_exact
#print axioms PT.C105_partial
#print axioms PT.C106_violation
#print axioms PT.C106_partial
#print axioms PT.C106_multiple_partial
#print axioms PT.C107_violation
#print axioms PT.C107_bitlength_violation
#print axioms PT.C107_partial
#print axioms PT.C107_zero_partial
#print axioms PT.C107_bits_partial
#print axioms PT.C108_copy
#print axioms PT.C108_grid
#print axioms PT.C109_legacy
#print axioms PT.C109_extra
#print axioms PT.C110_str
#print axioms PT.C110_repr
#print axioms PT.C110_identifies_partial
#print axioms PT.C110_html
#print axioms PT.C110_html_partial
#print axioms PT.C110_violation
#print axioms PT.C110_eval_violation
#print axioms PT.C110_html_violation
#print axioms PT.C111_violation
#print axioms PT.C111_python
#print axioms PT.C111_complex
#print axioms PT.C111_partial
#print axioms PT.C112_time
#print axioms PT.C112_frequency
#print axioms PT.C112_accurate
#print axioms PT.C113_violation
#print axioms PT.C113_follows
#print axioms PT.C113_bounds_partial
#print axioms PT.C113_saturates
#print axioms PT.C113_parameters
#print axioms PT.C113_transparent
#print axioms PT.C114_convolution
#print axioms PT.C114_spectrum
#print axioms PT.C115_balance
#print axioms PT.C115_released
#print axioms PT.C115_feedforward
#print axioms PT.C115_reck
#print axioms PT.C115_clements
#print axioms PT.C116_network
#print axioms PT.C116_drift
#print axioms PT.C117_accepts
#print axioms PT.C117_made
#print axioms PT.C117_trained
#print axioms PT.C117_circuit
#print axioms PT.C117_rebuilt
#print axioms PT.C117_passive_partial
#print axioms PT.C117_violation
#print axioms PT.C118_drawing
#print axioms PT.C118_silent_partial
#print axioms PT.C118_always
#print axioms PT.C118_violation
#print axioms PT.C119_settles
#print axioms PT.C119_response
#print axioms PT.C119_nyquist
#print axioms PT.C119_bounded
#print axioms PT.C120_noise
#print axioms PT.C120_average
#print axioms PT.C121_numbers
#print axioms PT.C121_violation
#print axioms PT.C121_trained_partial
#print axioms PT.C121_accepted_partial
#print axioms PT.C122_violation
#print axioms PT.C122_gradient_partial
#print axioms PT.C122_descends
#print axioms PT.C123_chain
#print axioms PT.C123_add_drop
#print axioms PT.C124_clements
#print axioms PT.C124_reck
#print axioms PT.C124_ring
#print axioms PT.C124_ring_partial
#print axioms PT.C124_violation
#print axioms PT.C125_reck
#print axioms PT.C125_clements
#print axioms PT.C126_weights
#print axioms PT.C126_range
#print axioms PT.C126_trained
#print axioms PT.C127_eye
#print axioms PT.C127_rate
#print axioms PT.C127_line
#print axioms PT.C127_open
#print axioms PT.C127_threshold
#print axioms PT.C128_expected
#print axioms PT.C128_bound
#print axioms PT.C128_link
#print axioms PT.C129_solvable
#print axioms PT.C129_refines
#print axioms PT.C129_delayed
#print axioms PT.C129_ring
#print axioms PT.C130_restores_partial
#print axioms PT.C130_network_partial
#print axioms PT.C130_lengths
#print axioms PT.C130_violation
#print axioms PT.C131_tied
#print axioms PT.C131_violation
#print axioms PT.C131_loaded
#print axioms PT.C131_overwritten
#print axioms PT.C131_separate_partial
#print axioms PT.C132_follows
#print axioms PT.C132_eye
#print axioms PT.C132_link
#print axioms PT.C132_rise
#print axioms PT.C133_violation
#print axioms PT.C133_call_partial
#print axioms PT.C133_stream_partial
#print axioms PT.C133_filtered_partial
#print axioms PT.C133_mse_partial
#print axioms PT.C133_ber_partial
#print axioms PT.C133_env
#print axioms PT.C133_interval
#print axioms PT.C133_exact
#print axioms PT.C134_violation
#print axioms PT.C134_long_violation
#print axioms PT.C134_delay_partial
#print axioms PT.C134_call_partial
#print axioms PT.C134_buffer
#print axioms PT.C134_exact
#print axioms PT.C134_rounding
#print axioms PT.C135_initialized
#print axioms PT.C135_settles
#print axioms PT.C135_modulated
#print axioms PT.C135_spectrum
#print axioms PT.C135_deviation
#print axioms PT.C135_ring
#print axioms PT.C136_steady
#print axioms PT.C136_resonant
#print axioms PT.C136_passive
#print axioms PT.C136_settles
#print axioms PT.C136_equal
#print axioms PT.C137_periodic
#print axioms PT.C137_resonances
#print axioms PT.C137_ring
#print axioms PT.C138_with
#print axioms PT.C138_link
#print axioms PT.C138_add
#print axioms PT.C138_refused
#print axioms PT.C138_named
#print axioms PT.C139_violation
#print axioms PT.C139_link_partial
#print axioms PT.C140_violation
#print axioms PT.C140_list_partial
#print axioms PT.C140_nameless
#print axioms PT.C140_own_name
#print axioms PT.C141_repr
#print axioms PT.C141_parts
#print axioms PT.C142_violation
#print axioms PT.C142_ring_iff_partial
#print axioms PT.C142_transient
#print axioms PT.C142_grows
#print axioms PT.C142_stable_partial
#print axioms PT.C142_feedforward
#print axioms PT.C142_weighted
#print axioms PT.C142_named
#print axioms PT.C143_readout
#print axioms PT.C143_bound
#print axioms PT.C143_settles
#print axioms PT.C143_trained
#print axioms PT.C144_stored
#print axioms PT.C144_waveguide
#print axioms PT.C144_violation
#print axioms PT.C144_gain_partial
#print axioms PT.C145_violation
#print axioms PT.C145_bounds_violation
#print axioms PT.C145_given_partial
#print axioms PT.C145_ratio_partial
#print axioms PT.C145_trained
#print axioms PT.C145_split
#print axioms PT.C145_coupler
#print axioms PT.C146_violation
#print axioms PT.C146_validation_violation
#print axioms PT.C146_tidy_partial
#print axioms PT.C146_descent
#print axioms PT.C146_last
#print axioms PT.C147_violation
#print axioms PT.C147_power_partial
#print axioms PT.C147_mzi
#print axioms PT.C147_chain
#print axioms PT.C148_violation
#print axioms PT.C148_seed_partial
#print axioms PT.C148_history
#print axioms PT.C148_accepts
#print axioms PT.C148_minus_one
#print axioms PT.C149_near
#print axioms PT.C149_continuous
#print axioms PT.C149_feedforward
#print axioms PT.C149_absorbing
#print axioms PT.C149_components
#print axioms PT.C149_mesh
#print axioms PT.C150_near
#print axioms PT.C150_absorbing
#print axioms PT.C150_feedforward
#print axioms PT.C150_mesh
#print axioms PT.C151_clements
#print axioms PT.C151_reck
#print axioms PT.C152_split
#print axioms PT.C152_feedforward
#print axioms PT.C153_enhancement
#print axioms PT.C153_resonant
#print axioms PT.C153_rings
#print axioms PT.C154_components
#print axioms PT.C154_feedforward
#print axioms PT.C154_resonant
#print axioms PT.C154_rings
#print axioms PT.C155_components
#print axioms PT.C155_feedforward
#print axioms PT.C155_resonant
#print axioms PT.C155_continuous
#print axioms PT.C155_built
#print axioms PT.C156_components
#print axioms PT.C156_others
#print axioms PT.C156_feedforward
#print axioms PT.C156_resonant
#print axioms PT.C156_steps
#print axioms PT.C157_powers
#print axioms PT.C157_energies
