# ------------------------------------------------------------------ environment
c("C01", "proved", "C01_conflict_rejected C01_bad_times_rejected C01_only_these",
  "Rejected with ValueError exactly on conflicting or reversed-time arguments; the other ways to fail are listed by C01_only_these.")
c("C02", "proved", "C02_num_t_grid C02_accepted C02_default")
c("C03", "proved", "C03_interval_grid C03_accepted")
c("C04", "proved", "C04_time_attributes C04_uniform_end C04_bit_arguments")
c("C05", "proved", "C05_num_wl_grid C05_accepted C05_dwl_grid")
c("C06", "partial", "C06_violation C06_always_fails C06_freq_bounds_partial C06_df_partial",
  "REFUTED for wavelength bounds combined with num_f (C06_always_fails: ZeroDivisionError for every input). Proved part: frequency bounds with num_f or df.")
c("C07", "partial", "C07_violation C07_copy_exact_iff C07_copy_partial C07_override_wavelengths C07_override_time C07_override_num_t",
  "REFUTED as stated; C07_copy_exact_iff characterises exactly when a copy is equal.")
c("C08", "proved", "C08_frozen C08_stored C08_delete_unlocks",
  "C08_delete_unlocks records that `del` is not guarded.")
c("C09", "proved", "C09_lexical_environments C09_stack_restored C09_inside C09_none_open C09_set")
c("C10", "partial", "C10_violation C10_gradient_mode_partial C10_block_restores_partial",
  "REFUTED for re-entered environments; proved for all programs that do not re-enter an open environment.")
c("C11", "proved", "C11_freqdomain C11_single_sample")
c("C12", "partial", "C12_violation C12_eq_partial C12_iff_partial C12_short_partial", "REFUTED for non-uniform grids; proved for uniform ones and for at most three points; C12_iff_partial: exactly what is compared, for all environments.")
c("C60", "partial", "C60_violation C60_partial", "REFUTED: default t1 is compared with t0 although it is not used.")
# ------------------------------------------------------------------ scoping
c("C22", "partial", "C22_violation C22_lexical_networks_partial C22_exception_leaks",
  "REFUTED for exceptions caught outside a network's with-block; proved otherwise.")

c("C14", "proved", "C14_reciprocal", "All nesting depths, any accepted connection strings.")
c("C15", "proved", "C15_exact", "Component names are assumed usable (no colon, no outer white space, not an integer).")
c("C16", "partial", "C16_unknown_component C16_bad_part C16_port_too_high C16_same_port C16_external_too_high C16_violation C16_no_self_partial C16_self_iff_partial",
  "The rejections are proved. The clause 'no accepted network connects a port to itself' is REFUTED (C16_violation: 'w:1:w:-1'); C16_no_self_partial proves it for non-negative port numbers, C16_self_iff_partial says exactly when a port is connected to itself.")
c("C17", "proved", "C17_numbering", "Stated for sub-components that number their ports in order, which includes all basic components.")
c("C18", "partial", "C18_violation C18_numbering_partial C17_numbering",
  "REFUTED for declared external ports on sub-networks with permuted ports (C18_violation); C18_numbering_partial proves the numbering without declarations for any nesting.")
c("C19", "partial", "C19_violation C19_permutation_partial C19_iff_partial C19_clean_partial",
  "REFUTED for external numbers with gaps (C19_violation); proved for contiguous numbers, to any nesting depth; C19_iff_partial: exactly when it holds.")
c("C24", "partial", "C24_violation C24_pairing_partial C24_iff_partial C19_clean_partial",
  "The code does not enforce the hypothesis: without it the claim is REFUTED (C24_violation); with it the claim is proved; C24_iff_partial: exactly when it holds.")
c("C61", "proved", "C61_accepted", "The converse of C16: what is not ill-formed is accepted.")
c("C13", "proved", "C13_link C13_text_injective", "Ports are written in decimal; C15_exact and C17_numbering say what the recorded connections mean.")
c("C20", "proved", "C20_terminate C20_no_free_ports C20_too_many_terms C20_single C20_list",
  "C20_terminate is for networks without a name: named networks cannot be terminated at all, see C21. 'The original is unchanged' holds by construction of the model (terminate returns a new state).")
c("C21", "partial", "C21_violation C21_named_never C21_not_terminated C21_unterminate_partial",
  "REFUTED for every network with a name (C21_named_never); proved for networks without a name.")
c("C23", "partial", "C23_violation C23_poisoned_forever C23_repair_partial",
  "REFUTED: the failed connection is kept and all later links fail (C23_poisoned_forever); C23_repair_partial proves what holds.")
# ------------------------------------------------------------------ simulation
c("C25", "proved", "C25_failure C25_solution")
c("C26", "proved", "C26_time_domain C26_initialized", "Solutions exist and agree at the detectors. C26_initialized says when the network can be simulated.")
c("C27", "proved", "C27_freq_domain", "Assumes that sources and detectors do not scatter, which holds for Source, Detector and Term.")
c("C28", "proved", "C28_steps C28_buffer_size C28_rounding C26_time_domain")
c("C36", "proved", "C36_channels C26_time_domain")
c("C29", "proved", "C29_linear C29_power", "No active components; floating point numbers are real numbers.")
c("C30", "proved", "C30_causal C30_shift")
c("C31", "proved", "C31_independent C31_local", "The environment enters only through the wavelengths and batches simulated.")
c("C32", "proved", "C32_energy", "Paired ports are what C24_pairing_partial establishes for networks with distinct connections; terminals do not scatter.")
c("C33", "proved", "C33_lossless")
c("C34", "proved", "C34_reciprocity C34_reciprocal_signals", "Frequency domain, and time domain for arbitrary signals.")
c("C35", "proved", "C35_settled", "Convergence of the detected field is all that is assumed, not convergence of the internal fields.")
c("C37", "partial", "C37_violation C37_fresh_partial C37_history_partial",
  "REFUTED: without gradients, a parameter changed after the first simulation has no effect (C37_violation). Proved: what is returned after any history of calls and parameter changes (C37_history_partial), and that the first call or a call with gradients sees the current parameters (C37_fresh_partial).")
c("C62", "partial", "C62_violation C62_recovery_partial",
  "REFUTED by C62_violation; C62_recovery_partial proves when a call after a failure gives the right result.")
c("C38", "proved", "C38_named C38_unnamed_four C38_unnamed_five C38_scalar C38_partly_named C38_bad_dimension C38_bad_name C38_wrong_size C38_forward",
  "A dimension of size one is broadcast; the number of samples is C39.")
c("C39", "partial", "C39_violation C39_cut_partial C39_two_samples_partial",
  "REFUTED: every source with more than two samples that is shorter than the simulation is rejected. Proved: longer sources are cut, sources with two samples are continued with zeros.")
c("C40", "partial", "C40_violation C40_own_ports_partial",
  "REFUTED for nested networks with passive ports; proved for components that are active at all their ports or at none.")
c("C41", "partial", "C41_violation C41_single_node_partial",
  "REFUTED for every network with two or more nodes; networks with one node return an empty detector axis.")
c("C42", "proved", "C42_unitary", "Conservation of power for every incoming field, which is unitarity of the square matrix.")
c("C43", "partial", "C43_violation C43_reciprocal_partial",
  "REFUTED for LinearSoa (C43_violation, for every amplification); proved for all other components.")
c("C44", "partial", "C44_violation C44_waveguide_partial C44_coupler_partial",
  "REFUTED for Mzi (C44_violation); proved for Waveguide and DirectionalCouplerWithLength.")
c("C45", "proved", "C45_series C45_phase")
c("C48", "proved", "C48_entries C48_left C48_right C43_reciprocal_partial",
  "Reciprocity is the Mmi case of C43_reciprocal_partial. Weights given as a two-dimensional array.")
c("C64", "partial", "C64_iff C64_violation",
  "REFUTED with the default parameters (C64_violation); C64_iff proves exactly when it holds.")
c("C65", "partial", "C65_violation C65_contracts_partial C65_grating_partial C65_grating_iff_partial",
  "REFUTED for grating couplers with a reflection; proved for all other passive components; for grating couplers the exact condition is proved (C65_grating_iff_partial).")
c("C46", "proved", "C46_value C46_rejected C46_bounds",
  "Real arithmetic; weights are extended reals, since the weights at the bounds are infinite.")
c("C47", "partial", "C47_soa_partial C47_physics_partial C47_stationary_partial C47_saturation_partial C47_violation C47_phase_violation",
  "REFUTED for the last clause (AgrawalSoa: an imaginary field is never amplified); the clauses about Soa and about the stationary states are proved.")
c("C63", "partial", "C63_violation", "REFUTED for every circuit with such an amplifier, every signal and every step.")
c("C67", "proved", "C67_active", "For components that are active at all their ports or at none, and without coupling between delayed and undelayed ports (as C26).")
c("C68", "partial", "C68_violation C68_gain_partial C47_soa_partial",
  "REFUTED for startup times that are not multiples of dt. Proved: the exact gain at every step.")
c("C69", "partial", "C69_violation C69_inside_partial",
  "REFUTED for data at the bounds; proved for data strictly inside.")
c("C49", "proved", "C49_samples C49_cutoff", "Rates and counts are natural numbers; the filter is scipy's lfilter with arbitrary coefficients.")
c("C50", "proved", "C50_fraction", "For streams in which no channel is constantly one.")
c("C51", "partial", "C51_bounds C51_violation C51_perfect_partial C51_exact_partial",
  "REFUTED for constant-one targets (C51_violation: the loss is 1); bounds proved always, zero for perfect predictions of targets with a zero in every channel; C51_exact_partial: in general the fraction of channels that are constantly one.")
c("C52", "partial", "C52_violation C52_ber_violation C52_mse_partial C52_ber_partial C52_negative_partial",
  "REFUTED for negative latencies, for both losses; proved for non-negative ones. C52_negative_partial: a negative latency acts as one sample less.")
c("C53", "proved", "C53_formula C53_nonneg C53_zero_iff C53_symmetric C53_warmup C53_constant C53_lengths")
c("C54", "partial", "C54_violation C54_short_violation C54_length_violation C54_palindromic_partial",
  "REFUTED for every numerator that is not palindromic, for signals shorter than the filter, and for coefficient lists of different lengths; proved for equally long lists with palindromic numerator.")
c("C55", "partial", "C55_violation C55_nyquist C55_axis_partial C55_filter_partial C55_linear_partial C55_causal_partial C55_amplitude_partial",
  "REFUTED for power signals of two time steps; proved for all others with more steps than the filter order. butter is external: assumed to return order + 1 coefficients with denominator starting with 1.")
c("C70", "partial", "C70_violation C70_array_partial", "REFUTED for lists and tuples; proved for arrays.")
c("C71", "proved", "C71_filtered C49_cutoff", "butter is external: assumed to return a denominator with nonzero leading coefficient.")
c("C72", "proved", "C72_precedence")
c("C73", "partial", "C73_violation C55_axis_partial", "REFUTED for at most order time steps; proved for more (and not two).")
c("C74", "partial", "C74_violation C74_nan_violation C74_noiseless", "REFUTED for amplitudes with two time steps, and for powers that are negative somewhere (nan); proved for all other signals, loads other than zero and variances that are not negative.")
c("C56", "proved", "C56_unitary C56_network C56_constructor C56_terminate",
  "For arbitrary lossless reflection-free four-ports and waveguides, in particular all Mzi and lossless Waveguide objects; unnamed networks (named ones cannot be terminated, see C20).")
c("C57", "proved", "C57_unitary C57_network C57_no_connections",
  "As C56; both waveguides of a capacity-2 layer are one object, as in the code.")
c("C58", "proved", "C58_ring C58_odd", "For 0 < N.")
c("C66", "proved", "C66_time_domain C66_freq_domain C66_scattering C66_energy C66_power C66_lossless C66_reciprocity",
  "For circuits wired the documented way and without Soa/AgrawalSoa (for those see C67).")
c("C75", "proved", "C75_initialized C75_unitary")
c("C59", "partial", "C59_violation C59_nested_violation C59_wavelength_violation C59_time_partial C59_nobatch_partial C59_freq_partial C59_selected_partial C59_axis",
  "REFUTED for data at one wavelength when there are as many wavelengths as detectors, for detectors inside subnetworks, and for wavelengths less than a nanometer apart; proved for whole results of all sizes of networks without nested detectors, and for selected data of distinguishable shape.")
c("C76", "proved", "C76_reck C76_exact C76_iff", "In the frequency domain; waveguides without loss.")
c("C77", "partial", "C77_violation C77_last_partial C77_sticky C77_rejects", "REFUTED for a Buffer assigned after a BoundedParameter assigned after a Buffer; proved for attributes that are never set to a BoundedParameter.")
c("C78", "partial", "C78_violation C78_external C78_graph C78_closed_partial C78_labels", "REFUTED for networks with external connections; nodes and edges characterized exactly for all networks; proved for networks without external connections.")
c("C79", "partial", "C79_violation C79_arrays C79_broadcast C79_unusable C79_forms_partial", "REFUTED for three-dimensional arrays and malformed tensors; proved for all other documented forms.")
c("C80", "partial", "C80_violation C80_rejects_partial C80_trained", "REFUTED for couplers with trainable=False; proved for trainable couplers and all mirrors.")
c("C81", "partial", "C81_violation C81_waveguide_partial C81_mzi_partial C81_reference C81_period", "REFUTED for DirectionalCouplerWithLength; proved for waveguides and Mzis.")
c("C82", "proved", "C82_settles C82_feedforward C82_lossy", "For circuits wired the documented way of components whose scattering matrices are contractions.")
c("C83", "proved", "C83_modulated C82_feedforward C82_lossy", "For damped passive circuits (C82 gives two classes of them), in which every component satisfies the agreement of delay and dispersion (C81).")
c("C84", "partial", "C84_violation C84_amplifies_partial", "REFUTED for trained amplifiers; proved for every other amplifier, circuit and input.")
c("C85", "proved", "C85_loops C85_absorbing C85_ring", "For circuits wired the documented way.")
c("C86", "partial", "C86_violation C86_override_partial C86_photo_partial C86_rejected C86_call C86_default", "REFUTED for cutoffs above half the sample rate of the constructor; proved for all other detectors, calls and environments.")
c("C87", "proved", "C87_clements C87_capacity C87_iff", "In the frequency domain; waveguides without loss; capacity at least 2 (C57 for less).")
c("C88", "partial", "C88_to_partial C88_cuda C88_dtype_violation C88_terminate_violation C88_terminate_partial C88_terminate_terms C88_mesh", "REFUTED for to(dtype) and for Network.terminate on a gpu; proved for moves to a device, for terminate on the cpu and for the terminate methods of the mesh networks. Torch's own Module.to is modelled as moving all parameters and buffers of the tree.")
c("C89", "proved", "C89_all_pass C89_round_trips C89_add_drop C89_passive C89_lossless C89_critical", "The time domain for the ring on one bus with a ring of at least one step.")
c("C90", "proved", "C90_nearby C90_differentiable C90_power C90_derivative_time C90_derivative_freq", "For circuits wired the documented way and without Soa/AgrawalSoa; the parameters are phases, weights of couplings and reflectivities, amplifications and Mmi weights. That autograd computes the derivative is torch's part and not modelled.")
c("C91", "proved", "C91_grating C91_bandwidth C91_realistic C91_series C91_ratios C91_delays", "The reflections R and R_in of a grating coupler turn out to be amplitudes (Tmax is a power).")
c("C92", "partial", "C92_violation C92_roles_partial C92_numbers", "REFUTED for wrong port orders; proved for components whose port order is a permutation, and the orders that pass are characterized.")
c("C93", "proved", "C93_frequency C93_time C93_xor", "The streams are generated without the low-pass filter (cutoff None); BERLoss needs a zero among the expected bits (C52).")
c("C94", "proved", "C94_built C94_frequency C94_time C94_initialized", "Closed circuits of basic components with single-level wiring (nested networks: C66 by port numbers); without Soa/AgrawalSoa.")
c("C95", "proved", "C95_response C95_passive C95_lossless", "The wiring is that of the class Crow of examples/04_crow_optimization.ipynb, with the couplers and waveguides of the library; frequency domain.")
c("C96", "proved", "C96_closed C96_built C96_built_declared C96_initialized C96_frequency C96_time", "Networks to any depth; external ports are declared on basic components or left undeclared. For declarations on sub-networks with permuted ports the numbering is wrong (C18_violation), so the statement excludes declarations on sub-networks. Without Soa/AgrawalSoa.")
c("C97", "proved", "C97_initialized C97_frequency C97_time C97_joined C97_active_initialized C97_active", "Closed circuits of one level; C97_active for circuits with components of any kind, Soa and AgrawalSoa included.")
c("C98", "proved", "C98_built C98_run C98_initialized C98_passive C98_parts C98_soas", "Circuits of one level whose components are active with all ports or none; every component of the library is (C98_parts, C98_soas). Networks that mix active and passive components as parts of a larger circuit are covered by C43 by port number.")
c("C99", "partial", "C99_violation C99_gain_partial C99_step C99_row_partial", "REFUTED: the amplifier sends back everything that enters port 0. Proved in any circuit: gain and start-up, the dynamics of the state for any rate, and the detected power behind a source and a Soa.")
c("C100", "partial", "C100_violation C100_nested_partial", "REFUTED: a source and a Soa in a network of their own. Proved if networks with active components have no sources and only the last of them also has passive components (so for terminate() of any network without sources); for two networks with both active and passive components see C40_violation.")
c("C101", "partial", "C101_violation C101_violation_failed C101_initialized_partial C101_unshared_partial", "REFUTED: networks that share a Soa, and calls that raised. Proved for calls that initialize, and for every call if earlier calls were of networks without common components or succeeded.")

c("C102", "proved", "C102_composed C102_alike C102_alike_time C102_frequency C102_time C102_initialized C102_initialized_time", "Compositionality of the response; both domains.")
c("C103", "partial", "C103_violation C103_steady C103_time_partial C103_iff_partial C103_rounding C103_still C103_still_time", "REFUTED in the time domain (delays are rounded separately). Proved in the frequency domain, and in time exactly when the delays in steps add up (C103_iff_partial); they differ by at most one step (C103_rounding).")
c("C104", "proved", "C104_clements C104_reck C104_pulse C104_universal", "Time-domain response of the meshes when all components have the same delay in steps; capacity at least 2.")

c("C105", "partial", "C105_violation C105_rounding C105_exact C105_partial", "REFUTED in floating-point arithmetic: Environment(num_wl=51) has 50 wavelengths. Proved: N or N - 1, N for powers of two, and the positions up to precision. C105_rounding: the rounding used is that of IEEE 754; C105_exact: without rounding the constructor is that of C01-C12.")
c("C106", "partial", "C106_violation C106_partial C106_multiple_partial", "REFUTED in floating-point arithmetic: Environment(dt=1e-14, t1=2.3e-13) has 22 points. Proved: off by at most one, and exact unless the interval is a whole number of steps up to precision.")
c("C107", "partial", "C107_violation C107_bitlength_violation C107_partial C107_zero_partial C107_bits_partial", "REFUTED in floating-point arithmetic: Environment(dt=1e-14, num_t=23).dt is not 1e-14. Proved: number of points and first point exact, the rest up to stated error bounds.")
c("C108", "proved", "C108_copy C108_grid", "Any rounding function; C108_grid for IEEE 754 binary64.")
c("C109", "proved", "C109_legacy C109_extra", "Extra values are numbers in the model; that extra names do not collide with the names of methods is assumed. Private extra attributes are not copied and not compared (C07, C12 are about public attributes).")
c("C110", "partial", "C110_str C110_repr C110_identifies_partial C110_html C110_html_partial C110_violation C110_eval_violation C110_html_violation", "REFUTED: printed numbers have four digits, so different environments print alike; repr writes a call that the constructor always rejects; the html table does not escape. Proved: what the text and the call consist of, that the text identifies environments with short numbers and arrays, and the number of html rows for plain names.")
c("C111", "partial", "C111_violation C111_python C111_complex C111_partial", "REFUTED: numpy.array(1+0j) and python's complex numbers raise ValueError although 1.0 is accepted. Proved: four-dimensional complex arrays drive the sources as stated and like their real parts if they are real. That torch.tensor raises TypeError for python's complex numbers with a real dtype is an assumption about torch.")
c("C112", "proved", "C112_time C112_frequency C112_accurate", "Networks with at least one source, detector or active port (otherwise initialize returns earlier).")
c("C113", "partial", "C113_violation C113_follows C113_bounds_partial C113_saturates C113_parameters C113_transparent", "REFUTED without a condition on the time step: strong light drives the state below zero in one Euler step. Proved for dt (1 + p e^(g0 L)) <= tc in any circuit: first-order convergence to the rate equation uniformly in time, bounds on the gain, exponential approach to the saturated gain. Concerns the real part (C47: the imaginary part is not amplified).")
c("C114", "proved", "C114_convolution C114_spectrum", "C114_convolution: any network without active components. C114_spectrum: damped circuits of dispersive contracting components with delays that are whole numbers of steps.")
c("C115", "proved", "C115_balance C115_released C115_feedforward C115_reck C115_clements", "Circuits of lossless components, sources and detectors. Energies are sums of squared amplitudes over the steps. C115_released assumes that no wave circulates undamped (Damped); feed-forward circuits and meshes satisfy it.")
c("C116", "proved", "C116_network C116_drift", "Concerns forward with a given reduced network: the matrices of initialize are exact, only the steps are inexact. Without active components.")
c("C117", "partial", "C117_accepts C117_made C117_trained C117_circuit C117_rebuilt C117_passive_partial C117_violation", "REFUTED: the weights of an Mmi and the amplification of a LinearSoa are unbounded parameters, one optimizer step may turn a balanced splitter into an amplifier. Proved: constructors store their arguments, trainable or not; training moves exactly the trainable arguments and never ports, connections or delays; circuits of the other passive components stay passive. Training is any sequence of changes added to the registered parameters; gradients are not modelled.")
c("C118", "partial", "C118_drawing C118_silent_partial C118_always C118_violation", "REFUTED: Network.graph ignores its argument and always draws. Proved: what is drawn, for every layout and all random numbers; the function graph(network, draw=False) draws nothing. The layout of networkx and rendering by matplotlib are not modelled.")
c("C119", "proved", "C119_settles C119_response C119_nyquist C119_bounded", "Given that scipy.signal.butter designs the filter it documents (Spec.butterworth: poles of the analog filter, bilinear transform; its stability and response are proved). Signals of powers with more steps than the order and not exactly two (C55 and C73 show what happens to the others).")
c("C120", "proved", "C120_noise C120_average", "Given that scipy.signal.butter designs the Butterworth filter it documents and that torch.randn gives independent standard normal numbers. More steps than the order and not exactly two.")
c("C121", "partial", "C121_numbers C121_violation C121_trained_partial C121_accepted_partial", "REFUTED: couplings that are not trainable are not checked (nor center wavelengths and bandwidths), so a DirectionalCoupler(1.2, trainable=False) has nan in its scattering matrix. Proved: exactly which arguments give numbers, that these are the numbers of the formulas that all other theorems use, and that training cannot lead out of them. Overflow is not modelled.")
c("C122", "partial", "C122_violation C122_gradient_partial C122_descends", "REFUTED: at the bounds 0 and 1, which the constructors accept, autograd multiplies the infinite derivative of the root with the vanishing derivative of the sigmoid, and one step of gradient descent makes the parameter nan. Proved strictly between the bounds: the gradient is the derivative of the loss. The backward formulas of torch for pow and sigmoid are assumptions about torch.")
c("C123", "proved", "C123_chain C123_add_drop", "RingNetwork of width 2 with couplers, capacity at least 2, terminated as in examples/08_general_ring_networks.ipynb; frequency domain.")
c("C124", "partial", "C124_clements C124_reck C124_ring C124_ring_partial C124_violation", "REFUTED for RingNetwork with even capacities: capacity 2k builds the network of capacity 2k + 1, so the network drawn in the documentation cannot be made. Proved: Clements networks for all capacities at least 2, ring networks of odd capacity, Reck networks.")
c("C125", "proved", "C125_reck C125_clements", "For all values of the random numbers and all histories of training of the single components; frequency domain, and in time the number of steps after which light arrives. That an optimizer finds the step is not claimed.")
c("C126", "proved", "C126_weights C126_range C126_trained", "The network of examples/05_optical_readout.ipynb for every number of rings and all parameters; frequency domain. C126_range and C126_trained need passive rings (loss times length at least 0) with loss or coupling (sqrt(1 - k) a < 1). That an optimizer finds the step is not claimed; the Combiner of the notebook is user code and not modelled.")
c("C127", "proved", "C127_eye C127_rate C127_line C127_open C127_threshold", "Given that scipy.signal.butter designs the Butterworth filter it documents. Bits without cutoff in BitStreamGenerator, no channel whose bits are all one (C51), no noise (see C128). The number of samples per bit from which the eye is open is not computed.")
c("C128", "proved", "C128_expected C128_bound C128_link", "Given that scipy.signal.butter designs the Butterworth filter it documents and that torch.randn gives independent standard normal numbers. Bits as in C127; more steps than the order of the filter and not exactly two.")
c("C129", "proved", "C129_solvable C129_refines C129_delayed C129_ring", "Circuits of the components of the model (C58) without active components, with delays that are not negative and at least one detector; sources with bounded slope that are zero before the simulation starts. The constant in front of the time step is not computed. Exact arithmetic.")
c("C130", "partial", "C130_restores_partial C130_network_partial C130_lengths C130_violation", "REFUTED: a trainable coupling is saved as _coupling and one that is not trainable as coupling, so the state of a trained directional coupler cannot be loaded into one with trainable=False (the way to freeze a trained circuit that works for all other components). Proved for all other components and for couplers of equal trainability. state_dict and load_state_dict are torch's (strict loading); the buffers of Component.__init__ and what torch has copied when it raises are not modelled.")
c("C131", "partial", "C131_tied C131_violation C131_loaded C131_overwritten C131_separate_partial", "REFUTED: examples/03_circuit_optimization_by_backpropagation.ipynb says that copies of the component are saved, but all names stand for the same component. Proved: what holds instead (all names stay equal in training; the last name decides in loading), and that the saved state can be loaded into a network with separate components. state_dict and load_state_dict are torch's, as in C130.")
c("C132", "proved", "C132_follows C132_eye C132_link C132_rise", "Given that scipy.signal.butter designs the Butterworth filter it documents. Filter of order one (the default), rates and cutoff whole numbers of Hz; in C132_eye and C132_link a whole number of samples per bit and no channel whose bits are all one (C51); in C132_link a detector without filter. Higher orders, which overshoot, are not covered (see C71 and C119 for what holds for them).")
c("C133", "partial", "C133_violation C133_call_partial C133_stream_partial C133_filtered_partial C133_mse_partial C133_ber_partial C133_env C133_interval C133_exact", "REFUTED: the sample rate of an environment is 1/dt in floating-point arithmetic, so int(latency * samplerate / bitrate + 0.5) can be one sample too small when the latency is a half-integer number of samples. Proved: everything agrees with exact arithmetic away from these latencies (bit streams always, filtered ones up to the last digits of the normalized cutoff). Rates are whole numbers of Hz up to 2^47; powers are real numbers; no overflow.")
c("C134", "partial", "C134_violation C134_long_violation C134_delay_partial C134_call_partial C134_buffer C134_exact C134_rounding", "REFUTED: delays are stored, divided by the time step and rounded in torch's default type (binary32), so a delay that is half a time step off a whole number of time steps can be rounded down instead of up, and odd delays above 2^23 time steps are one too long. Proved: exact away from half-integer numbers of time steps (within relative 2^-21), in particular for up to a million whole time steps; the buffer is always exactly as long as the longest delay requires. Operations of tensors with python numbers as torch does them on the cpu; no overflow.")
c("C135", "proved", "C135_initialized C135_settles C135_modulated C135_spectrum C135_deviation C135_ring", "Circuits of the components of the model (C58) without active components, each not amplifying (C65), with at least one detector. C135_modulated as in C83. Exact arithmetic (C116 for what rounding errors add).")
c("C136", "proved", "C136_steady C136_resonant C136_passive C136_settles C136_equal", "The network of examples/03_circuit_optimization_by_backpropagation.ipynb for all parameters, every name a component of its own (C131 for shared ones). C136_equal says that the target is within reach of the mirrors (reflections from 0 to 1), not that the optimizer finds it. C136_resonant requires that the light of the source takes part in the resonance; a mode that the source cannot reach is not covered.")
c("C137", "proved", "C137_periodic C137_resonances C137_ring", "C137_periodic for the components whose dispersion is that of their delay (C81: waveguides, Mzis and everything without length, but not DirectionalCouplerWithLength), in exact arithmetic.")
c("C138", "proved", "C138_with C138_link C138_add C138_refused C138_named", "Components that are not networks are values (one object under several names: C131); torch's add_module refuses also names of existing attributes, which is not modelled.")
c("C139", "partial", "C139_violation C139_link_partial", "REFUTED: only the network on which link is called is rebuilt. Proved: link on a network that is not a part of another network leaves everything up to date.")
c("C140", "partial", "C140_violation C140_list_partial C140_nameless C140_own_name", "REFUTED: of terms with equal names all but the last are dropped without an exception. Proved: exactly which network results, and when an exception is raised.")
c("C141", "proved", "C141_repr C141_parts", "Class names are identifiers. In C141_parts every name is a component of its own (C131 for shared ones).")
c("C142", "partial", "C142_violation C142_ring_iff_partial C142_transient C142_grows C142_stable_partial C142_feedforward C142_weighted C142_named", "REFUTED for circuits with gain. Proved: the exact transient of the ring on a bus, that it approaches the result of the frequency domain exactly below the threshold, and that it exceeds every bound above it; circuits with gain in which no wave grows or persists settle, such as feed-forward circuits and circuits that lose suitably weighted power; C142_named states the same by the names and laws of the components. Circuits without gain: C135.")
c("C143", "proved", "C143_readout C143_bound C143_settles C143_trained", "The network of examples/05_optical_readout.ipynb for all parameters; its component Combiner is the Mmi whose weights are all 1, which has the same matrix. C143_trained says which powers are within reach of the phases, not that the optimizer finds them.")
c("C144", "partial", "C144_stored C144_waveguide C144_violation C144_gain_partial", "REFUTED for the clause that a waveguide without gain does not amplify. Proved: the error bound for all usual arguments, and that the gain is at most a rounding error. cos, sin and 10 ** x of the libraries are assumed accurate to 2^-52 (relative 2^-50 for the power).")
c("C145", "partial", "C145_violation C145_bounds_violation C145_given_partial C145_ratio_partial C145_trained C145_split C145_coupler", "REFUTED for general bounds: the weight of data at the upper bound may be nan, and the value may exceed the upper bound by a rounding error. Proved: unless it is nan the value is the data up to single precision of the bounds; for couplings and reflectivities (bounds 0 and 1) it is never nan and never leaves the bounds, and couplers and mirrors split the power accordingly. torch.log, torch.sigmoid and ** 0.5 are assumed accurate to 2^-22 or 2^-23, relatively.")
c("C146", "partial", "C146_violation C146_validation_violation C146_tidy_partial C146_descent C146_last", "REFUTED: forward resets the gradients of the parameters of the network. Proved: which gradient is left of several passes, that the training loop of the examples is gradient descent, and that programs which call networks only while the gradients of their parameters are zero train as torch documents. Optimizers are plain gradient descent; a gradient None counts as zero.")
c("C147", "partial", "C147_violation C147_power_partial C147_mzi C147_chain", "REFUTED: rounding can amplify. Proved: power is conserved up to single precision, whatever the length of the arms; the entries are those of an Mzi up to single precision and the error of the phase. cos and sin of torch are assumed accurate (Accurate); no overflow.")
c("C148", "partial", "C148_violation C148_seed_partial C148_history C148_accepts C148_minus_one", "REFUTED: a seed given to a call has no effect if it is the seed of the constructor. Proved for all other seeds; without a seed, calls give consecutive pieces of the random bits of the constructor's seed. numpy's rand(n) is assumed to give the next n numbers of a sequence determined by the seed; streams without channels; filters as in C49.")
c("C149", "proved", "C149_near C149_continuous C149_feedforward C149_absorbing C149_components C149_mesh", "The matrices of the components are rounded; the solution of the circuit equations from these matrices is exact (for rounding errors in each step of a simulation in time see C116).")
c("C150", "proved", "C150_near C150_absorbing C150_feedforward C150_mesh", "The matrices of the components are rounded, the time steps are computed exactly (rounding in each step: C116). Circuits without active components.")
c("C151", "proved", "C151_clements C151_reck", "As C149 and C150: the matrices of the components are rounded, the circuit equations and the time steps are solved exactly. Components are Mzis and waveguides that do not amplify, with arguments of a usual size; the meshes are terminated with sources and detectors.")
c("C152", "proved", "C152_split C152_feedforward", "As C149 and C150: the matrices of the components are rounded, the circuit equations and the time steps are solved exactly. The coupling is the single-precision number that the attribute has (its error with respect to the number given: C145).")
c("C153", "proved", "C153_enhancement C153_resonant C153_rings", "As C152. Components that absorb are those of which at most the fraction rho of the amplitude leaves; sources and detectors absorb everything.")
c("C154", "proved", "C154_components C154_feedforward C154_resonant C154_rings", "Exact arithmetic. Components of at most four ports; the rates are those of waveguides, Mzis, couplers, mirrors, sources and detectors. The constants are not the best possible.")
c("C155", "proved", "C155_components C155_feedforward C155_resonant C155_continuous C155_built", "Exact arithmetic. Deviations of parameters that do not change delays (not those of length and group index); rates for waveguides, Mzis, couplers and mirrors, the theorems on circuits for any components.")
c("C156", "proved", "C156_components C156_others C156_feedforward C156_resonant C156_steps", "Exact arithmetic. Rates with all parameters for waveguides, Mzis, couplers, Mmis and linear amplifiers; for gratings with all but bandwidth and centre wavelength; in the time domain only deviations that leave delays in time steps unchanged (a delay that changes by a step gives another simulation).")
c("C157", "proved", "C157_powers C157_energies", "Exact arithmetic in the simulation. Applies to all circuits whose fields are known to be close by C149 to C156.")
