{
 "claims": [
  {
   "property": "C01",
   "status": "proved",
   "theorems": [
    "PT.C01_conflict_rejected",
    "PT.C01_bad_times_rejected",
    "PT.C01_only_these"
   ],
   "note": "Rejected with ValueError exactly on conflicting or reversed-time arguments; the other ways to fail are listed by C01_only_these."
  },
  {
   "property": "C02",
   "status": "proved",
   "theorems": [
    "PT.C02_num_t_grid",
    "PT.C02_accepted",
    "PT.C02_default"
   ],
   "note": ""
  },
  {
   "property": "C03",
   "status": "proved",
   "theorems": [
    "PT.C03_interval_grid",
    "PT.C03_accepted"
   ],
   "note": ""
  },
  {
   "property": "C04",
   "status": "proved",
   "theorems": [
    "PT.C04_time_attributes",
    "PT.C04_uniform_end",
    "PT.C04_bit_arguments"
   ],
   "note": ""
  },
  {
   "property": "C05",
   "status": "proved",
   "theorems": [
    "PT.C05_num_wl_grid",
    "PT.C05_accepted",
    "PT.C05_dwl_grid"
   ],
   "note": ""
  },
  {
   "property": "C06",
   "status": "partial",
   "theorems": [
    "PT.C06_violation",
    "PT.C06_always_fails",
    "PT.C06_freq_bounds_partial",
    "PT.C06_df_partial"
   ],
   "note": "REFUTED for wavelength bounds combined with num_f (C06_always_fails: ZeroDivisionError for every input). Proved part: frequency bounds with num_f or df."
  },
  {
   "property": "C07",
   "status": "partial",
   "theorems": [
    "PT.C07_violation",
    "PT.C07_copy_exact_iff",
    "PT.C07_copy_partial",
    "PT.C07_override_wavelengths",
    "PT.C07_override_time",
    "PT.C07_override_num_t"
   ],
   "note": "REFUTED as stated; C07_copy_exact_iff characterises exactly when a copy is equal."
  },
  {
   "property": "C08",
   "status": "proved",
   "theorems": [
    "PT.C08_frozen",
    "PT.C08_stored",
    "PT.C08_delete_unlocks"
   ],
   "note": "C08_delete_unlocks records that `del` is not guarded."
  },
  {
   "property": "C09",
   "status": "proved",
   "theorems": [
    "PT.C09_lexical_environments",
    "PT.C09_stack_restored",
    "PT.C09_inside",
    "PT.C09_none_open",
    "PT.C09_set"
   ],
   "note": ""
  },
  {
   "property": "C10",
   "status": "partial",
   "theorems": [
    "PT.C10_violation",
    "PT.C10_gradient_mode_partial",
    "PT.C10_block_restores_partial"
   ],
   "note": "REFUTED for re-entered environments; proved for all programs that do not re-enter an open environment."
  },
  {
   "property": "C11",
   "status": "proved",
   "theorems": [
    "PT.C11_freqdomain",
    "PT.C11_single_sample"
   ],
   "note": ""
  },
  {
   "property": "C12",
   "status": "partial",
   "theorems": [
    "PT.C12_violation",
    "PT.C12_eq_partial",
    "PT.C12_iff_partial",
    "PT.C12_short_partial"
   ],
   "note": "REFUTED for non-uniform grids; proved for uniform ones and for at most three points; C12_iff_partial: exactly what is compared, for all environments."
  },
  {
   "property": "C13",
   "status": "proved",
   "theorems": [
    "PT.C13_link",
    "PT.C13_text_injective"
   ],
   "note": "Ports are written in decimal; C15_exact and C17_numbering say what the recorded connections mean."
  },
  {
   "property": "C14",
   "status": "proved",
   "theorems": [
    "PT.C14_reciprocal"
   ],
   "note": "All nesting depths, any accepted connection strings."
  },
  {
   "property": "C15",
   "status": "proved",
   "theorems": [
    "PT.C15_exact"
   ],
   "note": "Component names are assumed usable (no colon, no outer white space, not an integer)."
  },
  {
   "property": "C16",
   "status": "partial",
   "theorems": [
    "PT.C16_unknown_component",
    "PT.C16_bad_part",
    "PT.C16_port_too_high",
    "PT.C16_same_port",
    "PT.C16_external_too_high",
    "PT.C16_violation",
    "PT.C16_no_self_partial",
    "PT.C16_self_iff_partial"
   ],
   "note": "The rejections are proved. The clause 'no accepted network connects a port to itself' is REFUTED (C16_violation: 'w:1:w:-1'); C16_no_self_partial proves it for non-negative port numbers, C16_self_iff_partial says exactly when a port is connected to itself."
  },
  {
   "property": "C17",
   "status": "proved",
   "theorems": [
    "PT.C17_numbering"
   ],
   "note": "Stated for sub-components that number their ports in order, which includes all basic components."
  },
  {
   "property": "C18",
   "status": "partial",
   "theorems": [
    "PT.C18_violation",
    "PT.C18_numbering_partial",
    "PT.C17_numbering"
   ],
   "note": "REFUTED for declared external ports on sub-networks with permuted ports (C18_violation); C18_numbering_partial proves the numbering without declarations for any nesting."
  },
  {
   "property": "C19",
   "status": "partial",
   "theorems": [
    "PT.C19_violation",
    "PT.C19_permutation_partial",
    "PT.C19_iff_partial",
    "PT.C19_clean_partial"
   ],
   "note": "REFUTED for external numbers with gaps (C19_violation); proved for contiguous numbers, to any nesting depth; C19_iff_partial: exactly when it holds."
  },
  {
   "property": "C20",
   "status": "proved",
   "theorems": [
    "PT.C20_terminate",
    "PT.C20_no_free_ports",
    "PT.C20_too_many_terms",
    "PT.C20_single",
    "PT.C20_list"
   ],
   "note": "C20_terminate is for networks without a name: named networks cannot be terminated at all, see C21. 'The original is unchanged' holds by construction of the model (terminate returns a new state)."
  },
  {
   "property": "C21",
   "status": "partial",
   "theorems": [
    "PT.C21_violation",
    "PT.C21_named_never",
    "PT.C21_not_terminated",
    "PT.C21_unterminate_partial"
   ],
   "note": "REFUTED for every network with a name (C21_named_never); proved for networks without a name."
  },
  {
   "property": "C22",
   "status": "partial",
   "theorems": [
    "PT.C22_violation",
    "PT.C22_lexical_networks_partial",
    "PT.C22_exception_leaks"
   ],
   "note": "REFUTED for exceptions caught outside a network's with-block; proved otherwise."
  },
  {
   "property": "C23",
   "status": "partial",
   "theorems": [
    "PT.C23_violation",
    "PT.C23_poisoned_forever",
    "PT.C23_repair_partial"
   ],
   "note": "REFUTED: the failed connection is kept and all later links fail (C23_poisoned_forever); C23_repair_partial proves what holds."
  },
  {
   "property": "C24",
   "status": "partial",
   "theorems": [
    "PT.C24_violation",
    "PT.C24_pairing_partial",
    "PT.C24_iff_partial",
    "PT.C19_clean_partial"
   ],
   "note": "The code does not enforce the hypothesis: without it the claim is REFUTED (C24_violation); with it the claim is proved; C24_iff_partial: exactly when it holds."
  },
  {
   "property": "C25",
   "status": "proved",
   "theorems": [
    "PT.C25_failure",
    "PT.C25_solution"
   ],
   "note": ""
  },
  {
   "property": "C26",
   "status": "proved",
   "theorems": [
    "PT.C26_time_domain",
    "PT.C26_initialized"
   ],
   "note": "Solutions exist and agree at the detectors. C26_initialized says when the network can be simulated."
  },
  {
   "property": "C27",
   "status": "proved",
   "theorems": [
    "PT.C27_freq_domain"
   ],
   "note": "Assumes that sources and detectors do not scatter, which holds for Source, Detector and Term."
  },
  {
   "property": "C28",
   "status": "proved",
   "theorems": [
    "PT.C28_steps",
    "PT.C28_buffer_size",
    "PT.C28_rounding",
    "PT.C26_time_domain"
   ],
   "note": ""
  },
  {
   "property": "C29",
   "status": "proved",
   "theorems": [
    "PT.C29_linear",
    "PT.C29_power"
   ],
   "note": "No active components; floating point numbers are real numbers."
  },
  {
   "property": "C30",
   "status": "proved",
   "theorems": [
    "PT.C30_causal",
    "PT.C30_shift"
   ],
   "note": ""
  },
  {
   "property": "C31",
   "status": "proved",
   "theorems": [
    "PT.C31_independent",
    "PT.C31_local"
   ],
   "note": "The environment enters only through the wavelengths and batches simulated."
  },
  {
   "property": "C32",
   "status": "proved",
   "theorems": [
    "PT.C32_energy"
   ],
   "note": "Paired ports are what C24_pairing_partial establishes for networks with distinct connections; terminals do not scatter."
  },
  {
   "property": "C33",
   "status": "proved",
   "theorems": [
    "PT.C33_lossless"
   ],
   "note": ""
  },
  {
   "property": "C34",
   "status": "proved",
   "theorems": [
    "PT.C34_reciprocity",
    "PT.C34_reciprocal_signals"
   ],
   "note": "Frequency domain, and time domain for arbitrary signals."
  },
  {
   "property": "C35",
   "status": "proved",
   "theorems": [
    "PT.C35_settled"
   ],
   "note": "Convergence of the detected field is all that is assumed, not convergence of the internal fields."
  },
  {
   "property": "C36",
   "status": "proved",
   "theorems": [
    "PT.C36_channels",
    "PT.C26_time_domain"
   ],
   "note": ""
  },
  {
   "property": "C37",
   "status": "partial",
   "theorems": [
    "PT.C37_violation",
    "PT.C37_fresh_partial",
    "PT.C37_history_partial"
   ],
   "note": "REFUTED: without gradients, a parameter changed after the first simulation has no effect (C37_violation). Proved: what is returned after any history of calls and parameter changes (C37_history_partial), and that the first call or a call with gradients sees the current parameters (C37_fresh_partial)."
  },
  {
   "property": "C38",
   "status": "proved",
   "theorems": [
    "PT.C38_named",
    "PT.C38_unnamed_four",
    "PT.C38_unnamed_five",
    "PT.C38_scalar",
    "PT.C38_partly_named",
    "PT.C38_bad_dimension",
    "PT.C38_bad_name",
    "PT.C38_wrong_size",
    "PT.C38_forward"
   ],
   "note": "A dimension of size one is broadcast; the number of samples is C39."
  },
  {
   "property": "C39",
   "status": "partial",
   "theorems": [
    "PT.C39_violation",
    "PT.C39_cut_partial",
    "PT.C39_two_samples_partial"
   ],
   "note": "REFUTED: every source with more than two samples that is shorter than the simulation is rejected. Proved: longer sources are cut, sources with two samples are continued with zeros."
  },
  {
   "property": "C40",
   "status": "partial",
   "theorems": [
    "PT.C40_violation",
    "PT.C40_own_ports_partial"
   ],
   "note": "REFUTED for nested networks with passive ports; proved for components that are active at all their ports or at none."
  },
  {
   "property": "C41",
   "status": "partial",
   "theorems": [
    "PT.C41_violation",
    "PT.C41_single_node_partial"
   ],
   "note": "REFUTED for every network with two or more nodes; networks with one node return an empty detector axis."
  },
  {
   "property": "C42",
   "status": "proved",
   "theorems": [
    "PT.C42_unitary"
   ],
   "note": "Conservation of power for every incoming field, which is unitarity of the square matrix."
  },
  {
   "property": "C43",
   "status": "partial",
   "theorems": [
    "PT.C43_violation",
    "PT.C43_reciprocal_partial"
   ],
   "note": "REFUTED for LinearSoa (C43_violation, for every amplification); proved for all other components."
  },
  {
   "property": "C44",
   "status": "partial",
   "theorems": [
    "PT.C44_violation",
    "PT.C44_waveguide_partial",
    "PT.C44_coupler_partial"
   ],
   "note": "REFUTED for Mzi (C44_violation); proved for Waveguide and DirectionalCouplerWithLength."
  },
  {
   "property": "C45",
   "status": "proved",
   "theorems": [
    "PT.C45_series",
    "PT.C45_phase"
   ],
   "note": ""
  },
  {
   "property": "C46",
   "status": "proved",
   "theorems": [
    "PT.C46_value",
    "PT.C46_rejected",
    "PT.C46_bounds"
   ],
   "note": "Real arithmetic; weights are extended reals, since the weights at the bounds are infinite."
  },
  {
   "property": "C47",
   "status": "partial",
   "theorems": [
    "PT.C47_soa_partial",
    "PT.C47_physics_partial",
    "PT.C47_stationary_partial",
    "PT.C47_saturation_partial",
    "PT.C47_violation",
    "PT.C47_phase_violation"
   ],
   "note": "REFUTED for the last clause (AgrawalSoa: an imaginary field is never amplified); the clauses about Soa and about the stationary states are proved."
  },
  {
   "property": "C48",
   "status": "proved",
   "theorems": [
    "PT.C48_entries",
    "PT.C48_left",
    "PT.C48_right",
    "PT.C43_reciprocal_partial"
   ],
   "note": "Reciprocity is the Mmi case of C43_reciprocal_partial. Weights given as a two-dimensional array."
  },
  {
   "property": "C49",
   "status": "proved",
   "theorems": [
    "PT.C49_samples",
    "PT.C49_cutoff"
   ],
   "note": "Rates and counts are natural numbers; the filter is scipy's lfilter with arbitrary coefficients."
  },
  {
   "property": "C50",
   "status": "proved",
   "theorems": [
    "PT.C50_fraction"
   ],
   "note": "For streams in which no channel is constantly one."
  },
  {
   "property": "C51",
   "status": "partial",
   "theorems": [
    "PT.C51_bounds",
    "PT.C51_violation",
    "PT.C51_perfect_partial",
    "PT.C51_exact_partial"
   ],
   "note": "REFUTED for constant-one targets (C51_violation: the loss is 1); bounds proved always, zero for perfect predictions of targets with a zero in every channel; C51_exact_partial: in general the fraction of channels that are constantly one."
  },
  {
   "property": "C52",
   "status": "partial",
   "theorems": [
    "PT.C52_violation",
    "PT.C52_ber_violation",
    "PT.C52_mse_partial",
    "PT.C52_ber_partial",
    "PT.C52_negative_partial"
   ],
   "note": "REFUTED for negative latencies, for both losses; proved for non-negative ones. C52_negative_partial: a negative latency acts as one sample less."
  },
  {
   "property": "C53",
   "status": "proved",
   "theorems": [
    "PT.C53_formula",
    "PT.C53_nonneg",
    "PT.C53_zero_iff",
    "PT.C53_symmetric",
    "PT.C53_warmup",
    "PT.C53_constant",
    "PT.C53_lengths"
   ],
   "note": ""
  },
  {
   "property": "C54",
   "status": "partial",
   "theorems": [
    "PT.C54_violation",
    "PT.C54_short_violation",
    "PT.C54_length_violation",
    "PT.C54_palindromic_partial"
   ],
   "note": "REFUTED for every numerator that is not palindromic, for signals shorter than the filter, and for coefficient lists of different lengths; proved for equally long lists with palindromic numerator."
  },
  {
   "property": "C55",
   "status": "partial",
   "theorems": [
    "PT.C55_violation",
    "PT.C55_nyquist",
    "PT.C55_axis_partial",
    "PT.C55_filter_partial",
    "PT.C55_linear_partial",
    "PT.C55_causal_partial",
    "PT.C55_amplitude_partial"
   ],
   "note": "REFUTED for power signals of two time steps; proved for all others with more steps than the filter order. butter is external: assumed to return order + 1 coefficients with denominator starting with 1."
  },
  {
   "property": "C56",
   "status": "proved",
   "theorems": [
    "PT.C56_unitary",
    "PT.C56_network",
    "PT.C56_constructor",
    "PT.C56_terminate"
   ],
   "note": "For arbitrary lossless reflection-free four-ports and waveguides, in particular all Mzi and lossless Waveguide objects; unnamed networks (named ones cannot be terminated, see C20)."
  },
  {
   "property": "C57",
   "status": "proved",
   "theorems": [
    "PT.C57_unitary",
    "PT.C57_network",
    "PT.C57_no_connections"
   ],
   "note": "As C56; both waveguides of a capacity-2 layer are one object, as in the code."
  },
  {
   "property": "C58",
   "status": "proved",
   "theorems": [
    "PT.C58_ring",
    "PT.C58_odd"
   ],
   "note": "For 0 < N."
  },
  {
   "property": "C59",
   "status": "partial",
   "theorems": [
    "PT.C59_violation",
    "PT.C59_nested_violation",
    "PT.C59_wavelength_violation",
    "PT.C59_time_partial",
    "PT.C59_nobatch_partial",
    "PT.C59_freq_partial",
    "PT.C59_selected_partial",
    "PT.C59_axis"
   ],
   "note": "REFUTED for data at one wavelength when there are as many wavelengths as detectors, for detectors inside subnetworks, and for wavelengths less than a nanometer apart; proved for whole results of all sizes of networks without nested detectors, and for selected data of distinguishable shape."
  },
  {
   "property": "C60",
   "status": "partial",
   "theorems": [
    "PT.C60_violation",
    "PT.C60_partial"
   ],
   "note": "REFUTED: default t1 is compared with t0 although it is not used."
  },
  {
   "property": "C61",
   "status": "proved",
   "theorems": [
    "PT.C61_accepted"
   ],
   "note": "The converse of C16: what is not ill-formed is accepted."
  },
  {
   "property": "C62",
   "status": "partial",
   "theorems": [
    "PT.C62_violation",
    "PT.C62_recovery_partial"
   ],
   "note": "REFUTED by C62_violation; C62_recovery_partial proves when a call after a failure gives the right result."
  },
  {
   "property": "C63",
   "status": "partial",
   "theorems": [
    "PT.C63_violation"
   ],
   "note": "REFUTED for every circuit with such an amplifier, every signal and every step."
  },
  {
   "property": "C64",
   "status": "partial",
   "theorems": [
    "PT.C64_iff",
    "PT.C64_violation"
   ],
   "note": "REFUTED with the default parameters (C64_violation); C64_iff proves exactly when it holds."
  },
  {
   "property": "C65",
   "status": "partial",
   "theorems": [
    "PT.C65_violation",
    "PT.C65_contracts_partial",
    "PT.C65_grating_partial",
    "PT.C65_grating_iff_partial"
   ],
   "note": "REFUTED for grating couplers with a reflection; proved for all other passive components; for grating couplers the exact condition is proved (C65_grating_iff_partial)."
  },
  {
   "property": "C66",
   "status": "proved",
   "theorems": [
    "PT.C66_time_domain",
    "PT.C66_freq_domain",
    "PT.C66_scattering",
    "PT.C66_energy",
    "PT.C66_power",
    "PT.C66_lossless",
    "PT.C66_reciprocity"
   ],
   "note": "For circuits wired the documented way and without Soa/AgrawalSoa (for those see C67)."
  },
  {
   "property": "C67",
   "status": "proved",
   "theorems": [
    "PT.C67_active"
   ],
   "note": "For components that are active at all their ports or at none, and without coupling between delayed and undelayed ports (as C26)."
  },
  {
   "property": "C68",
   "status": "partial",
   "theorems": [
    "PT.C68_violation",
    "PT.C68_gain_partial",
    "PT.C47_soa_partial"
   ],
   "note": "REFUTED for startup times that are not multiples of dt. Proved: the exact gain at every step."
  },
  {
   "property": "C69",
   "status": "partial",
   "theorems": [
    "PT.C69_violation",
    "PT.C69_inside_partial"
   ],
   "note": "REFUTED for data at the bounds; proved for data strictly inside."
  },
  {
   "property": "C70",
   "status": "partial",
   "theorems": [
    "PT.C70_violation",
    "PT.C70_array_partial"
   ],
   "note": "REFUTED for lists and tuples; proved for arrays."
  },
  {
   "property": "C71",
   "status": "proved",
   "theorems": [
    "PT.C71_filtered",
    "PT.C49_cutoff"
   ],
   "note": "butter is external: assumed to return a denominator with nonzero leading coefficient."
  },
  {
   "property": "C72",
   "status": "proved",
   "theorems": [
    "PT.C72_precedence"
   ],
   "note": ""
  },
  {
   "property": "C73",
   "status": "partial",
   "theorems": [
    "PT.C73_violation",
    "PT.C55_axis_partial"
   ],
   "note": "REFUTED for at most order time steps; proved for more (and not two)."
  },
  {
   "property": "C74",
   "status": "partial",
   "theorems": [
    "PT.C74_violation",
    "PT.C74_nan_violation",
    "PT.C74_noiseless"
   ],
   "note": "REFUTED for amplitudes with two time steps, and for powers that are negative somewhere (nan); proved for all other signals, loads other than zero and variances that are not negative."
  },
  {
   "property": "C75",
   "status": "proved",
   "theorems": [
    "PT.C75_initialized",
    "PT.C75_unitary"
   ],
   "note": ""
  },
  {
   "property": "C76",
   "status": "proved",
   "theorems": [
    "PT.C76_reck",
    "PT.C76_exact",
    "PT.C76_iff"
   ],
   "note": "In the frequency domain; waveguides without loss."
  },
  {
   "property": "C77",
   "status": "partial",
   "theorems": [
    "PT.C77_violation",
    "PT.C77_last_partial",
    "PT.C77_sticky",
    "PT.C77_rejects"
   ],
   "note": "REFUTED for a Buffer assigned after a BoundedParameter assigned after a Buffer; proved for attributes that are never set to a BoundedParameter."
  },
  {
   "property": "C78",
   "status": "partial",
   "theorems": [
    "PT.C78_violation",
    "PT.C78_external",
    "PT.C78_graph",
    "PT.C78_closed_partial",
    "PT.C78_labels"
   ],
   "note": "REFUTED for networks with external connections; nodes and edges characterized exactly for all networks; proved for networks without external connections."
  },
  {
   "property": "C79",
   "status": "partial",
   "theorems": [
    "PT.C79_violation",
    "PT.C79_arrays",
    "PT.C79_broadcast",
    "PT.C79_unusable",
    "PT.C79_forms_partial"
   ],
   "note": "REFUTED for three-dimensional arrays and malformed tensors; proved for all other documented forms."
  },
  {
   "property": "C80",
   "status": "partial",
   "theorems": [
    "PT.C80_violation",
    "PT.C80_rejects_partial",
    "PT.C80_trained"
   ],
   "note": "REFUTED for couplers with trainable=False; proved for trainable couplers and all mirrors."
  },
  {
   "property": "C81",
   "status": "partial",
   "theorems": [
    "PT.C81_violation",
    "PT.C81_waveguide_partial",
    "PT.C81_mzi_partial",
    "PT.C81_reference",
    "PT.C81_period"
   ],
   "note": "REFUTED for DirectionalCouplerWithLength; proved for waveguides and Mzis."
  },
  {
   "property": "C82",
   "status": "proved",
   "theorems": [
    "PT.C82_settles",
    "PT.C82_feedforward",
    "PT.C82_lossy"
   ],
   "note": "For circuits wired the documented way of components whose scattering matrices are contractions."
  },
  {
   "property": "C83",
   "status": "proved",
   "theorems": [
    "PT.C83_modulated",
    "PT.C82_feedforward",
    "PT.C82_lossy"
   ],
   "note": "For damped passive circuits (C82 gives two classes of them), in which every component satisfies the agreement of delay and dispersion (C81)."
  },
  {
   "property": "C84",
   "status": "partial",
   "theorems": [
    "PT.C84_violation",
    "PT.C84_amplifies_partial"
   ],
   "note": "REFUTED for trained amplifiers; proved for every other amplifier, circuit and input."
  },
  {
   "property": "C85",
   "status": "proved",
   "theorems": [
    "PT.C85_loops",
    "PT.C85_absorbing",
    "PT.C85_ring"
   ],
   "note": "For circuits wired the documented way."
  },
  {
   "property": "C86",
   "status": "partial",
   "theorems": [
    "PT.C86_violation",
    "PT.C86_override_partial",
    "PT.C86_photo_partial",
    "PT.C86_rejected",
    "PT.C86_call",
    "PT.C86_default"
   ],
   "note": "REFUTED for cutoffs above half the sample rate of the constructor; proved for all other detectors, calls and environments."
  },
  {
   "property": "C87",
   "status": "proved",
   "theorems": [
    "PT.C87_clements",
    "PT.C87_capacity",
    "PT.C87_iff"
   ],
   "note": "In the frequency domain; waveguides without loss; capacity at least 2 (C57 for less)."
  },
  {
   "property": "C88",
   "status": "partial",
   "theorems": [
    "PT.C88_to_partial",
    "PT.C88_cuda",
    "PT.C88_dtype_violation",
    "PT.C88_terminate_violation",
    "PT.C88_terminate_partial",
    "PT.C88_terminate_terms",
    "PT.C88_mesh"
   ],
   "note": "REFUTED for to(dtype) and for Network.terminate on a gpu; proved for moves to a device, for terminate on the cpu and for the terminate methods of the mesh networks. Torch's own Module.to is modelled as moving all parameters and buffers of the tree."
  },
  {
   "property": "C89",
   "status": "proved",
   "theorems": [
    "PT.C89_all_pass",
    "PT.C89_round_trips",
    "PT.C89_add_drop",
    "PT.C89_passive",
    "PT.C89_lossless",
    "PT.C89_critical"
   ],
   "note": "The time domain for the ring on one bus with a ring of at least one step."
  },
  {
   "property": "C90",
   "status": "proved",
   "theorems": [
    "PT.C90_nearby",
    "PT.C90_differentiable",
    "PT.C90_power",
    "PT.C90_derivative_time",
    "PT.C90_derivative_freq"
   ],
   "note": "For circuits wired the documented way and without Soa/AgrawalSoa; the parameters are phases, weights of couplings and reflectivities, amplifications and Mmi weights. That autograd computes the derivative is torch's part and not modelled."
  },
  {
   "property": "C91",
   "status": "proved",
   "theorems": [
    "PT.C91_grating",
    "PT.C91_bandwidth",
    "PT.C91_realistic",
    "PT.C91_series",
    "PT.C91_ratios",
    "PT.C91_delays"
   ],
   "note": "The reflections R and R_in of a grating coupler turn out to be amplitudes (Tmax is a power)."
  },
  {
   "property": "C92",
   "status": "partial",
   "theorems": [
    "PT.C92_violation",
    "PT.C92_roles_partial",
    "PT.C92_numbers"
   ],
   "note": "REFUTED for wrong port orders; proved for components whose port order is a permutation, and the orders that pass are characterized."
  },
  {
   "property": "C93",
   "status": "proved",
   "theorems": [
    "PT.C93_frequency",
    "PT.C93_time",
    "PT.C93_xor"
   ],
   "note": "The streams are generated without the low-pass filter (cutoff None); BERLoss needs a zero among the expected bits (C52)."
  },
  {
   "property": "C94",
   "status": "proved",
   "theorems": [
    "PT.C94_built",
    "PT.C94_frequency",
    "PT.C94_time",
    "PT.C94_initialized"
   ],
   "note": "Closed circuits of basic components with single-level wiring (nested networks: C66 by port numbers); without Soa/AgrawalSoa."
  },
  {
   "property": "C95",
   "status": "proved",
   "theorems": [
    "PT.C95_response",
    "PT.C95_passive",
    "PT.C95_lossless"
   ],
   "note": "The wiring is that of the class Crow of examples/04_crow_optimization.ipynb, with the couplers and waveguides of the library; frequency domain."
  },
  {
   "property": "C96",
   "status": "proved",
   "theorems": [
    "PT.C96_closed",
    "PT.C96_built",
    "PT.C96_built_declared",
    "PT.C96_initialized",
    "PT.C96_frequency",
    "PT.C96_time"
   ],
   "note": "Networks to any depth; external ports are declared on basic components or left undeclared. For declarations on sub-networks with permuted ports the numbering is wrong (C18_violation), so the statement excludes declarations on sub-networks. Without Soa/AgrawalSoa."
  },
  {
   "property": "C97",
   "status": "proved",
   "theorems": [
    "PT.C97_initialized",
    "PT.C97_frequency",
    "PT.C97_time",
    "PT.C97_joined",
    "PT.C97_active_initialized",
    "PT.C97_active"
   ],
   "note": "Closed circuits of one level; C97_active for circuits with components of any kind, Soa and AgrawalSoa included."
  },
  {
   "property": "C98",
   "status": "proved",
   "theorems": [
    "PT.C98_built",
    "PT.C98_run",
    "PT.C98_initialized",
    "PT.C98_passive",
    "PT.C98_parts",
    "PT.C98_soas"
   ],
   "note": "Circuits of one level whose components are active with all ports or none; every component of the library is (C98_parts, C98_soas). Networks that mix active and passive components as parts of a larger circuit are covered by C43 by port number."
  },
  {
   "property": "C99",
   "status": "partial",
   "theorems": [
    "PT.C99_violation",
    "PT.C99_gain_partial",
    "PT.C99_step",
    "PT.C99_row_partial"
   ],
   "note": "REFUTED: the amplifier sends back everything that enters port 0. Proved in any circuit: gain and start-up, the dynamics of the state for any rate, and the detected power behind a source and a Soa."
  },
  {
   "property": "C100",
   "status": "partial",
   "theorems": [
    "PT.C100_violation",
    "PT.C100_nested_partial"
   ],
   "note": "REFUTED: a source and a Soa in a network of their own. Proved if networks with active components have no sources and only the last of them also has passive components (so for terminate() of any network without sources); for two networks with both active and passive components see C40_violation."
  },
  {
   "property": "C101",
   "status": "partial",
   "theorems": [
    "PT.C101_violation",
    "PT.C101_violation_failed",
    "PT.C101_initialized_partial",
    "PT.C101_unshared_partial"
   ],
   "note": "REFUTED: networks that share a Soa, and calls that raised. Proved for calls that initialize, and for every call if earlier calls were of networks without common components or succeeded."
  },
  {
   "property": "C102",
   "status": "proved",
   "theorems": [
    "PT.C102_composed",
    "PT.C102_alike",
    "PT.C102_alike_time",
    "PT.C102_frequency",
    "PT.C102_time",
    "PT.C102_initialized",
    "PT.C102_initialized_time"
   ],
   "note": "Compositionality of the response; both domains."
  },
  {
   "property": "C103",
   "status": "partial",
   "theorems": [
    "PT.C103_violation",
    "PT.C103_steady",
    "PT.C103_time_partial",
    "PT.C103_iff_partial",
    "PT.C103_rounding",
    "PT.C103_still",
    "PT.C103_still_time"
   ],
   "note": "REFUTED in the time domain (delays are rounded separately). Proved in the frequency domain, and in time exactly when the delays in steps add up (C103_iff_partial); they differ by at most one step (C103_rounding)."
  },
  {
   "property": "C104",
   "status": "proved",
   "theorems": [
    "PT.C104_clements",
    "PT.C104_reck",
    "PT.C104_pulse",
    "PT.C104_universal"
   ],
   "note": "Time-domain response of the meshes when all components have the same delay in steps; capacity at least 2."
  },
  {
   "property": "C105",
   "status": "partial",
   "theorems": [
    "PT.C105_violation",
    "PT.C105_rounding",
    "PT.C105_exact",
    "PT.C105_partial"
   ],
   "note": "REFUTED in floating-point arithmetic: Environment(num_wl=51) has 50 wavelengths. Proved: N or N - 1, N for powers of two, and the positions up to precision. C105_rounding: the rounding used is that of IEEE 754; C105_exact: without rounding the constructor is that of C01-C12."
  },
  {
   "property": "C106",
   "status": "partial",
   "theorems": [
    "PT.C106_violation",
    "PT.C106_partial",
    "PT.C106_multiple_partial"
   ],
   "note": "REFUTED in floating-point arithmetic: Environment(dt=1e-14, t1=2.3e-13) has 22 points. Proved: off by at most one, and exact unless the interval is a whole number of steps up to precision."
  },
  {
   "property": "C107",
   "status": "partial",
   "theorems": [
    "PT.C107_violation",
    "PT.C107_bitlength_violation",
    "PT.C107_partial",
    "PT.C107_zero_partial",
    "PT.C107_bits_partial"
   ],
   "note": "REFUTED in floating-point arithmetic: Environment(dt=1e-14, num_t=23).dt is not 1e-14. Proved: number of points and first point exact, the rest up to stated error bounds."
  },
  {
   "property": "C108",
   "status": "proved",
   "theorems": [
    "PT.C108_copy",
    "PT.C108_grid"
   ],
   "note": "Any rounding function; C108_grid for IEEE 754 binary64."
  },
  {
   "property": "C109",
   "status": "proved",
   "theorems": [
    "PT.C109_legacy",
    "PT.C109_extra"
   ],
   "note": "Extra values are numbers in the model; that extra names do not collide with the names of methods is assumed. Private extra attributes are not copied and not compared (C07, C12 are about public attributes)."
  },
  {
   "property": "C110",
   "status": "partial",
   "theorems": [
    "PT.C110_str",
    "PT.C110_repr",
    "PT.C110_identifies_partial",
    "PT.C110_html",
    "PT.C110_html_partial",
    "PT.C110_violation",
    "PT.C110_eval_violation",
    "PT.C110_html_violation"
   ],
   "note": "REFUTED: printed numbers have four digits, so different environments print alike; repr writes a call that the constructor always rejects; the html table does not escape. Proved: what the text and the call consist of, that the text identifies environments with short numbers and arrays, and the number of html rows for plain names."
  },
  {
   "property": "C111",
   "status": "partial",
   "theorems": [
    "PT.C111_violation",
    "PT.C111_python",
    "PT.C111_complex",
    "PT.C111_partial"
   ],
   "note": "REFUTED: numpy.array(1+0j) and python's complex numbers raise ValueError although 1.0 is accepted. Proved: four-dimensional complex arrays drive the sources as stated and like their real parts if they are real. That torch.tensor raises TypeError for python's complex numbers with a real dtype is an assumption about torch."
  },
  {
   "property": "C112",
   "status": "proved",
   "theorems": [
    "PT.C112_time",
    "PT.C112_frequency",
    "PT.C112_accurate"
   ],
   "note": "Networks with at least one source, detector or active port (otherwise initialize returns earlier)."
  },
  {
   "property": "C113",
   "status": "partial",
   "theorems": [
    "PT.C113_violation",
    "PT.C113_follows",
    "PT.C113_bounds_partial",
    "PT.C113_saturates",
    "PT.C113_parameters",
    "PT.C113_transparent"
   ],
   "note": "REFUTED without a condition on the time step: strong light drives the state below zero in one Euler step. Proved for dt (1 + p e^(g0 L)) <= tc in any circuit: first-order convergence to the rate equation uniformly in time, bounds on the gain, exponential approach to the saturated gain. Concerns the real part (C47: the imaginary part is not amplified)."
  },
  {
   "property": "C114",
   "status": "proved",
   "theorems": [
    "PT.C114_convolution",
    "PT.C114_spectrum"
   ],
   "note": "C114_convolution: any network without active components. C114_spectrum: damped circuits of dispersive contracting components with delays that are whole numbers of steps."
  },
  {
   "property": "C115",
   "status": "proved",
   "theorems": [
    "PT.C115_balance",
    "PT.C115_released",
    "PT.C115_feedforward",
    "PT.C115_reck",
    "PT.C115_clements"
   ],
   "note": "Circuits of lossless components, sources and detectors. Energies are sums of squared amplitudes over the steps. C115_released assumes that no wave circulates undamped (Damped); feed-forward circuits and meshes satisfy it."
  },
  {
   "property": "C116",
   "status": "proved",
   "theorems": [
    "PT.C116_network",
    "PT.C116_drift"
   ],
   "note": "Concerns forward with a given reduced network: the matrices of initialize are exact, only the steps are inexact. Without active components."
  },
  {
   "property": "C117",
   "status": "partial",
   "theorems": [
    "PT.C117_accepts",
    "PT.C117_made",
    "PT.C117_trained",
    "PT.C117_circuit",
    "PT.C117_rebuilt",
    "PT.C117_passive_partial",
    "PT.C117_violation"
   ],
   "note": "REFUTED: the weights of an Mmi and the amplification of a LinearSoa are unbounded parameters, one optimizer step may turn a balanced splitter into an amplifier. Proved: constructors store their arguments, trainable or not; training moves exactly the trainable arguments and never ports, connections or delays; circuits of the other passive components stay passive. Training is any sequence of changes added to the registered parameters; gradients are not modelled."
  },
  {
   "property": "C118",
   "status": "partial",
   "theorems": [
    "PT.C118_drawing",
    "PT.C118_silent_partial",
    "PT.C118_always",
    "PT.C118_violation"
   ],
   "note": "REFUTED: Network.graph ignores its argument and always draws. Proved: what is drawn, for every layout and all random numbers; the function graph(network, draw=False) draws nothing. The layout of networkx and rendering by matplotlib are not modelled."
  },
  {
   "property": "C119",
   "status": "proved",
   "theorems": [
    "PT.C119_settles",
    "PT.C119_response",
    "PT.C119_nyquist",
    "PT.C119_bounded"
   ],
   "note": "Given that scipy.signal.butter designs the filter it documents (Spec.butterworth: poles of the analog filter, bilinear transform; its stability and response are proved). Signals of powers with more steps than the order and not exactly two (C55 and C73 show what happens to the others)."
  },
  {
   "property": "C120",
   "status": "proved",
   "theorems": [
    "PT.C120_noise",
    "PT.C120_average"
   ],
   "note": "Given that scipy.signal.butter designs the Butterworth filter it documents and that torch.randn gives independent standard normal numbers. More steps than the order and not exactly two."
  },
  {
   "property": "C121",
   "status": "partial",
   "theorems": [
    "PT.C121_numbers",
    "PT.C121_violation",
    "PT.C121_trained_partial",
    "PT.C121_accepted_partial"
   ],
   "note": "REFUTED: couplings that are not trainable are not checked (nor center wavelengths and bandwidths), so a DirectionalCoupler(1.2, trainable=False) has nan in its scattering matrix. Proved: exactly which arguments give numbers, that these are the numbers of the formulas that all other theorems use, and that training cannot lead out of them. Overflow is not modelled."
  },
  {
   "property": "C122",
   "status": "partial",
   "theorems": [
    "PT.C122_violation",
    "PT.C122_gradient_partial",
    "PT.C122_descends"
   ],
   "note": "REFUTED: at the bounds 0 and 1, which the constructors accept, autograd multiplies the infinite derivative of the root with the vanishing derivative of the sigmoid, and one step of gradient descent makes the parameter nan. Proved strictly between the bounds: the gradient is the derivative of the loss. The backward formulas of torch for pow and sigmoid are assumptions about torch."
  },
  {
   "property": "C123",
   "status": "proved",
   "theorems": [
    "PT.C123_chain",
    "PT.C123_add_drop"
   ],
   "note": "RingNetwork of width 2 with couplers, capacity at least 2, terminated as in examples/08_general_ring_networks.ipynb; frequency domain."
  },
  {
   "property": "C124",
   "status": "partial",
   "theorems": [
    "PT.C124_clements",
    "PT.C124_reck",
    "PT.C124_ring",
    "PT.C124_ring_partial",
    "PT.C124_violation"
   ],
   "note": "REFUTED for RingNetwork with even capacities: capacity 2k builds the network of capacity 2k + 1, so the network drawn in the documentation cannot be made. Proved: Clements networks for all capacities at least 2, ring networks of odd capacity, Reck networks."
  },
  {
   "property": "C125",
   "status": "proved",
   "theorems": [
    "PT.C125_reck",
    "PT.C125_clements"
   ],
   "note": "For all values of the random numbers and all histories of training of the single components; frequency domain, and in time the number of steps after which light arrives. That an optimizer finds the step is not claimed."
  },
  {
   "property": "C126",
   "status": "proved",
   "theorems": [
    "PT.C126_weights",
    "PT.C126_range",
    "PT.C126_trained"
   ],
   "note": "The network of examples/05_optical_readout.ipynb for every number of rings and all parameters; frequency domain. C126_range and C126_trained need passive rings (loss times length at least 0) with loss or coupling (sqrt(1 - k) a < 1). That an optimizer finds the step is not claimed; the Combiner of the notebook is user code and not modelled."
  },
  {
   "property": "C127",
   "status": "proved",
   "theorems": [
    "PT.C127_eye",
    "PT.C127_rate",
    "PT.C127_line",
    "PT.C127_open",
    "PT.C127_threshold"
   ],
   "note": "Given that scipy.signal.butter designs the Butterworth filter it documents. Bits without cutoff in BitStreamGenerator, no channel whose bits are all one (C51), no noise (see C128). The number of samples per bit from which the eye is open is not computed."
  },
  {
   "property": "C128",
   "status": "proved",
   "theorems": [
    "PT.C128_expected",
    "PT.C128_bound",
    "PT.C128_link"
   ],
   "note": "Given that scipy.signal.butter designs the Butterworth filter it documents and that torch.randn gives independent standard normal numbers. Bits as in C127; more steps than the order of the filter and not exactly two."
  },
  {
   "property": "C129",
   "status": "proved",
   "theorems": [
    "PT.C129_solvable",
    "PT.C129_refines",
    "PT.C129_delayed",
    "PT.C129_ring"
   ],
   "note": "Circuits of the components of the model (C58) without active components, with delays that are not negative and at least one detector; sources with bounded slope that are zero before the simulation starts. The constant in front of the time step is not computed. Exact arithmetic."
  },
  {
   "property": "C130",
   "status": "partial",
   "theorems": [
    "PT.C130_restores_partial",
    "PT.C130_network_partial",
    "PT.C130_lengths",
    "PT.C130_violation"
   ],
   "note": "REFUTED: a trainable coupling is saved as _coupling and one that is not trainable as coupling, so the state of a trained directional coupler cannot be loaded into one with trainable=False (the way to freeze a trained circuit that works for all other components). Proved for all other components and for couplers of equal trainability. state_dict and load_state_dict are torch's (strict loading); the buffers of Component.__init__ and what torch has copied when it raises are not modelled."
  },
  {
   "property": "C131",
   "status": "partial",
   "theorems": [
    "PT.C131_tied",
    "PT.C131_violation",
    "PT.C131_loaded",
    "PT.C131_overwritten",
    "PT.C131_separate_partial"
   ],
   "note": "REFUTED: examples/03_circuit_optimization_by_backpropagation.ipynb says that copies of the component are saved, but all names stand for the same component. Proved: what holds instead (all names stay equal in training; the last name decides in loading), and that the saved state can be loaded into a network with separate components. state_dict and load_state_dict are torch's, as in C130."
  },
  {
   "property": "C132",
   "status": "proved",
   "theorems": [
    "PT.C132_follows",
    "PT.C132_eye",
    "PT.C132_link",
    "PT.C132_rise"
   ],
   "note": "Given that scipy.signal.butter designs the Butterworth filter it documents. Filter of order one (the default), rates and cutoff whole numbers of Hz; in C132_eye and C132_link a whole number of samples per bit and no channel whose bits are all one (C51); in C132_link a detector without filter. Higher orders, which overshoot, are not covered (see C71 and C119 for what holds for them)."
  },
  {
   "property": "C133",
   "status": "partial",
   "theorems": [
    "PT.C133_violation",
    "PT.C133_call_partial",
    "PT.C133_stream_partial",
    "PT.C133_filtered_partial",
    "PT.C133_mse_partial",
    "PT.C133_ber_partial",
    "PT.C133_env",
    "PT.C133_interval",
    "PT.C133_exact"
   ],
   "note": "REFUTED: the sample rate of an environment is 1/dt in floating-point arithmetic, so int(latency * samplerate / bitrate + 0.5) can be one sample too small when the latency is a half-integer number of samples. Proved: everything agrees with exact arithmetic away from these latencies (bit streams always, filtered ones up to the last digits of the normalized cutoff). Rates are whole numbers of Hz up to 2^47; powers are real numbers; no overflow."
  },
  {
   "property": "C134",
   "status": "partial",
   "theorems": [
    "PT.C134_violation",
    "PT.C134_long_violation",
    "PT.C134_delay_partial",
    "PT.C134_call_partial",
    "PT.C134_buffer",
    "PT.C134_exact",
    "PT.C134_rounding"
   ],
   "note": "REFUTED: delays are stored, divided by the time step and rounded in torch's default type (binary32), so a delay that is half a time step off a whole number of time steps can be rounded down instead of up, and odd delays above 2^23 time steps are one too long. Proved: exact away from half-integer numbers of time steps (within relative 2^-21), in particular for up to a million whole time steps; the buffer is always exactly as long as the longest delay requires. Operations of tensors with python numbers as torch does them on the cpu; no overflow."
  },
  {
   "property": "C135",
   "status": "proved",
   "theorems": [
    "PT.C135_initialized",
    "PT.C135_settles",
    "PT.C135_modulated",
    "PT.C135_spectrum",
    "PT.C135_deviation",
    "PT.C135_ring"
   ],
   "note": "Circuits of the components of the model (C58) without active components, each not amplifying (C65), with at least one detector. C135_modulated as in C83. Exact arithmetic (C116 for what rounding errors add)."
  },
  {
   "property": "C136",
   "status": "proved",
   "theorems": [
    "PT.C136_steady",
    "PT.C136_resonant",
    "PT.C136_passive",
    "PT.C136_settles",
    "PT.C136_equal"
   ],
   "note": "The network of examples/03_circuit_optimization_by_backpropagation.ipynb for all parameters, every name a component of its own (C131 for shared ones). C136_equal says that the target is within reach of the mirrors (reflections from 0 to 1), not that the optimizer finds it. C136_resonant requires that the light of the source takes part in the resonance; a mode that the source cannot reach is not covered."
  },
  {
   "property": "C137",
   "status": "proved",
   "theorems": [
    "PT.C137_periodic",
    "PT.C137_resonances",
    "PT.C137_ring"
   ],
   "note": "C137_periodic for the components whose dispersion is that of their delay (C81: waveguides, Mzis and everything without length, but not DirectionalCouplerWithLength), in exact arithmetic."
  },
  {
   "property": "C138",
   "status": "proved",
   "theorems": [
    "PT.C138_with",
    "PT.C138_link",
    "PT.C138_add",
    "PT.C138_refused",
    "PT.C138_named"
   ],
   "note": "Components that are not networks are values (one object under several names: C131); torch's add_module refuses also names of existing attributes, which is not modelled."
  },
  {
   "property": "C139",
   "status": "partial",
   "theorems": [
    "PT.C139_violation",
    "PT.C139_link_partial"
   ],
   "note": "REFUTED: only the network on which link is called is rebuilt. Proved: link on a network that is not a part of another network leaves everything up to date."
  },
  {
   "property": "C140",
   "status": "partial",
   "theorems": [
    "PT.C140_violation",
    "PT.C140_list_partial",
    "PT.C140_nameless",
    "PT.C140_own_name"
   ],
   "note": "REFUTED: of terms with equal names all but the last are dropped without an exception. Proved: exactly which network results, and when an exception is raised."
  },
  {
   "property": "C141",
   "status": "proved",
   "theorems": [
    "PT.C141_repr",
    "PT.C141_parts"
   ],
   "note": "Class names are identifiers. In C141_parts every name is a component of its own (C131 for shared ones)."
  },
  {
   "property": "C142",
   "status": "partial",
   "theorems": [
    "PT.C142_violation",
    "PT.C142_ring_iff_partial",
    "PT.C142_transient",
    "PT.C142_grows",
    "PT.C142_stable_partial",
    "PT.C142_feedforward",
    "PT.C142_weighted",
    "PT.C142_named"
   ],
   "note": "REFUTED for circuits with gain. Proved: the exact transient of the ring on a bus, that it approaches the result of the frequency domain exactly below the threshold, and that it exceeds every bound above it; circuits with gain in which no wave grows or persists settle, such as feed-forward circuits and circuits that lose suitably weighted power; C142_named states the same by the names and laws of the components. Circuits without gain: C135."
  },
  {
   "property": "C143",
   "status": "proved",
   "theorems": [
    "PT.C143_readout",
    "PT.C143_bound",
    "PT.C143_settles",
    "PT.C143_trained"
   ],
   "note": "The network of examples/05_optical_readout.ipynb for all parameters; its component Combiner is the Mmi whose weights are all 1, which has the same matrix. C143_trained says which powers are within reach of the phases, not that the optimizer finds them."
  },
  {
   "property": "C144",
   "status": "partial",
   "theorems": [
    "PT.C144_stored",
    "PT.C144_waveguide",
    "PT.C144_violation",
    "PT.C144_gain_partial"
   ],
   "note": "REFUTED for the clause that a waveguide without gain does not amplify. Proved: the error bound for all usual arguments, and that the gain is at most a rounding error. cos, sin and 10 ** x of the libraries are assumed accurate to 2^-52 (relative 2^-50 for the power)."
  },
  {
   "property": "C145",
   "status": "partial",
   "theorems": [
    "PT.C145_violation",
    "PT.C145_bounds_violation",
    "PT.C145_given_partial",
    "PT.C145_ratio_partial",
    "PT.C145_trained",
    "PT.C145_split",
    "PT.C145_coupler"
   ],
   "note": "REFUTED for general bounds: the weight of data at the upper bound may be nan, and the value may exceed the upper bound by a rounding error. Proved: unless it is nan the value is the data up to single precision of the bounds; for couplings and reflectivities (bounds 0 and 1) it is never nan and never leaves the bounds, and couplers and mirrors split the power accordingly. torch.log, torch.sigmoid and ** 0.5 are assumed accurate to 2^-22 or 2^-23, relatively."
  },
  {
   "property": "C146",
   "status": "partial",
   "theorems": [
    "PT.C146_violation",
    "PT.C146_validation_violation",
    "PT.C146_tidy_partial",
    "PT.C146_descent",
    "PT.C146_last"
   ],
   "note": "REFUTED: forward resets the gradients of the parameters of the network. Proved: which gradient is left of several passes, that the training loop of the examples is gradient descent, and that programs which call networks only while the gradients of their parameters are zero train as torch documents. Optimizers are plain gradient descent; a gradient None counts as zero."
  },
  {
   "property": "C147",
   "status": "partial",
   "theorems": [
    "PT.C147_violation",
    "PT.C147_power_partial",
    "PT.C147_mzi",
    "PT.C147_chain"
   ],
   "note": "REFUTED: rounding can amplify. Proved: power is conserved up to single precision, whatever the length of the arms; the entries are those of an Mzi up to single precision and the error of the phase. cos and sin of torch are assumed accurate (Accurate); no overflow."
  },
  {
   "property": "C148",
   "status": "partial",
   "theorems": [
    "PT.C148_violation",
    "PT.C148_seed_partial",
    "PT.C148_history",
    "PT.C148_accepts",
    "PT.C148_minus_one"
   ],
   "note": "REFUTED: a seed given to a call has no effect if it is the seed of the constructor. Proved for all other seeds; without a seed, calls give consecutive pieces of the random bits of the constructor's seed. numpy's rand(n) is assumed to give the next n numbers of a sequence determined by the seed; streams without channels; filters as in C49."
  },
  {
   "property": "C149",
   "status": "proved",
   "theorems": [
    "PT.C149_near",
    "PT.C149_continuous",
    "PT.C149_feedforward",
    "PT.C149_absorbing",
    "PT.C149_components",
    "PT.C149_mesh"
   ],
   "note": "The matrices of the components are rounded; the solution of the circuit equations from these matrices is exact (for rounding errors in each step of a simulation in time see C116)."
  },
  {
   "property": "C150",
   "status": "proved",
   "theorems": [
    "PT.C150_near",
    "PT.C150_absorbing",
    "PT.C150_feedforward",
    "PT.C150_mesh"
   ],
   "note": "The matrices of the components are rounded, the time steps are computed exactly (rounding in each step: C116). Circuits without active components."
  },
  {
   "property": "C151",
   "status": "proved",
   "theorems": [
    "PT.C151_clements",
    "PT.C151_reck"
   ],
   "note": "As C149 and C150: the matrices of the components are rounded, the circuit equations and the time steps are solved exactly. Components are Mzis and waveguides that do not amplify, with arguments of a usual size; the meshes are terminated with sources and detectors."
  },
  {
   "property": "C152",
   "status": "proved",
   "theorems": [
    "PT.C152_split",
    "PT.C152_feedforward"
   ],
   "note": "As C149 and C150: the matrices of the components are rounded, the circuit equations and the time steps are solved exactly. The coupling is the single-precision number that the attribute has (its error with respect to the number given: C145)."
  },
  {
   "property": "C153",
   "status": "proved",
   "theorems": [
    "PT.C153_enhancement",
    "PT.C153_resonant",
    "PT.C153_rings"
   ],
   "note": "As C152. Components that absorb are those of which at most the fraction rho of the amplitude leaves; sources and detectors absorb everything."
  },
  {
   "property": "C154",
   "status": "proved",
   "theorems": [
    "PT.C154_components",
    "PT.C154_feedforward",
    "PT.C154_resonant",
    "PT.C154_rings"
   ],
   "note": "Exact arithmetic. Components of at most four ports; the rates are those of waveguides, Mzis, couplers, mirrors, sources and detectors. The constants are not the best possible."
  },
  {
   "property": "C155",
   "status": "proved",
   "theorems": [
    "PT.C155_components",
    "PT.C155_feedforward",
    "PT.C155_resonant",
    "PT.C155_continuous",
    "PT.C155_built"
   ],
   "note": "Exact arithmetic. Deviations of parameters that do not change delays (not those of length and group index); rates for waveguides, Mzis, couplers and mirrors, the theorems on circuits for any components."
  },
  {
   "property": "C156",
   "status": "proved",
   "theorems": [
    "PT.C156_components",
    "PT.C156_others",
    "PT.C156_feedforward",
    "PT.C156_resonant",
    "PT.C156_steps"
   ],
   "note": "Exact arithmetic. Rates with all parameters for waveguides, Mzis, couplers, Mmis and linear amplifiers; for gratings with all but bandwidth and centre wavelength; in the time domain only deviations that leave delays in time steps unchanged (a delay that changes by a step gives another simulation)."
  },
  {
   "property": "C157",
   "status": "proved",
   "theorems": [
    "PT.C157_powers",
    "PT.C157_energies"
   ],
   "note": "Exact arithmetic in the simulation. Applies to all circuits whose fields are known to be close by C149 to C156."
  }
 ]
}