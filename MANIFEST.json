{
 "claims": [
  {
   "property": "C01",
   "status": "proved",
   "theorems": [
    "Verif.Registry.stored_models_admissible",
    "Verif.Registry.assign_raises_iff",
    "Verif.Registry.rejected_assignment_changes_nothing",
    "Verif.Registry.accepted_assignment_stores"
   ],
   "note": "Every history of constructions, assignments and include_electrons changes."
  },
  {
   "property": "C02",
   "status": "proved",
   "theorems": [
    "Verif.Registry.keys_never_lost",
    "Verif.Registry.constructor_keys_present",
    "Verif.Registry.objects_keep_class_and_parameters"
   ],
   "note": ""
  },
  {
   "property": "C03",
   "status": "proved",
   "theorems": [
    "Verif.Registry.evaluation_never_misses_a_model",
    "Verif.Registry.evaluation_succeeds_without_neglect"
   ],
   "note": "Evaluation is modelled by the set of models it reads; numerical failure is outside the model."
  },
  {
   "property": "C04",
   "status": "partial",
   "theorems": [
    "Verif.Registry.assignment_keeps_other_slots_partial",
    "Verif.Registry.assignment_keeps_objects",
    "Verif.Registry.assignment_can_replace_other_slot"
   ],
   "note": "False as stated: LinearResponseScreening.prepare replaces an existing model. Proved for all other classes; negation has a witness."
  },
  {
   "property": "C05",
   "status": "partial",
   "theorems": [
    "Verif.Tree.equal_states_agree_partial",
    "Verif.Tree.state_equality_is_equivalence",
    "Verif.Tree.equal_states_with_different_models",
    "Verif.Tree.equal_states_with_different_parameters"
   ],
   "note": "False as stated: equality ignores the class of the models and their numerical parameters (two witnesses). Proved: what equality does imply, and that it is an equivalence relation."
  },
  {
   "property": "C06",
   "status": "partial",
   "theorems": [
    "Verif.Registry.distinct_objects_keep_role_partial",
    "Verif.Registry.shared_object_loses_role"
   ],
   "note": "False when one object is stored under two keys; proved when no object is shared."
  },
  {
   "property": "C07",
   "status": "partial",
   "theorems": [
    "Verif.Composite.ipd_sum_value",
    "Verif.Composite.ipd_operands_unchanged_partial",
    "Verif.Composite.ipd_sum_grows_left_operand",
    "Verif.Composite.ipd_others_unchanged",
    "Verif.Composite.shared_sum_witness",
    "Verif.Composite.pot_sum_value",
    "Verif.Composite.pot_operands_unchanged_partial",
    "Verif.Composite.pot_sum_grows_left_operand",
    "Verif.Composite.pot_sum_changes_electrons",
    "Verif.Composite.pot_sum_never_returns",
    "Verif.Composite.sum_plus_own_multiple_never_returns",
    "Verif.Composite.pot_multiple_value"
   ],
   "note": "The value of sums and multiples is proved; that operands stay unchanged is false (a left operand that is a sum is extended in place; electron settings are copied into the operands; s + s*c never returns) and proved outside these cases."
  },
  {
   "property": "C08",
   "status": "partial",
   "theorems": [
    "Verif.Tree.saved_value_restored_partial",
    "Verif.Tree.name_kept_iff",
    "Verif.Tree.saved_object_not_restored"
   ],
   "note": "False as stated for eight classes written under another name; for them loading fails for all attribute values. Proved for every nesting of the other classes."
  },
  {
   "property": "C09",
   "status": "proved",
   "theorems": [
    "Verif.Tree.pytree_round_trip",
    "Verif.Tree.pytree_round_trip_exact",
    "Verif.Tree.pytree_map_keeps_structure",
    "Verif.Tree.ionSphere_forgets_arb_deg"
   ],
   "note": "IonSphereIPD loses arb_deg, which no method reads; every attribute that is read survives."
  },
  {
   "property": "C10",
   "status": "proved",
   "theorems": [
    "Verif.Bisection.bisection_returns",
    "Verif.Bisection.bisection_encloses_root",
    "Verif.Bisection.bisection_accuracy",
    "Verif.Bisection.bisection_rate",
    "Verif.Bisection.bisection_mono",
    "Verif.Bisection.returns_neg"
   ],
   "note": "The order of the results is for at most one forced iteration (min_iter at most 1), which holds for all calls in the code."
  },
  {
   "property": "C100",
   "status": "partial",
   "theorems": [
    "Verif.FreeFree.kAt_dispersionK",
    "Verif.FreeFree.no_electrons",
    "Verif.FreeFree.no_value_at_probe",
    "Verif.FreeFree.value_elsewhere",
    "Verif.FreeFree.dandrea_value",
    "Verif.FreeFree.raw_weight",
    "Verif.FreeFree.weight_bounds",
    "Verif.FreeFree.raw_balance_partial",
    "Verif.FreeFree.raw_pos",
    "Verif.FreeFree.dandrea_centre",
    "Verif.FreeFree.centre_wavenumber",
    "Verif.FreeFree.smooth_border",
    "Verif.FreeFree.smooth_inside",
    "Verif.FreeFree.susceptibility_hermitian",
    "Verif.FreeFree.susceptibility_static_real",
    "Verif.FreeFree.smooth_im",
    "Verif.FreeFree.susceptibility_passive",
    "Verif.FreeFree.susceptibility_bornMermin_passive",
    "Verif.FreeFree.spectrum_of_susceptibility",
    "Verif.FreeFree.dandrea_centre_value",
    "Verif.FreeFree.collisions_with_all_ions"
   ],
   "note": "False: all models but RPA_DandreaFit have no value (0/0) in a channel at the energy of the probe (no_value_at_probe); the value that RPA_DandreaFit fills in belongs to the wave number in vacuum even if the correction of the wave number is on (centre_wavenumber). Detailed balance and the agreement with the susceptibility are proved without the correction of the wave number; BornMermin_Full needs an axis that extends equally far to both sides (compare C58). Dissipation in the Born-Mermin approximation is proved where the real part of the collision frequency is positive (compare C57)."
  },
  {
   "property": "C101",
   "status": "partial",
   "theorems": [
    "Verif.Spectrum.probe_length",
    "Verif.Spectrum.probe_sum",
    "Verif.Spectrum.probe_neglect",
    "Verif.Spectrum.ionic_is_line",
    "Verif.Spectrum.probe_instrument_linear",
    "Verif.Spectrum.probe_redistribution",
    "Verif.Spectrum.probe_nonneg",
    "Verif.Spectrum.inelastic_balance_partial",
    "Verif.Spectrum.evaluateO_some",
    "Verif.Spectrum.evaluateO_none",
    "Verif.Spectrum.centred_axis_nan"
   ],
   "note": "False in one clause: with every free-free model but RPA_DandreaFit an odd number of channels around the energy of the probe gives a spectrum without any value (centred_axis_nan); evaluateO_none says which channels are lost on other axes. Detailed balance is proved without the correction of the wave number. Sign and linearity are for ascending axes, see C54 for descending ones."
  },
  {
   "property": "C102",
   "status": "partial",
   "theorems": [
    "Verif.BoundFree.effectiveCharge_pos",
    "Verif.BoundFree.effectiveCharge_ne_zero",
    "Verif.BoundFree.no_gain",
    "Verif.BoundFree.threshold",
    "Verif.BoundFree.cold_threshold",
    "Verif.BoundFree.unbound_still_scatters",
    "Verif.BoundFree.fully_ionised",
    "Verif.BoundFree.models_agree_integer",
    "Verif.BoundFree.models_agree_hydrogen",
    "Verif.BoundFree.evaluateRaw_channels",
    "Verif.BoundFree.one_process_per_channel",
    "Verif.BoundFree.sum_rule_partial",
    "Verif.BoundFree.cold_sum_rule_partial",
    "Verif.BoundFree.bfState_auto_norm",
    "Verif.BoundFree.cold_sum_rule_auto_partial",
    "Verif.BoundFree.sum_rule_auto_partial"
   ],
   "note": "The sum rules hold for elements with at most twelve electrons (the profiles of the outer orbitals are not normalised, C24), for a fixed wave number; for both an r_k given by the user and the automatic one. A level lowered into the continuum still scatters like a bound one (unbound_still_scatters)."
  },
  {
   "property": "C103",
   "status": "partial",
   "theorems": [
    "Verif.Encode.saved_array",
    "Verif.Encode.saved_number",
    "Verif.Encode.saved_empty",
    "Verif.Encode.saved_value_iff",
    "Verif.Encode.saved_mix",
    "Verif.Encode.saved_mix_list"
   ],
   "note": "False in general; saved_value_iff says exactly which values come back. Saving raises for arrays of 32 bit floats or booleans, numbers in arrays without dimensions come back as python floats, empty dimensions lose what follows them, tuples come back as lists, and average atoms cannot be loaded. Functions, which are pickled, are not modelled."
  },
  {
   "property": "C104",
   "status": "partial",
   "theorems": [
    "Verif.Encode.saved_grid_iff",
    "Verif.Encode.saved_grid_limits"
   ],
   "note": "True exactly for evenly spaced, ascending grids; every other grid is replaced by the evenly spaced one with the same limits and length, without a message. Exact arithmetic."
  },
  {
   "property": "C105",
   "status": "proved",
   "theorems": [
    "Verif.Nist.matchAt_iff",
    "Verif.Nist.search_iff",
    "Verif.Nist.search_none_iff",
    "Verif.Nist.number_text",
    "Verif.Nist.row_read",
    "Verif.Nist.row_skipped",
    "Verif.Nist.table_read",
    "Verif.Nist.readFile_length",
    "Verif.Nist.state_without_levels",
    "Verif.Nist.partition_sum_of_table"
   ],
   "note": "Digits are the ten ASCII digits, decimal numbers exact. That a state without levels is dropped is a consequence which may surprise: the reader gives no message if nothing in a file can be read (state_without_levels)."
  },
  {
   "property": "C106",
   "status": "partial",
   "theorems": [
    "Verif.Units.toArray_values",
    "Verif.Units.toArray_list_iff",
    "Verif.Units.toArray_length",
    "Verif.Units.init_values",
    "Verif.Units.init_one_temperature",
    "Verif.Units.init_isSome_iff",
    "Verif.Units.init_temperature_list",
    "Verif.Units.init_temperature_array",
    "Verif.Units.init_too_many_temperatures",
    "Verif.Units.init_first_temperature"
   ],
   "note": "False for electron temperatures given as an array: with as many entries as ions each ion gets another temperature (init_temperature_array), and for one ion an array of any length is accepted, so that the state has more ion temperatures than ions (init_too_many_temperatures). Units with an offset and lists that mix quantities and plain numbers are not modelled."
  },
  {
   "property": "C107",
   "status": "partial",
   "theorems": [
    "Verif.FermiInt.inverse_antia_offset_partial",
    "Verif.FermiInt.inverse_antia_not_inverse",
    "Verif.FermiInt.inverse_antia_too_small"
   ],
   "note": "False: for arguments up to 2.79 the Fermi integral of the returned value is more than a percent too small (inverse_antia_not_inverse), because the norm is contained once too often. Without the logarithm of the norm the value is right to two parts in a million there (inverse_antia_offset_partial). Missing: the arguments above 2.79."
  },
  {
   "property": "C108",
   "status": "partial",
   "theorems": [
    "Verif.DbWavelength.dbWavelength_eq",
    "Verif.DbWavelength.dbWavelength_never",
    "Verif.DbWavelength.collected_partial"
   ],
   "note": "False for every state and every argument: the list of results is never returned (None for electrons), and any other entry, also an ion of the state, raises because elements refuse to be compared with strings (dbWavelength_eq). The numbers which are collected for the electrons, and then lost, are right (collected_partial)."
  },
  {
   "property": "C109",
   "status": "proved",
   "theorems": [
    "Verif.Resp.imagRPA_fsum",
    "Verif.Resp.epsRPA_static_kk",
    "Verif.Resp.epsRPA_high",
    "Verif.Resp.epsDandrea_im_fsum",
    "Verif.Resp.s0eeRPANoDamping_fsum",
    "Verif.Resp.gasDensity_pos",
    "Verif.Resp.s0eeRPANoDamping_fsum_lfc",
    "Verif.Resp.s0eeRPANoDamping_fsum_line",
    "Verif.Resp.response_fsum",
    "Verif.Resp.chiee_kk",
    "Verif.Resp.chiee_static",
    "Verif.Resp.epsRPANoDamping_kk",
    "Verif.Resp.chiee_im_neg",
    "Verif.Resp.epsRPA_highC",
    "Verif.Resp.chiee_high"
   ],
   "note": "Integrals are exact. The structure factor is treated with any local field correction up to one; the Kramers-Kronig relations are stated as limits of regularised principal values. A local field correction above one is not treated: the response can then have poles in the upper half plane."
  },
  {
   "property": "C11",
   "status": "partial",
   "theorems": [
    "Verif.Cramer.cramer_solves",
    "Verif.Cramer.cramer_independent_of_limit",
    "Verif.Cramer.batch_solves_partial",
    "Verif.Cramer.batch4_fails",
    "Verif.Cramer.batch4_iff"
   ],
   "note": "Proved for single systems of every size and for batches of systems with up to three rows. False for batches of systems with four rows, where the result is divided by the determinants of other systems: two, three and more than four systems raise (batch4_fails), four give wrong numbers unless the determinants are equal (batch4_iff). The batched fallback for five and more rows is not modelled."
  },
  {
   "property": "C110",
   "status": "proved",
   "theorems": [
    "Verif.Resp.s0ee_integrable",
    "Verif.Resp.s0ee_static_bounds",
    "Verif.Resp.s0ee_static_screened",
    "Verif.Resp.s0ee_static_longWave",
    "Verif.Resp.s0ee_static_pos",
    "Verif.Resp.epsRPA_longWave",
    "Verif.Resp.epsRPA_compressibility"
   ],
   "note": "Integrals are exact. The density is the one that belongs to the chemical potential."
  },
  {
   "property": "C111",
   "status": "proved",
   "theorems": [
    "Verif.Hnc.Input.solution_exists",
    "Verif.Hnc.Input.solution_unique",
    "Verif.Hnc.Input.residual_cycle",
    "Verif.Hnc.Input.while_converges",
    "Verif.Hnc.Input.returns_converge",
    "Verif.Hnc.Input.weak_of_dilute",
    "Verif.Hnc.Input.returns_dilute",
    "Verif.Hnc.Input.returns_hot",
    "Verif.Hnc.Input.fixedT_iff",
    "Verif.Hnc.Input.svtReturns_converge",
    "Verif.Hnc.Input.svtReturns_dilute",
    "Verif.Hnc.Input.svtReturns_hot",
    "Verif.Hnc.Input.solutionT_unique",
    "Verif.Hnc.Input.returns_agree"
   ],
   "note": "The bounds are sums of absolute values over the grid, so that the condition is sufficient but not necessary. Results with different mixing parameters and intermediate temperatures agree up to the sum of the errors (returns_agree)."
  },
  {
   "property": "C12",
   "status": "proved",
   "theorems": [
    "Verif.Hnc.dst4_eq",
    "Verif.Hnc.dst4_odd",
    "Verif.Hnc.sineSum_sineSum",
    "Verif.Hnc.fourierSine_inverse",
    "Verif.Hnc.fourierSine_inverse'",
    "Verif.Hnc.roundtrip"
   ],
   "note": "jnp.fft.fft is modelled from its documentation."
  },
  {
   "property": "C13",
   "status": "proved",
   "theorems": [
    "Verif.Expt.convolve_formula",
    "Verif.Expt.convolve_complete",
    "Verif.Expt.convolve_delta",
    "Verif.Expt.convolve_linear",
    "Verif.Expt.convolve_nonneg",
    "Verif.Expt.convolve_line"
   ],
   "note": "Ascending equidistant grids, any number of channels. convolve_formula gives every channel; descending grids are C54."
  },
  {
   "property": "C14",
   "status": "proved",
   "theorems": [
    "Verif.Density.mass_fraction_raises_iff",
    "Verif.Density.mass_fractions_valid",
    "Verif.Density.number_fractions_reproduced",
    "Verif.Density.electron_density_reproduced",
    "Verif.Density.partial_densities_sum"
   ],
   "note": ""
  },
  {
   "property": "C15",
   "status": "proved",
   "theorems": [
    "Verif.Density.expanded_charges_integer",
    "Verif.Density.split_conserves",
    "Verif.Density.expansion_conserves_totals",
    "Verif.Density.expansion_physical"
   ],
   "note": ""
  },
  {
   "property": "C16",
   "status": "proved",
   "theorems": [
    "Verif.Expt.k_eq_thomson",
    "Verif.Expt.fullK_geometry",
    "Verif.Expt.fullK_elastic",
    "Verif.Expt.k_constant",
    "Verif.Expt.dispersionK_vacuum",
    "Verif.Expt.photonK_dispersion",
    "Verif.Expt.dispersionK_geometry",
    "Verif.Expt.getProbeSetup_k",
    "Verif.Expt.getProbeSetup_fullK_iff",
    "Verif.Expt.frequencyRedistribution_cases"
   ],
   "note": "Specification: length of the difference of two plane vectors and the dispersion relation of light."
  },
  {
   "property": "C17",
   "status": "partial",
   "theorems": [
    "Verif.Instrument.gaussian_normalised",
    "Verif.Instrument.lorentzian_normalised",
    "Verif.Instrument.twinGaussian_normalised",
    "Verif.Instrument.superGaussian_area",
    "Verif.Instrument.fromArray_trapezoid",
    "Verif.Instrument.fromArray_normalised_partial",
    "Verif.Instrument.fromArray_nonneg",
    "Verif.Instrument.fromArray_descending",
    "Verif.Instrument.superGaussian_trapezoid"
   ],
   "note": "False for arrays with descending frequencies, where the instrument function is zero everywhere. All other clauses are proved."
  },
  {
   "property": "C18",
   "status": "partial",
   "theorems": [
    "Verif.Instrument.gaussian_fwhm_partial",
    "Verif.Instrument.fwhm_round_trip",
    "Verif.Instrument.twinGaussian_half",
    "Verif.Instrument.superGaussian_fwhm_iff"
   ],
   "note": "False for the super-Gaussian unless the exponent is one (superGaussian_fwhm_iff, for all widths and exponents). Proved for the other functions with a width."
  },
  {
   "property": "C19",
   "status": "proved",
   "theorems": [
    "Verif.Saha.weight_pos",
    "Verif.Saha.weight_sum",
    "Verif.Saha.zbar_mem",
    "Verif.Saha.densities_sum",
    "Verif.Saha.allDensities_sum",
    "Verif.Saha.fractions_dist"
   ],
   "note": "The first result of the solver (documented as fractions for calculate_mean_free_charge_saha) sums to the ion density."
  },
  {
   "property": "C20",
   "status": "partial",
   "theorems": [
    "Verif.Ipd.stewartPyatt_ge_debyeHueckel",
    "Verif.Ipd.stewartPyatt_ge_ionSphere",
    "Verif.Ipd.stewartPyatt_single_partial",
    "Verif.Ipd.stewartPyatt_cold",
    "Verif.Ipd.stewartPyatt_cold_ionSphere",
    "Verif.Ipd.stewartPyatt_hot",
    "Verif.Ipd.stewartPyatt_neg",
    "Verif.Ipd.debyeHueckel_neg",
    "Verif.Ipd.ionSphere_neg",
    "Verif.Ipd.preston_ge",
    "Verif.Ipd.prestonZ_population",
    "Verif.Ipd.stewartPyatt_exceeds_ionSphere",
    "Verif.Ipd.stewartPyatt_exceeds_debyeHueckel",
    "Verif.Ipd.prestonZ_square",
    "Verif.Ipd.stewartPyatt_graded"
   ],
   "note": "True for one species with charge at least 1e-6. False for species with a charge above the mean (stewartPyatt_exceeds_ionSphere) and, by a factor of at most 1+1e-6, for neutral atoms (stewartPyatt_exceeds_debyeHueckel)."
  },
  {
   "property": "C21",
   "status": "partial",
   "theorems": [
    "Verif.Ipd.eckerKroell_low",
    "Verif.Ipd.eckerKroell_scale",
    "Verif.Ipd.eckerKroell_continuous_partial",
    "Verif.Ipd.eckerKroell_continuousAt_iff",
    "Verif.Ipd.eckerKroell_low_wrong",
    "Verif.Ipd.criticalDensity_energy"
   ],
   "note": "True for one species. False for several: the lowering jumps (eckerKroell_continuousAt_iff), and differs from Debye-Hueckel for unequal ion temperatures (eckerKroell_low_wrong)."
  },
  {
   "property": "C22",
   "status": "proved",
   "theorems": [
    "Verif.Bound.atomicFF_hydrogen",
    "Verif.Bound.radialProb_mass",
    "Verif.Bound.atomicFF_none",
    "Verif.Bound.atomicFF_zero",
    "Verif.Bound.atomicFF_abs_le",
    "Verif.Bound.atomicFF_scale",
    "Verif.Bound.atomicFF_neg",
    "Verif.Bound.allFF_eq",
    "Verif.Bound.allFF_abs_le",
    "Verif.Bound.paulingFF_first"
   ],
   "note": "All ten orbitals; wave numbers and charges are reals."
  },
  {
   "property": "C23",
   "status": "proved",
   "theorems": [
    "Verif.Interp.electrons_complete",
    "Verif.Interp.electrons_within_capacity"
   ],
   "note": "Z_core between 0 and 36, the range of the shells in the code."
  },
  {
   "property": "C24",
   "status": "partial",
   "theorems": [
    "Verif.Bound.phiS_hydrogen_partial",
    "Verif.Bound.impulse_norm",
    "Verif.Bound.impulse_norm_partial",
    "Verif.Bound.impulse_norm_wrong",
    "Verif.Bound.pref_norm_true",
    "Verif.Bound.phiS_pos",
    "Verif.Bound.jSchum_pos",
    "Verif.Bound.impulse_pos",
    "Verif.Bound.impulse_negative",
    "Verif.Bound.jBM_eq",
    "Verif.Bound.profileSpec5_eq",
    "Verif.Bound.phi50_off",
    "Verif.Bound.phi51_off",
    "Verif.Bound.phi52_off",
    "Verif.Bound.j51_negative",
    "Verif.Bound.bmBound_eq",
    "Verif.Bound.bound_sum_rule_partial",
    "Verif.Bound.bmBound_none",
    "Verif.Bound.bmHRApprox_norm",
    "Verif.Bound.bmApprox_norm"
   ],
   "note": "True for 1s, 2s, 2p and 3s; false for the other six orbitals, whose coefficients are wrong (impulse_norm_wrong), and non-negativity is false with the asymmetric correction (impulse_negative). The profiles of 5s, 5p and 5d, which no model uses, are wrong as well (phi50_off, phi51_off, phi52_off), that of 5p is negative at its centre.  The sum rule of the whole bound-free feature is proved for elements with at most 12 electrons (the orbitals beyond are not normalised)."
  },
  {
   "property": "C25",
   "status": "proved",
   "theorems": [
    "Verif.Bound.isMixture_unique",
    "Verif.Bound.bfMix_mixture",
    "Verif.Bound.bfMix_linear",
    "Verif.Bound.bfState_bare",
    "Verif.Bound.bfMix_states",
    "Verif.Bound.rkAuto_mem",
    "Verif.Bound.bfTotal_norm",
    "Verif.Bound.bound_sum_rule_partial"
   ],
   "note": "The form factors in r_k are arbitrary numbers in [-1,1]."
  },
  {
   "property": "C26",
   "status": "proved",
   "theorems": [
    "Verif.Expt.freeBound_entry",
    "Verif.Expt.flipped_k",
    "Verif.Expt.bound_detailed_balance",
    "Verif.Expt.bound_detailed_balance_no_dispersion",
    "Verif.Expt.opposite_channels_differ"
   ],
   "note": "For every bound-free model that works channel by channel."
  },
  {
   "property": "C27",
   "status": "partial",
   "theorems": [
    "Verif.Itcf.laplace_of_perm",
    "Verif.Itcf.laplace_nonneg",
    "Verif.Itcf.laplace_convex",
    "Verif.Itcf.laplace_near_symmetric",
    "Verif.Itcf.laplace_symmetric_partial",
    "Verif.Itcf.laplace_minimum",
    "Verif.Itcf.gridT_exact",
    "Verif.Itcf.ssf_raw",
    "Verif.Itcf.fsum_raw",
    "Verif.Itcf.deconvolved",
    "Verif.Itcf.instrument_itself",
    "Verif.Itcf.laplace_grid",
    "Verif.Itcf.laplace_convolved",
    "Verif.Itcf.thermometry_partial",
    "Verif.Itcf.ssf_constant",
    "Verif.Itcf.convolve_eq",
    "Verif.Itcf.fromSetup_F",
    "Verif.Itcf.itcftGrid_exact_partial",
    "Verif.Itcf.itcft_deconvolved",
    "Verif.Itcf.F_cosh",
    "Verif.Itcf.getT_accurate_partial"
   ],
   "note": "Exact for data that vanish next to the cut (thermometry_partial: the whole chain on uniform grids); otherwise the symmetry holds up to the deviation at the two inserted energies (laplace_near_symmetric). False for a cut beyond data that do not vanish at their ends, which are continued with the last value: ssf_constant. argsort, interp, trapezoid and argmin are modelled from their documentation. With the search in use the inverse temperature is found up to an error given by the curvature of the correlation function, if tau_max is at least the inverse temperature (getT_accurate_partial)."
  },
  {
   "property": "C28",
   "status": "partial",
   "theorems": [
    "Verif.Resp.fdt_pos",
    "Verif.Resp.fdt_balance",
    "Verif.Resp.chain_pos",
    "Verif.Resp.chain_balance",
    "Verif.Resp.s0eeSalpeter_pos_partial",
    "Verif.Resp.s0eeSalpeter_balance",
    "Verif.Resp.s0eeRPANoDamping_pos",
    "Verif.Resp.s0eeRPANoDamping_balance",
    "Verif.Resp.epsDandrea_im",
    "Verif.Resp.s0eeDandrea_pos",
    "Verif.Resp.s0eeDandrea_balance",
    "Verif.Resp.salpeter_recoil",
    "Verif.Resp.salpeter_recoil_neg"
   ],
   "note": "Positivity and detailed balance proved for RPA without damping, the Dandrea fit and Salpeter; the Salpeter expression is 0/0 exactly at the recoil energy, which is excluded and characterised by salpeter_recoil. E = 0 is excluded (0/0 in the code). Im eps of the Dandrea fit is proved equal to that of the RPA."
  },
  {
   "property": "C29",
   "status": "partial",
   "theorems": [
    "Verif.Resp.merminInterp_eq_merminFit",
    "Verif.Resp.merminFull_eq_merminFit",
    "Verif.Resp.merminFit_susceptibility",
    "Verif.Resp.fortmann_eq_fit",
    "Verif.Resp.s0eeBMAFortmann_eq",
    "Verif.Resp.merminFit_zero",
    "Verif.Resp.merminFit_tendsto_partial",
    "Verif.Resp.merminFit_static",
    "Verif.Resp.merminFit_inverse",
    "Verif.Resp.epsBMAFit_no_collisions",
    "Verif.Resp.nuInterpFit_zero",
    "Verif.Resp.mermin_tendsto",
    "Verif.Resp.s0eeBMAInterp_weak",
    "Verif.Resp.s0eeBMA_weak",
    "Verif.Resp.s0eeBMAFit_weak",
    "Verif.Resp.s0eeBMAFortmann_weak"
   ],
   "note": "The three formulas agree and have the right limits. False for the default rewritten RPA at a collision frequency of exactly zero: no imaginary part is left (epsBMAFit_no_collisions). For collisions that become weak but do not vanish, all four structure factors tend to S0_ee_RPA_no_damping with either damped dielectric function (s0ee..._weak)."
  },
  {
   "property": "C30",
   "status": "proved",
   "theorems": [
    "Verif.Resp.epsilon_of_susceptibility",
    "Verif.Resp.susceptibility_of_epsilon",
    "Verif.Resp.rpa_susceptibility",
    "Verif.Resp.rpa_epsilon",
    "Verif.Resp.inv_epsilon",
    "Verif.Resp.xiLfc_one",
    "Verif.Resp.xiLfc_xiLfc",
    "Verif.Resp.fdt_forms",
    "Verif.Resp.coulombFourier_pos_iff"
   ],
   "note": "Exact complex arithmetic."
  },
  {
   "property": "C31",
   "status": "partial",
   "theorems": [
    "Verif.Pot.split_r_partial",
    "Verif.Pot.yukawa_full_r_fails",
    "Verif.Pot.yukawa_formula_ne_parts",
    "Verif.Pot.softCore_parts_fail",
    "Verif.Pot.sum_fails",
    "Verif.Pot.split_k_partial",
    "Verif.Pot.numerical_full_k",
    "Verif.Pot.split_k_exact",
    "Verif.Pot.deutsch_not_split_k",
    "Verif.Pauli.fullR_parts",
    "Verif.Pot.softCore_spec",
    "Verif.Pot.yukawa_units"
   ],
   "note": "Proved for PauliClassicalMap (fullR_parts) and for every sum and multiple of all other potentials but Yukawa, soft core and (in k space) Deutsch, whose short-range part is transformed numerically while the full form is analytic and differs by the factor pi. False for those: full_r of the Yukawa potential adds numbers of different units and raises (yukawa_full_r_fails); the parts of the soft core potential do not add up or raise."
  },
  {
   "property": "C32",
   "status": "partial",
   "theorems": [
    "Verif.Pot.ft_yukawa",
    "Verif.Pot.ft_core",
    "Verif.Pot.coulomb_pair",
    "Verif.Pot.debye_pair",
    "Verif.Pot.coulomb_damped",
    "Verif.Pot.coulomb_long_pair",
    "Verif.Pot.debye_long_pair",
    "Verif.Pot.emptyCore_pair",
    "Verif.Pot.deutsch_transform",
    "Verif.Pot.deutsch_not_pair",
    "Verif.Pot.leaf_long_pair",
    "Verif.Pot.long_pair",
    "Verif.Pot.long_pair_all",
    "Verif.Pauli.fullR_pair",
    "Verif.Pot.softCore_pair"
   ],
   "note": "Proved for Coulomb, Debye-Hueckel, empty core, PauliClassicalMap (as a discrete pair) and the long-range part of every sum and multiple. False for Deutsch: the transform of full_r is pi times full_k (deutsch_transform, deutsch_not_pair). The Coulomb potential is transformed as the limit of a damped one."
  },
  {
   "property": "C33",
   "status": "proved",
   "theorems": [
    "Verif.Resp.lfcInterp_between",
    "Verif.Resp.lfcInterp_limits",
    "Verif.Resp.lfcTheta_nonneg",
    "Verif.Resp.lfcHubbard_mem",
    "Verif.Resp.lfcHubbard_lt",
    "Verif.Resp.lfcGeldartVosko_mem"
   ],
   "note": "Interpolation, Hubbard and the closing formula of Geldart-Vosko; the fits of its coefficients are parameters."
  },
  {
   "property": "C34",
   "status": "proved",
   "theorems": [
    "Verif.Ssf.sIiAD_eq",
    "Verif.Ssf.sEiAD_eq",
    "Verif.Ssf.sEeAD_eq",
    "Verif.Ssf.sAD_inverse",
    "Verif.Ssf.sAD_bounds",
    "Verif.Ssf.sIiAD_two_temperatures",
    "Verif.Ssf.sAD_small",
    "Verif.Ssf.sIiAD_large",
    "Verif.Ssf.sIiAD_cold_negative",
    "Verif.Ssf.glenzer2009_small"
   ],
   "note": "Also proved: outside equilibrium S_ii stays in (0,1) under an explicit condition, and gets negative for very cold ions."
  },
  {
   "property": "C35",
   "status": "partial",
   "theorems": [
    "Verif.Ssf.Mix.rayleigh_eq",
    "Verif.Ssf.Mix.rayleigh_single",
    "Verif.Ssf.Mix.rayleigh_nonneg",
    "Verif.Ssf.Mix.Refines.rayleigh_partial",
    "Verif.Ssf.Mix.nChs_lt",
    "Verif.Ssf.Mix.nChs_split",
    "Verif.Ssf.Mix.rayleigh_negative",
    "Verif.Ssf.peakCollection_shift",
    "Verif.Ssf.peakCollection_top",
    "Verif.Ssf.peakCollection_integral",
    "Verif.Ssf.ionFeature_integral"
   ],
   "note": "Splitting invariance is false for the charged hard sphere models, which use the sum of squares of the densities over their sum as density (nChs_split); for the other three models it is proved. rayleigh_negative shows that the code's own structure factors lead to negative weights."
  },
  {
   "property": "C36",
   "status": "partial",
   "theorems": [
    "Verif.Ssf.Mix.sAb_symm",
    "Verif.Ssf.Mix.sAb_eq",
    "Verif.Ssf.Mix.sAb_psd_iff",
    "Verif.Ssf.Mix.sAb_psd_equal_partial",
    "Verif.Ssf.Mix.arkhipov_psd",
    "Verif.Ssf.Mix.arkhipov_large",
    "Verif.Ssf.Mix.arkhipov_negative",
    "Verif.Ssf.Mix.tiEff_between"
   ],
   "note": "Positive semidefiniteness for all 0 <= S <= 1 is false for mixtures of different charges; sAb_psd_iff gives the exact bound on S, and arkhipov_negative shows that it is violated."
  },
  {
   "property": "C37",
   "status": "proved",
   "theorems": [
    "Verif.Hnc.ornstein_zernike",
    "Verif.Hnc.ozr_symm",
    "Verif.Hnc.ozr_asymmetric",
    "Verif.Hnc.Input.step_symm",
    "Verif.Hnc.Input.returns_symm",
    "Verif.Hnc.Input.returns_pos",
    "Verif.Hnc.Input.returns_unique",
    "Verif.Hnc.Input.fixed_iff",
    "Verif.Hnc.Input.returns_closure",
    "Verif.Hnc.Input.returns_ideal",
    "Verif.Hnc.exists_solution"
   ],
   "note": "Potentials and temperatures have to be symmetric: ozr_asymmetric shows that otherwise the equation is not solved. For singular systems the model divides by zero (zero instead of NaN)."
  },
  {
   "property": "C38",
   "status": "partial",
   "theorems": [
    "Verif.Density.average_of_one_species_partial",
    "Verif.Density.average_nI",
    "Verif.Density.average_mean_charge",
    "Verif.Density.average_density_too_small",
    "Verif.Density.average_of_each_ion"
   ],
   "note": "False for every state with two or more species: the average has too few ions and electrons."
  },
  {
   "property": "C39",
   "status": "partial",
   "theorems": [
    "Verif.Resp.fermiDirac_mem",
    "Verif.Resp.fermiDirac_half",
    "Verif.Resp.fermiDirac_lt",
    "Verif.Resp.fermiDirac_hole",
    "Verif.Resp.temperatureInterpolation_bounds",
    "Verif.Resp.tCfGreg_ge_partial",
    "Verif.Resp.tCfGreg_below_fermi",
    "Verif.Resp.tCfGreg_not_ge",
    "Verif.Resp.tIEffGreg_ge",
    "Verif.Resp.tRsGreg_mean",
    "Verif.Resp.tRsGreg_electron",
    "Verif.Resp.tDebyeBohmStaver_le",
    "Verif.Resp.chemPotSommerfeld_eq",
    "Verif.Resp.chemPotIchimaru_degenerate",
    "Verif.Resp.degeneracyParam_eq",
    "Verif.Resp.chemPotIchimaru_classical",
    "Verif.Resp.teffE_eq",
    "Verif.Resp.eeCoupling_eq",
    "Verif.Resp.teffE_unbounded",
    "Verif.Resp.teffE_bounds_partial",
    "Verif.Resp.chemPotSommerfeld_classical",
    "Verif.Resp.chemPotSommerfeld_degenerate",
    "Verif.Resp.chemHigh_classical"
   ],
   "note": "False for T_cf_Greg, which is below the Fermi temperature at high density (tCfGreg_below_fermi); all other parts proved. It also has a pole at a Wigner-Seitz radius of 55.5 Bohr radii (teffE_unbounded)."
  },
  {
   "property": "C40",
   "status": "partial",
   "theorems": [
    "Verif.Elements.invert_raises_iff",
    "Verif.Elements.invert_lookup",
    "Verif.Elements.symbol_and_number_agree",
    "Verif.Elements.supported_elements",
    "Verif.Elements.element_determined",
    "Verif.Elements.mass_plausible",
    "Verif.Elements.configurations_complete",
    "Verif.Elements.ionization_removes_one_electron",
    "Verif.Elements.weights_possible",
    "Verif.Elements.energies_increase_partial",
    "Verif.Elements.energies_not_increasing",
    "Verif.Elements.sorted_energies_increase"
   ],
   "note": "The tabulated energies do not increase with charge from fluorine on; they do after sorting."
  },
  {
   "property": "C41",
   "status": "proved",
   "theorems": [
    "Verif.Bound.edgeHeaviside_isEdge",
    "Verif.Bound.edgeNonNegative_isEdge",
    "Verif.Bound.edgeFermi_isEdge",
    "Verif.Bound.edgeFermi_cold",
    "Verif.Bound.edgeHeaviside_spec",
    "Verif.Bound.edgeFermi_balance",
    "Verif.Bound.edgeNone_not_isEdge"
   ],
   "note": "NoEdge is constantly one."
  },
  {
   "property": "C42",
   "status": "partial",
   "theorems": [
    "Verif.Expt.sampling_at_nodes_partial",
    "Verif.Expt.sampling_all_channels_partial",
    "Verif.Expt.sampling_ignores_dispersion_switch",
    "Verif.Expt.sampling_changes_physics",
    "Verif.Expt.sampling_keeps_redistribution"
   ],
   "note": "False as stated: the setup used for sampling is built without correct_k_dispersion. Proved for setups with the default, for models that work channel by channel."
  },
  {
   "property": "C43",
   "status": "partial",
   "theorems": [
    "Verif.Bound.loweringFF_eq",
    "Verif.Bound.loweringFF_single_partial",
    "Verif.Bound.loweringFF_wrong",
    "Verif.Bound.loweringFF_not_spec",
    "Verif.Bound.loweringZeff_mono",
    "Verif.Bound.lowering10_mem",
    "Verif.Bound.lowering10_mono",
    "Verif.Bound.lowering_K_energies",
    "Verif.Bound.lowered1s_eq",
    "Verif.Bound.lowered1s_hydrogen",
    "Verif.Bound.lowered1s_mono"
   ],
   "note": "True for one species; false for two or more, because row and column are exchanged (loweringFF_not_spec). The K-shell energies are wrong for Z = 9, 10, 19, 20, 29, 30 (lowering_K_energies)."
  },
  {
   "property": "C44",
   "status": "proved",
   "theorems": [
    "Verif.Expt.compton_bounds",
    "Verif.Expt.compton_conserves",
    "Verif.Expt.compton_leading_order"
   ],
   "note": "Relativistic conservation of energy and momentum, for all energies and angles."
  },
  {
   "property": "C45",
   "status": "partial",
   "theorems": [
    "Verif.Interp.interp_at_node",
    "Verif.Interp.interp_between_nodes",
    "Verif.Interp.interp_outside",
    "Verif.Interp.interp_in_range",
    "Verif.Interp.interp_monotone",
    "Verif.Interp.pauling_hits_nodes_partial",
    "Verif.Interp.pauling_4s_misses_nodes",
    "Verif.Interp.pauling_4s_jumps",
    "Verif.Interp.pauling_below_charge"
   ],
   "note": "Interpolation properties hold for all ordered tables. The Pauling 4s table is not ordered (26 instead of 36), so its nodes are missed."
  },
  {
   "property": "C46",
   "status": "proved",
   "theorems": [
    "Verif.Citation.citation_sections",
    "Verif.Citation.citation_bibtex",
    "Verif.Citation.citation_cite",
    "Verif.Citation.citation_raises_iff",
    "Verif.Citation.citation_builtin",
    "Verif.Citation.bibtex_entries"
   ],
   "note": "How pybtex prints an entry is a parameter."
  },
  {
   "property": "C47",
   "status": "partial",
   "theorems": [
    "Verif.Registry.assignments_commute_partial",
    "Verif.Registry.assignment_order_matters",
    "Verif.Registry.electron_treatment"
   ],
   "note": "False: include_electrons of a potential depends on the order. Proved for assignments that trigger no default or forced action.  After each accepted assignment the potentials treat the electrons as the model just assigned needs it (electron_treatment)."
  },
  {
   "property": "C48",
   "status": "partial",
   "theorems": [
    "Verif.Registry.probe_succeeds_partial",
    "Verif.Registry.probe_can_fail",
    "Verif.Registry.probe_can_fail_free_free"
   ],
   "note": "False: Neglect has no S_ii / susceptibility method. Proved when Neglect is not in the slot that is read."
  },
  {
   "property": "C49",
   "status": "partial",
   "theorems": [
    "Verif.Elements.element_eq_partial",
    "Verif.Elements.mix_not_equal_to_itself",
    "Verif.Elements.eq_not_transitive",
    "Verif.Elements.mix_has_no_hash"
   ],
   "note": "Holds for elements, false for average atoms."
  },
  {
   "property": "C50",
   "status": "partial",
   "theorems": [
    "Verif.Elements.cold_binding_energies_partial",
    "Verif.Elements.cold_binding_energies_shifted",
    "Verif.Elements.iron_cold_binding"
   ],
   "note": "The columns read do not match the columns of the table from beryllium on."
  },
  {
   "property": "C51",
   "status": "partial",
   "theorems": [
    "Verif.Elements.interpolated_configuration_partial",
    "Verif.Elements.chromium_and_copper_differ"
   ],
   "note": "All elements but Cr and Cu."
  },
  {
   "property": "C52",
   "status": "partial",
   "theorems": [
    "Verif.Elements.binding_energies_of_nearest_charge",
    "Verif.Elements.binding_energies_of_negative_charge",
    "Verif.Elements.bound_iff_occupied",
    "Verif.Elements.inner_orbitals_bound_stronger",
    "Verif.Elements.binding_increases_with_charge",
    "Verif.Elements.bare_nucleus_partial",
    "Verif.Elements.bare_krypton_has_binding_energy"
   ],
   "note": "Only fails for the bare krypton nucleus."
  },
  {
   "property": "C53",
   "status": "partial",
   "theorems": [
    "Verif.Density.new_state_radius",
    "Verif.Density.user_radius",
    "Verif.Density.expanded_radius_partial",
    "Verif.Density.expanded_state_has_no_radius",
    "Verif.Density.average_state_radius"
   ],
   "note": "Raises for expanded states of two or more species."
  },
  {
   "property": "C54",
   "status": "partial",
   "theorems": [
    "Verif.Expt.convolve_descending_odd",
    "Verif.Expt.convolve_descending_even",
    "Verif.Expt.convolve_descending_nonpos",
    "Verif.Expt.convolve_reverse_odd_partial"
   ],
   "note": "False as stated: on descending grids the result has the wrong sign and, for an even number of channels, is shifted by one channel. The theorems give the result for all descending grids."
  },
  {
   "property": "C55",
   "status": "partial",
   "theorems": [
    "Verif.Resp.imagRPARewrite_real",
    "Verif.Resp.s0eeRPA_default_zero",
    "Verif.Resp.s0eeRPA_default_ne",
    "Verif.Resp.realRPA_real",
    "Verif.Resp.epsRPA_real",
    "Verif.Resp.s0eeRPA_schoerner_partial",
    "Verif.Resp.epsDamped_tendsto",
    "Verif.Resp.realRPA_continuous"
   ],
   "note": "False for the default rpa_rewrite=True, which gives zero at every real energy; proved for rpa_rewrite=False. For vanishing damping both implementations tend to the undamped dielectric function (epsDamped_tendsto), so the zero at real energies is an isolated value."
  },
  {
   "property": "C56",
   "status": "partial",
   "theorems": [
    "Verif.Resp.bornNu_hermitian",
    "Verif.Resp.chapmanNu_hermitian",
    "Verif.Resp.epsBMAInterp_hermitian",
    "Verif.Resp.epsBMAFit_hermitian",
    "Verif.Resp.xiBMAFortmann_hermitian",
    "Verif.Resp.s0eeBMAInterp_balance_partial",
    "Verif.Resp.s0eeBMAFit_balance",
    "Verif.Resp.s0eeBMAFortmann_balance",
    "Verif.Resp.s0eeBMA_balance_symmetric"
   ],
   "note": "Proved for the three variants that interpolate on a symmetric grid; for S0_ee_BMA, which takes its grid from the energies of the call (see C58), proved if these extend equally far to both sides of zero (s0eeBMA_balance_symmetric)."
  },
  {
   "property": "C57",
   "status": "proved",
   "theorems": [
    "Verif.Resp.bornNu_re_nonneg",
    "Verif.Resp.bornNu_rpa_re_nonneg",
    "Verif.Resp.bornNu_dandrea_re_nonneg",
    "Verif.Resp.chapmanNu_re_nonneg",
    "Verif.Resp.bornNu_rpa_re_pos",
    "Verif.Resp.chapmanNu_re_ge",
    "Verif.Resp.chapmanNu_re_pos",
    "Verif.Resp.bornNu_charge"
   ],
   "note": "Integrals are exact."
  },
  {
   "property": "C58",
   "status": "partial",
   "theorems": [
    "Verif.Resp.fullNu_clipped",
    "Verif.Resp.fullNu_not_pointwise",
    "Verif.Resp.fullNu_node_partial"
   ],
   "note": "False: the collision frequency is tabulated between the extreme energies of the call; fullNu_node_partial shows agreement at the nodes."
  },
  {
   "property": "C59",
   "status": "partial",
   "theorems": [
    "Verif.Resp.mermin_pos",
    "Verif.Resp.mermin_dissipative",
    "Verif.Resp.s0eeBMAInterp_pos",
    "Verif.Resp.s0eeBMA_pos",
    "Verif.Resp.s0eeBMAFit_pos_partial",
    "Verif.Resp.mermin_neg",
    "Verif.Resp.chapmanNu_centre",
    "Verif.Resp.s0eeBMAFit_negative"
   ],
   "note": "Proved for S0_ee_BMA and S0_ee_BMA_chapman_interp. False for the variant with the Dandrea fit: near a quarter of the Fermi temperature the fitted static value is close to zero, and for every density, wave number, grid, charge and local field correction there are a temperature, a non-negative structure factor and an energy with positive collision frequency and negative S0_ee (s0eeBMAFit_negative). It holds where the fitted static value is not below the RPA value (s0eeBMAFit_pos_partial). With rpa_rewrite the energies with vanishing real part of E + i hbar nu (division by zero in the code) are excluded."
  },
  {
   "property": "C60",
   "status": "proved",
   "theorems": [
    "Verif.Resp.epsRPARewrite_eq",
    "Verif.Resp.epsRPA_eq",
    "Verif.Resp.epsRPA_eq_rewrite",
    "Verif.Resp.epsRPANoDamping_unsave",
    "Verif.Resp.epsRPANoDamping_static"
   ],
   "note": "Integrals are exact; both implementations are proved equal to one spectral representation by exchanging the order of integration."
  },
  {
   "property": "C61",
   "status": "proved",
   "theorems": [
    "Verif.Resp.lfcUtsumi_compressibility",
    "Verif.Resp.lfcUtsumi_large",
    "Verif.Resp.lfcFarid_compressibility",
    "Verif.Resp.lfcFarid_large",
    "Verif.Resp.lfcGeldartVosko_limits"
   ],
   "note": "Fitted coefficients are arbitrary parameters. At k = 2 k_F the code evaluates 0 times infinity, outside the model."
  },
  {
   "property": "C62",
   "status": "proved",
   "theorems": [
    "Verif.Ipd.pauli_weight_integral",
    "Verif.Ipd.pauliBlocking_mem",
    "Verif.Ipd.pauliBlocking_anti",
    "Verif.Ipd.ipdSum_eq"
   ],
   "note": "The chemical potential is a parameter; quadrature is the exact integral."
  },
  {
   "property": "C63",
   "status": "partial",
   "theorems": [
    "Verif.Saha.equilibrium_unique",
    "Verif.Saha.equilibrium_exists",
    "Verif.Saha.equilibrium_mono",
    "Verif.Saha.equilibrium_dilute",
    "Verif.Saha.saha_weights",
    "Verif.Saha.equilibrium_of_root",
    "Verif.Saha.solve_accuracy",
    "Verif.Saha.solve_equilibrium_partial",
    "Verif.Saha.residual_lo",
    "Verif.Saha.masked_weight",
    "Verif.Saha.bound_balance",
    "Verif.Saha.saha_clip_wrong",
    "Verif.Saha.sahaEquation_textbook",
    "Verif.Saha.sahaEquation_mono",
    "Verif.Saha.saha_hotter",
    "Verif.Saha.genSaha_eq_iff",
    "Verif.Saha.genSaha_hot",
    "Verif.Saha.saha_excluded",
    "Verif.Saha.solve_mono",
    "Verif.Saha.saha_solver_mono",
    "Verif.Saha.equilibrium_lipschitz",
    "Verif.Saha.solve_charge",
    "Verif.Saha.equilibrium_charges_lipschitz",
    "Verif.Saha.solve_charges"
   ],
   "note": "True when all states are bound and no logarithm of a relative population exceeds 500; false otherwise: saha_clip_wrong shows that hot dilute plasmas of heavy elements get too low a charge. With pressure-ionized states the balance of the others and the bound exp(-500) on the missing ones are proved. The order of the results of the solver is for bound states and where no logarithm is cut in the interval of the search."
  },
  {
   "property": "C64",
   "status": "partial",
   "theorems": [
    "Verif.Saha.planckLarkin_nonneg_partial",
    "Verif.Saha.planckLarkin_lt",
    "Verif.Saha.planckLarkin_cold",
    "Verif.Saha.bu_overionizes"
   ],
   "note": "False: the sign of the energy is wrong, so that the sum is strictly too small (planckLarkin_lt), by an unbounded factor (planckLarkin_cold), and hydrogen is overionized (bu_overionizes). Proved: sign and cut at the threshold."
  },
  {
   "property": "C65",
   "status": "proved",
   "theorems": [
    "Verif.Saha.moreZ_mem",
    "Verif.Saha.moreZ_dense",
    "Verif.Saha.moreZ_hot",
    "Verif.Saha.moreZ_scale",
    "Verif.Saha.more_returns",
    "Verif.Saha.more_single"
   ],
   "note": ""
  },
  {
   "property": "C66",
   "status": "partial",
   "theorems": [
    "Verif.Ssf.dhScreening_spec",
    "Verif.Ssf.finiteWl_classical",
    "Verif.Ssf.gericke2010_eq",
    "Verif.Ssf.gericke2010_ne_dh",
    "Verif.Ssf.qGregori2004_eq",
    "Verif.Ssf.gregori2004_spec_partial",
    "Verif.Ssf.glenzer2009_small",
    "Verif.Ssf.gregori2004_overscreens",
    "Verif.Ssf.neutral_unscreened"
   ],
   "note": "False: Gericke's screening has the opposite sign (gericke2010_ne_dh), and Gregori2004Screening exceeds the ion charge in cold plasmas (gregori2004_overscreens)."
  },
  {
   "property": "C67",
   "status": "partial",
   "theorems": [
    "Verif.Ssf.diameter_unique",
    "Verif.Ssf.chs_diameter_partial",
    "Verif.Ssf.chs_diameter_weak",
    "Verif.Ssf.chs_arg_nonneg",
    "Verif.Ssf.chsDiameter_exists",
    "Verif.Ssf.chs_det",
    "Verif.Ssf.chs_positive",
    "Verif.Ssf.chs_inverse",
    "Verif.Ssf.chsQ_eq",
    "Verif.Ssf.chsQ_dh",
    "Verif.Ssf.Mix.chsScreening_eq",
    "Verif.Ssf.Mix.chsScreening_deficit",
    "Verif.Ssf.chs_squares",
    "Verif.Ssf.chs_direct_lt_one",
    "Verif.Ssf.chs_ion_positive",
    "Verif.Ssf.chs_posDef",
    "Verif.Ssf.chs_closure",
    "Verif.Ssf.chs_perfect_screening",
    "Verif.Ssf.chs_negative_of_lfc",
    "Verif.Ssf.chs_hotter"
   ],
   "note": "False in two points: below a coupling parameter of about 1e-3 the code returns the lower end of its interval instead of the root (chs_diameter_weak), and the charge of mixtures is not screened completely (chsScreening_deficit).  S_ii > 0 is proved when the squared electron screening wavenumber times the local field correction is at most k^2 (for all k without local field correction); false otherwise: a constant local field correction between 0 and 1 makes S_ii negative for small k (chs_negative_of_lfc)."
  },
  {
   "property": "C68",
   "status": "proved",
   "theorems": [
    "Verif.Ssf.debyeWaller_spec",
    "Verif.Ssf.debyeWaller_mem",
    "Verif.Ssf.debyeWaller_anti",
    "Verif.Ssf.meanSquare_eq",
    "Verif.Ssf.meanSquare_bounds",
    "Verif.Ssf.meanSquare_hot",
    "Verif.Ssf.meanSquare_cold",
    "Verif.Ssf.debyeWallerSolid_spec",
    "Verif.Ssf.debyeWaller_small"
   ],
   "note": "The documentation calls the mass the ion's mass; the formula needs the molar mass."
  },
  {
   "property": "C69",
   "status": "partial",
   "theorems": [
    "Verif.Hnc.fourierSine_midpoint_partial",
    "Verif.Hnc.kGrid_shift",
    "Verif.Hnc.fourierSine_relabelled"
   ],
   "note": "True on the grids of half-integers (fourierSine_midpoint_partial). False for the wavenumbers of the code, which are shifted by almost half a step: the value is that of a smaller wavenumber times the ratio of the two, about one half at the first point (kGrid_shift, fourierSine_relabelled)."
  },
  {
   "property": "C70",
   "status": "partial",
   "theorems": [
    "Verif.Hnc.Input.While.residual_partial",
    "Verif.Hnc.Input.mixing_stops"
   ],
   "note": "False: the test is on the mixed change, so the residual is only bounded by the tolerance over (1 - mix)^2; for every problem a mixing below one exists with which the loop stops after one cycle and returns about the initial guess (mixing_stops)."
  },
  {
   "property": "C71",
   "status": "partial",
   "theorems": [
    "Verif.Hnc.Input.returns_ideal",
    "Verif.Hnc.Input.dilute",
    "Verif.Hnc.Input.returns_scaled",
    "Verif.Hnc.Input.returns_relabel",
    "Verif.Hnc.ozr_split",
    "Verif.Hnc.Input.step_split",
    "Verif.Hnc.Input.structureFactor",
    "Verif.Hnc.sIiHNC_spec_partial",
    "Verif.Hnc.sIiHNC_first",
    "Verif.Hnc.Input.returns_boltzmann",
    "Verif.Hnc.Input.svtReturns_boltzmann",
    "Verif.Hnc.Input.returns_independent"
   ],
   "note": "The first value of the structure factor is replaced by the second one (sIiHNC_first), so the formula holds from the second wavenumber on. The limits of low density and high temperature are for calculations without mixing."
  },
  {
   "property": "C72",
   "status": "partial",
   "theorems": [
    "Verif.Hnc.Input.svt_solves",
    "Verif.Hnc.Input.svt_equal",
    "Verif.Hnc.Input.svt_symm",
    "Verif.Hnc.Input.svt_scale",
    "Verif.Hnc.Input.svtReturns_spec_partial",
    "Verif.Hnc.Input.svtReturns_ideal",
    "Verif.Hnc.geometricMeanT_spec",
    "Verif.Hnc.massWeightedT_spec",
    "Verif.Hnc.Input.svtReturns_symm"
   ],
   "note": "The number of cycles is false: only the cycles of the last temperature are returned (svtReturns_ideal: zero although 1 + 5 n cycles were made)."
  },
  {
   "property": "C73",
   "status": "partial",
   "theorems": [
    "Verif.Itcf.secant_returns",
    "Verif.Itcf.secant_range",
    "Verif.Itcf.secant_denominator",
    "Verif.Itcf.secant_accurate_partial",
    "Verif.Itcf.secant_parabola",
    "Verif.Itcf.secant_stops_at_once",
    "Verif.Itcf.flat_parabola",
    "Verif.Itcf.secant_small_scale",
    "Verif.Itcf.get_T_of_weak_spectrum",
    "Verif.Itcf.secant_convex_partial",
    "Verif.Itcf.secant_cosh",
    "Verif.Itcf.F_cosh",
    "Verif.Itcf.getT_accurate_partial"
   ],
   "note": "The accuracy holds for gradients with rates of growth between m and L (bound tol (L/m^2 + 2/m)). False in general: the test is on the absolute difference of gradients, so every function scaled with a small number makes the search return the upper bound at once, and the temperature of a weak spectrum is that of tau_max (get_T_of_weak_spectrum). That the loop stops before the maximal number of iterations is proved for gradients which are convex above an extremum in the lower half of the interval, with linear convergence, and thereby for the correlation functions of spectra in detailed balance (getT_accurate_partial); not for other gradients."
  },
  {
   "property": "C74",
   "status": "partial",
   "theorems": [
    "Verif.Pot.pair_symm",
    "Verif.Pot.charge_signs",
    "Verif.Pot.pair_temperature",
    "Verif.Pot.electron_pair",
    "Verif.Pot.core_radius",
    "Verif.Pot.alpha_diag",
    "Verif.Pot.kelbg_factor",
    "Verif.Pot.kelbg_bounds",
    "Verif.Pot.kelbg_origin",
    "Verif.Pot.deutsch_origin",
    "Verif.Pot.deutsch_bounds",
    "Verif.Pot.klimontovichKraeft_shape",
    "Verif.Pot.exchange_boltzmann",
    "Verif.Pot.exchange_averaged_origin",
    "Verif.Pot.exchange_order",
    "Verif.Pot.exchange_without_electrons",
    "Verif.Pot.exchange_with_electrons",
    "Verif.Pot.exchange_depends_on_mode",
    "Verif.Pauli.fullK_ions"
   ],
   "note": "False: the spin averaged exchange potential of a plasma whose electrons are not listed takes mass and temperature of an ion (exchange_depends_on_mode). Of PauliClassicalMap, the shape and the entries of the ions (fullK_ions)."
  },
  {
   "property": "C75",
   "status": "partial",
   "theorems": [
    "Verif.HncFeat.assemble_ions",
    "Verif.HncFeat.assemble_electron_ion",
    "Verif.HncFeat.assemble_electrons",
    "Verif.HncFeat.assemble_symm",
    "Verif.HncFeat.potMatrix_symm",
    "Verif.HncFeat.one_symm",
    "Verif.HncFeat.three_symm",
    "Verif.HncFeat.three_screening",
    "Verif.HncFeat.three_rayleigh_single",
    "Verif.HncFeat.three_screening_uncorrelated",
    "Verif.HncFeat.three_screening_fails",
    "Verif.HncFeat.three_rayleigh_nonneg",
    "Verif.HncFeat.settings_conjugate",
    "Verif.HncFeat.three_structure",
    "Verif.HncFeat.one_svt_symm",
    "Verif.HncFeat.three_svt_symm",
    "Verif.HncFeat.one_structure"
   ],
   "note": "False for mixtures: the screening charges are taken from the diagonal structure factors, and are wrong for every uncorrelated mixture of two or more ionized species (three_screening_fails)."
  },
  {
   "property": "C76",
   "status": "partial",
   "theorems": [
    "Verif.Splitting.Plasma.densities",
    "Verif.Splitting.Lowering.same",
    "Verif.Splitting.Lowering.preston_same",
    "Verif.Splitting.Lowering.preston_differs",
    "Verif.Splitting.Lowering.eckerKroell_same",
    "Verif.Splitting.Lowering.eckerKroell_differs",
    "Verif.Splitting.Ionization.saha",
    "Verif.Splitting.Ionization.saha_densities",
    "Verif.Splitting.Ionization.more",
    "Verif.Splitting.bound",
    "Verif.Splitting.one_rayleigh",
    "Verif.Splitting.three_differs",
    "Verif.Ssf.Mix.Refines.rayleigh_partial",
    "Verif.Ssf.Mix.nChs_split",
    "Verif.Hnc.Input.step_split",
    "Verif.Hnc.Input.cycles_split_partial",
    "Verif.Hnc.Input.cycles_differ",
    "Verif.Hnc.Input.equations_split",
    "Verif.Hnc.Input.returns_split_near",
    "Verif.Hnc.Input.returns_split_dilute"
   ],
   "note": "False for the model of Preston without a population, for Ecker-Kroell above the critical density, for the charged hard spheres and for the Rayleigh weight with three potentials. For the hypernetted chain scheme one cycle is independent of the list (step_split); the number of cycles is not smaller with groups (cycles_split_partial, one temperature) and can be larger (cycles_differ); the results are those of the same iteration after these numbers of cycles. Where the scheme converges (C111), the results with and without groups agree up to the accuracy of the iteration, for all intermediate temperatures (returns_split_near), and as closely as desired at low densities."
  },
  {
   "property": "C77",
   "status": "partial",
   "theorems": [
    "Verif.Citation.citation_without",
    "Verif.Citation.composites_not_cited",
    "Verif.Citation.bibtex_repeats",
    "Verif.Citation.bibtex_single_partial"
   ],
   "note": "False: sums and multiples have no references, and those of their members are lost; in bibtex style an entry is printed as often as it is cited, by the Born-Mermin models even twice on their own."
  },
  {
   "property": "C78",
   "status": "partial",
   "theorems": [
    "Verif.FermiInt.fermi_accurate",
    "Verif.FermiInt.fermi_accurate_above",
    "Verif.FermiInt.fermi_accurate_below",
    "Verif.FermiInt.fermi_accurate_at_two",
    "Verif.FermiInt.fermi32_repaired",
    "Verif.FermiInt.fermi32_too_small",
    "Verif.FermiInt.fermi_pos",
    "Verif.FermiInt.fermi12_derivative",
    "Verif.FermiInt.fermi52_derivative",
    "Verif.FermiInt.fermi_increasing_partial",
    "Verif.FermiInt.fermi_strictMono",
    "Verif.FermiInt.fermi_step",
    "Verif.FermiInt.fermi32_decreases",
    "Verif.FermiInt.fermi_degenerate"
   ],
   "note": "Relative error below 1.2e-6 for all arguments (orders -1/2, 1/2, 5/2; order 3/2 above 2), positivity, derivative relation to 1e-8, monotonicity, steps below 1e-12 and the degenerate limits are proved. False for the order 3/2 below 2: a coefficient has the exponent 02 instead of -2, the result is less than a seventh of the integral close to 2 and decreases from 5/4 to 2 (with the exponent -2 it is accurate for all arguments)."
  },
  {
   "property": "C79",
   "status": "proved",
   "theorems": [
    "Verif.FermiInt.inverse_strictMonoOn",
    "Verif.FermiInt.inverse_accurate",
    "Verif.FermiInt.inverse_degenerate",
    "Verif.FermiInt.dandrea_density",
    "Verif.Resp.gasDensity_danEta"
   ],
   "note": "The bound of five parts in a million is what the certified grid gives; the published accuracy is higher and not claimed. The inverse which is not in use is C107."
  },
  {
   "property": "C80",
   "status": "partial",
   "theorems": [
    "Verif.Resp.epsDandrea_high",
    "Verif.Resp.epsDandrea_fsum",
    "Verif.Resp.epsDandrea_third",
    "Verif.Resp.epsDandrea_third_wrong",
    "Verif.Resp.epsDandrea_third_partial",
    "Verif.Resp.gasKinetic_eq",
    "Verif.Resp.epsDandrea_static",
    "Verif.Resp.pole_exists",
    "Verif.Resp.phi_pole",
    "Verif.Resp.epsDandrea_pole",
    "Verif.Resp.dan_classical",
    "Verif.Resp.epsDandrea_third_right_partial"
   ],
   "note": "The f-sum rule and the static limit are proved for all temperatures. The third moment is false around half of the Fermi temperature (epsDandrea_third_wrong, because of the wrong coefficient in the Fermi integral of order 3/2) and proved to five digits above three Fermi temperatures. False as to continuity: one of the fits has a pole close to a quarter of the Fermi temperature, where the response vanishes (epsDandrea_pole). Also right below 0.41 Fermi temperatures (epsDandrea_third_right_partial)."
  },
  {
   "property": "C81",
   "status": "proved",
   "theorems": [
    "Verif.Resp.screening_compressibility",
    "Verif.Resp.screening_lt_debye",
    "Verif.Resp.screening_accurate",
    "Verif.Resp.screening_le_debye_code",
    "Verif.Resp.screening_classical",
    "Verif.Resp.screening_classical_code",
    "Verif.Resp.screening_degenerate",
    "Verif.Resp.screening_degenerate_code",
    "Verif.FermiInt.fermiIntegral_deriv",
    "Verif.FermiInt.fermiIntegral_lt"
   ],
   "note": "With the exact Fermi integral and, to six digits, with its approximation in the code, for all chemical potentials. The limits are those of the code with the chemical potential of Ichimaru."
  },
  {
   "property": "C82",
   "status": "proved",
   "theorems": [
    "Verif.Resp.interparticleSpacing_sphere",
    "Verif.Resp.interparticleSpacing_ion",
    "Verif.Resp.couplingParam_energy",
    "Verif.Resp.debyeLength_append",
    "Verif.Resp.debyeLength_thermal"
   ],
   "note": "Lengths and energies are characterised by what they measure, not by their formula."
  },
  {
   "property": "C83",
   "status": "partial",
   "theorems": [
    "Verif.Resp.nonDegenerate_inverse",
    "Verif.Resp.exact_compressibility",
    "Verif.Resp.exact_lt_nonDegenerate",
    "Verif.Resp.arbitrary_exact",
    "Verif.Resp.debyePotentialIE_screened",
    "Verif.Resp.slDebye_le_gericke",
    "Verif.Resp.slGericke_classical",
    "Verif.Resp.slGericke_degenerate",
    "Verif.Resp.slGericke_not_degenerate",
    "Verif.Resp.slArbitrary_classical_partial",
    "Verif.Resp.slArbitrary_degenerate_partial",
    "Verif.Resp.epsRPA_longWave"
   ],
   "note": "Fails for the length of Gericke, whose square is one and a half that of Thomas and Fermi at zero temperature (slGericke_degenerate). For arbitrary degeneracy the limits hold up to the error of the fit of the Fermi integral."
  },
  {
   "property": "C84",
   "status": "proved",
   "theorems": [
    "Verif.Fft.four1_dft",
    "Verif.Fft.dft_inverse",
    "Verif.Fft.four1_roundtrip"
   ],
   "note": "The loops (bit reversal, Danielson-Lanczos passes, recurrence of the twiddle factors) are modelled in place and shown to give the sum over roots of unity by induction over the passes."
  },
  {
   "property": "C85",
   "status": "proved",
   "theorems": [
    "Verif.Fft.realfft_dft",
    "Verif.Fft.realfft_roundtrip",
    "Verif.Fft.realfftnp_dft",
    "Verif.Fft.realfft_agree",
    "Verif.Fft.realfftnp_one"
   ],
   "note": "realfftnp drops the term of the highest frequency (DESIGN, discrepancies)."
  },
  {
   "property": "C86",
   "status": "proved",
   "theorems": [
    "Verif.Fft.sinft_sine",
    "Verif.Fft.sine_orthogonal",
    "Verif.Fft.sinft_twice"
   ],
   "note": ""
  },
  {
   "property": "C87",
   "status": "proved",
   "theorems": [
    "Verif.Ogata.psi_deriv",
    "Verif.Ogata.dpsi_limit",
    "Verif.Ogata.w_one",
    "Verif.Ogata.table_node",
    "Verif.Ogata.table_outside",
    "Verif.Ogata.fourierOgata_sum",
    "Verif.Ogata.integral_radius",
    "Verif.Ogata.fourierOgata_converges"
   ],
   "note": "Beyond the last node the function continues with the power -3/2 of the radius (table_outside)."
  },
  {
   "property": "C88",
   "status": "proved",
   "theorems": [
    "Verif.Saha.sahaReturns_unique",
    "Verif.Saha.sahaReturns_initial",
    "Verif.Saha.buReturns_unique",
    "Verif.Saha.sahaReturns_sound",
    "Verif.Saha.buReturns_sound",
    "Verif.Saha.sahaReturns_plain",
    "Verif.Saha.saha_stationary",
    "Verif.Saha.sahaReturns_constant",
    "Verif.Saha.gen_selfconsistent",
    "Verif.Saha.reset_density",
    "Verif.Saha.gen_selfconsistent_near",
    "Verif.Saha.sahaReturns_converge",
    "Verif.Saha.exact_unique",
    "Verif.Saha.debyeHueckel_weak",
    "Verif.Saha.dhLowering_all",
    "Verif.Saha.sahaReturns_mixture",
    "Verif.Saha.exact_unique_mixture",
    "Verif.Saha.debyeHueckel_mixture",
    "Verif.Saha.mixLowering_all",
    "Verif.Saha.ionSphere_one",
    "Verif.Saha.ionSphere_all",
    "Verif.Saha.sahaReturns_ionSphere",
    "Verif.Saha.weak_of_graded",
    "Verif.Saha.mixture_of_graded",
    "Verif.Saha.stewartPyatt_weak",
    "Verif.Saha.stewartPyatt_mixture",
    "Verif.Saha.spLowering_all",
    "Verif.Saha.WeakFamily.converge",
    "Verif.Saha.WeakFamily.exact_unique",
    "Verif.Saha.sahaReturns_gen",
    "Verif.Saha.buReturns_converge",
    "Verif.Saha.gen_family",
    "Verif.Saha.classical_family",
    "Verif.Saha.genMix_classical",
    "Verif.Saha.ichimaru_family",
    "Verif.Saha.ichimaru_lip",
    "Verif.Saha.chemPotIchimaru_split",
    "Verif.Saha.ichiH_factor",
    "Verif.Saha.hydrogen_ichimaru"
   ],
   "note": "The code stops after six steps without a test; how close the result is to self-consistency is proved for all states bound and no logarithm cut (sahaReturns_converge for one element, sahaReturns_mixture, sahaReturns_gen with the chemical potential, buReturns_converge).  The iteration starts with at least all electrons free; in mixtures with more than there are, since all charges are set to the largest atomic number (reset_density)."
  },
  {
   "property": "C89",
   "status": "proved",
   "theorems": [
    "Verif.Resp.epsRPANoDamping_cold",
    "Verif.Resp.eps0K_sign",
    "Verif.Resp.eps0K_hermitian",
    "Verif.Resp.eps0K_im_pos_iff",
    "Verif.Resp.eps0K_dissipative",
    "Verif.Resp.eps0K_thomasFermi",
    "Verif.Resp.eps0K_plasma",
    "Verif.Resp.bornNu0K_re_nonneg",
    "Verif.Resp.bornNu0K_sign"
   ],
   "note": "The imaginary part is decided by the sign of a floating-point zero, a parameter of the model: with a negative zero it is the limit, with a positive zero the complex conjugate (eps0K_sign)."
  },
  {
   "property": "C90",
   "status": "proved",
   "theorems": [
    "Verif.Kkt.kkt_symmetry",
    "Verif.Kkt.chapmanNuKkt_hermitian",
    "Verif.Kkt.kkt_linear",
    "Verif.Kkt.kktPoint_sum",
    "Verif.Kkt.kktPoint_principal",
    "Verif.Kkt.kkt_sign"
   ],
   "note": "Convergence is stated for samples of the function and an exclusion below the spacing; interpolation of the input and of the result is exact in the symmetry theorems."
  },
  {
   "property": "C91",
   "status": "partial",
   "theorems": [
    "Verif.Cutoff.guessCutoffs_max",
    "Verif.Cutoff.guessMax_finite",
    "Verif.Cutoff.guessCutoffs_ordered",
    "Verif.Cutoff.guessCutoffs_hermitian",
    "Verif.Cutoff.prepareCutoff_pos"
   ],
   "note": "The intended dependence on the structure factor is refuted: guessCutoffs_max and guessMax_finite characterise what the code returns. That the value at zero energy is not a number is read from free_free.py 269-273 (infinity times zero) and is an assumption of the model."
  },
  {
   "property": "C92",
   "status": "proved",
   "theorems": [
    "Verif.Ssf.gIi_structure",
    "Verif.Ssf.gEi_structure",
    "Verif.Ssf.gEe_structure",
    "Verif.Ssf.pair_large",
    "Verif.Ssf.pair_contact"
   ],
   "note": "The quadrature is the exact integral. With different temperatures S_ee_AD contains a term that g_ee_ABD lacks, so the relation is claimed for the electrons in equilibrium only."
  },
  {
   "property": "C93",
   "status": "partial",
   "theorems": [
    "Verif.Dornheim.dornheim_large",
    "Verif.Dornheim.dornheim_units",
    "Verif.Dornheim.onTop_dense",
    "Verif.Dornheim.gFit_small_partial",
    "Verif.Dornheim.dornheim_offset",
    "Verif.Dornheim.dornheim_offset_small",
    "Verif.Dornheim.dornheim_sum_rule_fails",
    "Verif.Dornheim.onTop_negative",
    "Verif.Dornheim.params",
    "Verif.Dornheim.params_regular",
    "Verif.Dornheim.params_pole"
   ],
   "note": "False at small wave numbers: the activation function does not vanish there, so the correction tends to a positive constant (at most 1.4e-7) and its ratio to the square of the wave number is infinite; the sum rule holds for the fit that is multiplied with the activation function. The pair distribution is negative at r_s = 20 and the Fermi temperature. The generated expression for the second derivative of the free energy is a parameter of the model.  The parameters of the fit have no pole up to four Fermi temperatures, but at every temperature above six there is a density with a pole (params_pole)."
  },
  {
   "property": "C94",
   "status": "partial",
   "theorems": [
    "Verif.Pauli.g_range",
    "Verif.Pauli.splitting_irrelevant",
    "Verif.Pauli.inversion",
    "Verif.Pauli.averaged_inverts",
    "Verif.Pauli.separated_eq",
    "Verif.Pauli.separated_inverts",
    "Verif.Pauli.separated_patched",
    "Verif.Pauli.separated_patch_fails",
    "Verif.Pauli.separated_potential_fails",
    "Verif.Pauli.averaged_hole",
    "Verif.Pauli.separated_hole",
    "Verif.Pauli.separated_hole_too_large",
    "Verif.Pauli.class_hole_too_large",
    "Verif.Pauli.grid_consistent",
    "Verif.Pauli.fullK_ions",
    "Verif.Pauli.fullR_pair",
    "Verif.Pauli.fullR_parts",
    "Verif.Pauli.fullKAveraged_symm",
    "Verif.Pauli.patch_parabola",
    "Verif.Pauli.patch_keeps",
    "Verif.Pauli.spins_density"
   ],
   "note": "The inversion is exact, but the values at small wave numbers are replaced by a parabola: then the pair distribution function does not solve the equations any more, and with separated spins the entries for opposite spins, which should be zero, get the value for equal spins. With separated spins the Fermi wave number and the chemical potential are those of half the density with both spins, so the hole is twice as large as it should be and exceeds one electron at low temperature. The wave numbers are the ones asked for only if the first equals the spacing.  The function for separate spins uses the pair distribution of a gas with half the density (spins_density)."
  },
  {
   "property": "C95",
   "status": "partial",
   "theorems": [
    "Verif.SiiNN.shape_init",
    "Verif.SiiNN.expandZ_spec",
    "Verif.SiiNN.call_length",
    "Verif.SiiNN.triu_length",
    "Verif.SiiNN.sBase_entry",
    "Verif.SiiNN.entry_symm",
    "Verif.SiiNN.sII_right_iff",
    "Verif.SiiNN.sII_right_partial",
    "Verif.SiiNN.sII_rotated_wrong",
    "Verif.SiiNN.input_perm",
    "Verif.SiiNN.input_expand",
    "Verif.SiiNN.sII_works",
    "Verif.SiiNN.silu_spec"
   ],
   "note": "False for three or more elements: the permutation is applied instead of its inverse, so the entries are right exactly if it is its own inverse (sII_right_iff); every rotation of three or more elements gives wrong entries (sII_rotated_wrong). Proved for one and two elements and for the order of the network; the clauses on inputs and shape are proved."
  },
  {
   "property": "C96",
   "status": "partial",
   "theorems": [
    "Verif.Collections.getAllModels_spec",
    "Verif.Collections.getAllModels_keys",
    "Verif.Collections.getAllModelsList_spec",
    "Verif.Collections.getAllModelsList_ignores",
    "Verif.Collections.getAllInstrumentFunctions_spec",
    "Verif.Collections.repo_listed",
    "Verif.Collections.listed_assignable",
    "Verif.Collections.repo_keys",
    "Verif.Collections.repo_list",
    "Verif.Collections.list_wrong",
    "Verif.Collections.decoder_finds",
    "Verif.Collections.decoder_unknown",
    "Verif.Collections.isPrivate_iff",
    "Verif.Collections.decoder_additional"
   ],
   "note": "False for get_all_models_list: it ignores both arguments, so that the list of the potentials contains all models and the list of the names contains classes (list_wrong; getAllModelsList_spec and repo_list say what is returned). All other clauses are proved."
  },
  {
   "property": "C97",
   "status": "partial",
   "theorems": [
    "Verif.FitRk.inelastic_fsum_partial",
    "Verif.FitRk.inelastic_exists",
    "Verif.FitRk.inelastic_moment",
    "Verif.FitRk.no_energy_gain",
    "Verif.FitRk.default_exceeds",
    "Verif.FitRk.rk_flip",
    "Verif.FitRk.denominator_neg",
    "Verif.FitRk.firstMoment_linear",
    "Verif.FitRk.firstMoment_pos",
    "Verif.FitRk.example_rk"
   ],
   "note": "Proved without the correction of the wave number and for symmetric energy axes, where the factor exists as soon as some bound-free scattering is seen. The property is false for axes with energy loss only (no_energy_gain: division by zero), with the default of neglected free-bound scattering (default_exceeds), and is missed on asymmetric axes by the amount of inelastic_moment. The case with correction of the wave number is not treated; the code computes r_k without it."
  },
  {
   "property": "C98",
   "status": "proved",
   "theorems": [
    "Verif.BmSii.cached_eq_evaluate",
    "Verif.BmSii.cached_setup",
    "Verif.BmSii.interp_combine",
    "Verif.BmSii.combine_ideal",
    "Verif.BmSii.combine_one",
    "Verif.BmSii.combine_sAb",
    "Verif.BmSii.combine_config",
    "Verif.BmSii.combine_perm",
    "Verif.BmSii.combine_nonneg",
    "Verif.BmSii.cached_nonneg",
    "Verif.BmSii.k_increasing"
   ],
   "note": "The structure factors of the ion feature and of the average atom are arbitrary functions on the grid here; how they come about is the subject of C37, C70 and C75."
  },
  {
   "property": "C99",
   "status": "partial",
   "theorems": [
    "Verif.Ipd.all_length",
    "Verif.Ipd.sum_all",
    "Verif.Ipd.sum_evaluate",
    "Verif.Ipd.all_agrees",
    "Verif.Ipd.allList_agrees",
    "Verif.Ipd.debyeHueckel_grows",
    "Verif.Ipd.ionSphere_grows",
    "Verif.Ipd.stewartPyatt_grows",
    "Verif.Ipd.preston_grows",
    "Verif.Ipd.pauli_flat",
    "Verif.Ipd.eckerKroell_raises",
    "Verif.Ipd.constant_raises",
    "Verif.Ipd.neglect_in_sum"
   ],
   "note": "Lengths, sums and the agreement with evaluate are proved for every model and sum for which both results exist; the growth for Debye-Hueckel, ion sphere, Stewart-Pyatt and Preston. False: Ecker-Kroell raises for every plasma (eckerKroell_raises), a constant without a shape raises (constant_raises), Pauli blocking has the same value for all charge states (pauli_flat), and evaluate of a sum raises if one member is Neglect (neglect_in_sum)."
  }
 ]
}