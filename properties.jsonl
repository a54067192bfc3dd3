{"id": "C01", "title": "Only admissible models are ever stored in a PlasmaState", "statement": "After any sequence of `state[key] = model` assignments (successful or rejected), every model found under a key of the state lists that key in its allowed_keys; a rejected assignment raises KeyError and leaves the set of stored models exactly as it was.", "quantifier": "every initial state, every finite history of assignments of the shipped model classes, including the assignments the models make themselves", "why_tests_cant": "the number of assignment histories is infinite and each assignment triggers further nested assignments", "anchors": ["src/jaxrts/plasmastate.py:PlasmaState.__setitem__", "src/jaxrts/plasmastate.py:PlasmaState.update_default_model", "src/jaxrts/models.py:Model.prepare", "src/jaxrts/models.py:*.allowed_keys"]}
{"id": "C02", "title": "A model slot, once filled, stays filled", "statement": "No sequence of assignments ever removes a key from a PlasmaState; in particular a state always answers for 'screening length', 'ee-lfc' and 'free-bound scattering' after construction.", "quantifier": "every finite history of assignments starting from construction", "why_tests_cant": "requires induction over unbounded histories", "anchors": ["src/jaxrts/plasmastate.py:PlasmaState.__init__", "src/jaxrts/plasmastate.py:PlasmaState.__setitem__"]}
{"id": "C03", "title": "Everything a model reads at evaluation time is present", "statement": "After `state[key] = model` succeeded, and after any further assignments, every model slot that evaluating a stored model looks up (directly or through the models it looks up) is filled, so evaluate never fails with a missing-model KeyError.", "quantifier": "every shipped model class under every admissible key, every history", "why_tests_cant": "histories times classes are unbounded; a missing default only shows up for one particular combination and order", "anchors": ["src/jaxrts/models.py:*.prepare", "src/jaxrts/models.py:*.evaluate", "src/jaxrts/plasmastate.py:PlasmaState.update_default_model"]}
{"id": "C04", "title": "Setting a model never replaces another choice of the user", "statement": "`state[key] = model` changes the model stored under `key` only; slots the user filled before keep the user's model (update_default_model is documented to be non-destructive).", "quantifier": "every state and every shipped model class", "why_tests_cant": "a destructive side effect only shows for one pair (model, previously filled slot)", "anchors": ["src/jaxrts/plasmastate.py:PlasmaState.update_default_model", "src/jaxrts/models.py:LinearResponseScreening.prepare", "src/jaxrts/models.py:*.prepare"]}
{"id": "C05", "title": "Equal states evaluate equally", "statement": "If `state1 == state2` then both states hold, under every key, models of the same class with the same parameters.", "quantifier": "all pairs of plasma states", "why_tests_cant": "a test compares a few pairs; soundness of equality is about all pairs", "anchors": ["src/jaxrts/plasmastate.py:PlasmaState.__eq__", "src/jaxrts/plasmastate.py:PlasmaState._eq_characteristic", "src/jaxrts/models.py:Model.__eq__"]}
{"id": "C06", "title": "A model object used under two keys keeps both roles", "statement": "If the same model instance is assigned under two admissible keys, evaluating it under the first key gives the same result before and after the second assignment.", "quantifier": "every model instance and every pair of its admissible keys", "why_tests_cant": "requires reasoning about aliasing over all assignment orders", "anchors": ["src/jaxrts/plasmastate.py:PlasmaState.__setitem__", "src/jaxrts/models.py:Neglect.evaluate_raw"]}
{"id": "C07", "title": "Adding models leaves the operands unchanged", "statement": "For IPD models and HNC potentials, `a + b` denotes the pointwise sum of what a and b evaluate to, and neither a nor b evaluates differently afterwards, also when a or b is itself a sum or is shared with other expressions.", "quantifier": "every heap of model objects and every sequence of additions", "why_tests_cant": "aliasing bugs appear only for particular sharing patterns", "anchors": ["src/jaxrts/models.py:IPDModel.__add__", "src/jaxrts/models.py:IPDSum", "src/jaxrts/hnc_potentials.py:HNCPotential.__add__", "src/jaxrts/hnc_potentials.py:PotentialSum"]}
{"id": "C08", "title": "A saved model is restored as the same class", "statement": "dump followed by load restores every model, HNC potential and instrument function to an object of the class that was saved.", "quantifier": "every shipped Model, HNCPotential and InstrumentFunction class", "why_tests_cant": "the name used on saving and the name used on loading come from different places; the whole table has to agree", "anchors": ["src/jaxrts/saving.py:JaXRTSEncoder.default", "src/jaxrts/saving.py:JaXRTSDecoder.object_hook", "src/jaxrts/models.py:*.__name__"]}
{"id": "C09", "title": "Flattening and unflattening loses no information", "statement": "For every model parameter set, rebuilding an object from its pytree children and auxiliary data yields an object that evaluates identically.", "quantifier": "every parameter value of the classes with custom flattening", "why_tests_cant": "needs all parameter values", "anchors": ["src/jaxrts/models.py:Model._tree_flatten", "src/jaxrts/models.py:IonSphereIPD._tree_flatten", "src/jaxrts/setup.py:Setup._tree_flatten", "src/jaxrts/plasmastate.py:PlasmaState._tree_flatten"]}
{"id": "C10", "title": "Bisection always encloses a root and converges at a known rate", "statement": "bisection(f,a,b) with a sign change of a continuous f returns after at most max(max_iter, min_iter) iterations a value within (b-a)/2^n of a root, where n is the returned iteration count. Of two functions that are positive at the upper end, the one that is nowhere smaller gets the smaller result, and the sign of the function does not matter.", "quantifier": "all continuous f, all brackets, all tolerances and iteration limits", "why_tests_cant": "quantifies over all functions", "anchors": ["src/jaxrts/helpers.py:bisection"]}
{"id": "C100", "title": "The free-free spectrum and the susceptibility of a model belong together", "statement": "For every free-free model the returned spectrum is that of one free electron times the share of free electrons, which is between zero and one and one exactly for full ionization; it is zero without free electrons. Every channel of the measured axis has a value, also the one at the energy of the probe, and all channels belong to the wave number of the setup. The spectrum obeys detailed balance, is positive for the models without collisions, and follows from the susceptibility of the same model by the fluctuation dissipation theorem. The susceptibility is that of a real system: chi(-E) is the conjugate of chi(E), its static value is real, its dissipation has the sign of a passive medium. The window around zero within which it is interpolated changes none of this and joins without a jump.", "quantifier": "all plasma states, setups, measured axes, models and energies", "why_tests_cant": "A test evaluates one plasma on one axis, which often does not contain the energy of the probe; symmetry, sign and the agreement of the two functions are statements on all energies and all models.", "anchors": ["models.py evaluate_raw and susceptibility of the free-free models", "free_free.py S0_ee functions", "setup.py dispersion_corrected_k", "plasmastate.py mean_Z_A"]}
{"id": "C101", "title": "probe returns the sum of its contributions, and the elastic peak fits to the convolved ones", "statement": "The spectrum returned by probe has one value for every channel and is the sum of the four contributions; Neglect takes away exactly its contribution. It is linear in the instrument function, and the correction of the frequency redistribution is one factor common to all contributions. It is not negative if no contribution and no value of the instrument function is. The elastic peak, which is not convolved, has the shape, height and correction which a scattering model would get that has the Rayleigh weight in the channel at the energy of the probe. The inelastic contributions together obey detailed balance before the convolution.", "quantifier": "all plasma states, models, setups, equidistant axes and instrument functions", "why_tests_cant": "Tests compare single spectra with stored ones; linearity, signs and the relation of the two ways to the instrument function are statements on all instruments and axes.", "anchors": ["plasmastate.py probe", "models.py ScatteringModel.evaluate", "models.py IonFeatModel.evaluate", "models.py Neglect.evaluate", "setup.py convolve_stucture_factor_with_instrument"]}
{"id": "C102", "title": "Bound electrons take energy from the photon, above their threshold, and in proportion to their number", "statement": "For both impulse-approximation models of bound-free scattering, with the edges NonNegative and Heaviside no scattering by bound electrons adds energy to the photon, whatever the depression of the ionization potential; with Heaviside edges there is none at losses below the smallest energy that removes an electron of a charge state present; together with free-bound scattering each channel then holds one process, related by the Boltzmann factor. Bare nuclei do not scatter. The effective charges of occupied orbitals are positive and none is zero. Without edges the integrated intensity is r_k times the bound fraction of the electrons; with the automatic r_k it is the number of bound electrons less the sum of the squares of their form factors. The variant with cold edges agrees with the other one at integer charges with equal energies, and for hydrogen at all charges.", "quantifier": "all lists of ions, charges (also fractional), binding energies, depressions, wave numbers, energy shifts; all elements up to Z = 36 for the effective charges", "why_tests_cant": "statements over continua of charges, depressions and frequencies, and an integral over all frequencies", "anchors": ["src/jaxrts/models.py:SchumacherImpulse.evaluate_raw", "src/jaxrts/models.py:SchumacherImpulseColdEdges.evaluate_raw", "src/jaxrts/form_factors.py:pauling_size_screening_constants"]}
{"id": "C103", "title": "Saved values come back", "statement": "Numbers, strings, elements, arrays, quantities and lists of these are the same after dumps and load, for every number of dimensions and every nesting: values, shape, type and units.", "quantifier": "all values, shapes, entry types and nestings", "why_tests_cant": "shapes and nestings are unbounded; the test files hold vectors and one state only", "anchors": ["src/jaxrts/saving.py:JaXRTSEncoder", "src/jaxrts/saving.py:JaXRTSDecoder", "src/jaxrts/saving.py:dumps", "src/jaxrts/saving.py:load", "src/jaxrts/elements.py:MixElement"]}
{"id": "C104", "title": "The grid of a saved potential comes back", "statement": "A potential which is saved and loaded is defined on the same radial grid as before.", "quantifier": "all grids", "why_tests_cant": "continuum of grids of any length; the tests compare the number of points", "anchors": ["src/jaxrts/saving.py:JaXRTSEncoder", "src/jaxrts/saving.py:JaXRTSDecoder", "src/jaxrts/hnc_potentials.py:HNCPotential"]}
{"id": "C105", "title": "Tables of energy levels are read completely and correctly", "statement": "Reading a table of energy levels downloaded from the NIST database returns one multiplicity and one energy for each row that holds a term-averaged level with a plain decimal energy, with their exact values and in the order of the table, whatever stands in the other columns; header lines and rows whose energy does not begin with a digit (predicted levels in brackets) are skipped. The partition sums of the Bethe-Uhlenbeck model are those of these levels; a charge state without any readable level counts as removed by pressure.", "quantifier": "all files: all lists of lines, all texts of lines, all digits, all energies and depressions", "why_tests_cant": "an unbounded set of texts; leftmost matching of a pattern", "anchors": ["src/jaxrts/helpers.py:read_nist_file", "src/jaxrts/ionization.py:bu_balance_term"]}
{"id": "C106", "title": "A plasma state holds the values which it was given", "statement": "Arrays made from lists of quantities hold the given values in the given order even if the units differ; lists are accepted exactly if they are not empty and measure one thing. A plasma state has one charge, one density and one temperature for each ion, with the given values; if one temperature is given it is that of the electrons and of all ions.", "quantifier": "all lists, units (sizes and dimensions), numbers of ions and ways to give temperatures", "why_tests_cant": "an unbounded set of lists and units", "anchors": ["src/jaxrts/units.py:to_array", "src/jaxrts/plasmastate.py:PlasmaState.__init__"]}
{"id": "C107", "title": "The other inverse of the Fermi integral of order 1/2 inverts it", "statement": "The Fermi integral of order 1/2 of the reduced chemical potential returned by the second, unused inverse is the number the inverse was called with.", "quantifier": "all positive arguments", "why_tests_cant": "The fit itself is accurate; only its norm is applied once too often, and at single points the deviation can be taken for one of the fit.", "anchors": ["src/jaxrts/math.py:61-69", "src/jaxrts/math.py:412-456"]}
{"id": "C108", "title": "A plasma state returns the thermal wavelengths it is asked for", "statement": "For any list of electrons and ions of the state, db_wavelength returns one thermal wavelength h / sqrt(2 pi m k T) for each entry.", "quantifier": "all states with at least one ion, all lists of strings, elements and other objects", "why_tests_cant": "The function is not covered by any test; that it has no answer for any argument whatsoever is a statement about all of them.", "anchors": ["src/jaxrts/plasmastate.py:427-468", "src/jaxrts/elements.py:1690-1697"]}
{"id": "C109", "title": "The dielectric function without damping and the response of interacting electrons obey the sum rules", "statement": "At every momentum transfer the first moment of Im dielectric_function_RPA_no_damping over positive energies is pi/2 times the squared plasma energy of the electron density that belongs to the chemical potential, its inverse moment gives the static value, Re eps tends to one minus the squared ratio of plasma energy and energy for large energies, and real and imaginary part are Kramers-Kronig transforms of each other; the fit of Dandrea et al. obeys the first rule for the density it is called with to five digits. S0_ee_RPA_no_damping has the recoil energy as first moment, for electrons that do not interact and for interacting ones with any local field correction up to one, and the density response of the interacting electrons obeys the relations of Kramers and Kronig at every energy and has the static response as inverse moment.", "quantifier": "all k > 0, T > 0, chemical potentials, densities, local field corrections up to one and both settings of unsave", "why_tests_cant": "integrals over all energies of a function which is itself an integral; a test sees a finite grid", "anchors": ["src/jaxrts/free_free.py:dielectric_function_RPA_no_damping", "src/jaxrts/free_free.py:dielectric_function_RPA_Dandrea1986", "src/jaxrts/free_free.py:S0_ee_RPA_no_damping"]}
{"id": "C11", "title": "Cramer's solver solves the linear system", "statement": "cramer_solve(A, b) returns the unique x with A x = b whenever A is invertible, for each supported size, and the solution of every system if A and b are batches of systems, as documented.", "quantifier": "all invertible matrices of every size, all right hand sides, all batches of systems with one to four rows", "why_tests_cant": "continuum of matrices; batches of every length", "anchors": ["src/jaxrts/helpers.py:cramer_solve"]}
{"id": "C110", "title": "The structure factor of the electrons integrated over all energies agrees with their static response", "statement": "S0_ee_RPA_no_damping is integrable over all energies. Its integral lies between the classical value that belongs to the static response (thermal energy times the static density response over the density) and this value plus a sixth of the ratio of recoil energy and thermal energy. With interaction it is at most the square of wave number times Debye length over one minus the local field correction, plus the recoil term, and vanishes at long wave lengths. The static dielectric function at long wave lengths screens with inverse_screening_length_exact.", "quantifier": "all k > 0, T > 0, chemical potentials, local field corrections up to one (below one for the screening) and both settings of unsave", "why_tests_cant": "integrals over all energies of a function which is itself an integral, and a limit", "anchors": ["src/jaxrts/free_free.py:S0_ee_RPA_no_damping", "src/jaxrts/free_free.py:dielectric_function_RPA_no_damping", "src/jaxrts/free_free.py:inverse_screening_length_exact"]}
{"id": "C111", "title": "The HNC schemes converge for weak interactions, high temperatures and low densities", "statement": "If a bound on the correlations times the total density is small enough (an explicit condition on potentials, temperatures, densities and grid), then the HNC equations have a solution, only one within the bounds, pair_distribution_function_HNC stops before the maximal number of cycles for every mixing parameter in [0, 1) and every list of intermediate temperatures not below the final one, and the logarithm of the returned pair distribution function differs from that of the solution by no more than a stated amount; for every grid and potential the condition is met below some density, and for every density above some temperature. The same holds for pair_distribution_function_SVT_HNC with its equations for several temperatures.", "quantifier": "all numbers of species, symmetric potentials, grids, mixing parameters, masses, temperatures and intermediate temperatures", "why_tests_cant": "unbounded iterations; existence and uniqueness of the solution of a nonlinear system", "anchors": ["src/jaxrts/hypernetted_chain.py:pair_distribution_function_HNC", "src/jaxrts/hypernetted_chain.py:pair_distribution_function_SVT_HNC"]}
{"id": "C12", "title": "The sine transform is its own inverse", "statement": "Transforming radial data to k space with the three-dimensional sine transform and back returns the data, on matching r and k grids, for every even grid size (the documentation excludes odd ones).", "quantifier": "all even grid sizes, all grids and all data arrays", "why_tests_cant": "sizes and values are unbounded", "anchors": ["src/jaxrts/hypernetted_chain.py:fourier_transform_sine", "src/jaxrts/hypernetted_chain.py:_3Dfour", "src/jaxrts/hypernetted_chain.py:dst4"]}
{"id": "C13", "title": "Convolution with the instrument does not shift the spectrum", "statement": "Convolving a spectrum with the instrument function on the measured-energy grid leaves a spectrum unchanged for a delta-like instrument and is linear; the grid the instrument is evaluated on has its zero exactly where 'same' mode convolution expects it, for even and odd numbers of grid points.", "quantifier": "all grid lengths, all spectra", "why_tests_cant": "off-by-one errors depend on parity of arbitrary sizes", "anchors": ["src/jaxrts/setup.py:convolve_stucture_factor_with_instrument"]}
{"id": "C14", "title": "Number, mass and electron densities are mutually consistent", "statement": "mass_from_number_fraction returns positive fractions that sum to one and reproduces the requested number fractions; the density returned by mass_density_from_electron_density yields exactly the requested free electron density in the state.", "quantifier": "all numbers of species, all positive fractions, masses and charges with at least one positive charge", "why_tests_cant": "arbitrary number of species and real parameters", "anchors": ["src/jaxrts/helpers.py:mass_from_number_fraction", "src/jaxrts/helpers.py:mass_density_from_electron_density", "src/jaxrts/plasmastate.py:PlasmaState.n_e"]}
{"id": "C15", "title": "Expanding into integer charge states conserves matter and charge", "statement": "expand_integer_ionization_states yields only integer charges, and conserves for every original species its mass density and free electron density, hence total mass density and n_e.", "quantifier": "all plasma states with any number of species and any real charges", "why_tests_cant": "arbitrary species lists and real charges", "anchors": ["src/jaxrts/plasmastate.py:PlasmaState.expand_integer_ionization_states"]}
{"id": "C16", "title": "Scattering vector and geometry are consistent", "statement": "With dispersion correction the wavenumber of each channel is the length of the difference of the wave vectors of the two photons, at zero energy loss it reduces to setup.k, and always lies between |k_in-k_out| and k_in+k_out; in a plasma both photons obey the dispersion relation of light; without electrons the plasma has no effect; a setup generated for a requested k has this k, and has it per channel only for the channels at two energies.", "quantifier": "all photon energies, angles, densities and numbers of channels", "why_tests_cant": "continuum of geometries", "anchors": ["src/jaxrts/setup.py:Setup.k", "src/jaxrts/setup.py:Setup.full_k", "src/jaxrts/setup.py:Setup.dispersion_corrected_k", "src/jaxrts/setup.py:get_probe_setup", "src/jaxrts/plasma_physics.py:thomson_momentum_transfer"]}
{"id": "C17", "title": "Instrument functions are normalised", "statement": "Gaussian, Lorentzian and twin Gaussian instrument functions are positive and integrate to one for every positive width; the area of a super-Gaussian does not depend on its width; an instrument from an array integrates to one, for ascending and descending frequencies.", "quantifier": "all widths / all tabulated arrays with non-zero area", "why_tests_cant": "integrals over the real line, all widths", "anchors": ["src/jaxrts/instrument_function.py:Gaussian", "src/jaxrts/instrument_function.py:TwinGaussian", "src/jaxrts/instrument_function.py:SuperGaussian", "src/jaxrts/instrument_function.py:Lorentzian", "src/jaxrts/instrument_function.py:FromArray"]}
{"id": "C18", "title": "The reported FWHM is the width at half maximum", "statement": "For each instrument function the value at +-fwhm/2 is half of the value at the centre.", "quantifier": "all width parameters (and all powers for the super-Gaussian)", "why_tests_cant": "continuum of parameters", "anchors": ["src/jaxrts/instrument_function.py"]}
{"id": "C19", "title": "Saha charge-state distribution is a probability distribution", "statement": "The charge state weights computed for an element are positive, sum to one, and the mean ionization lies strictly between 0 and the atomic number; the number densities sum to the element's ion density; the charge state fractions are not negative, sum to one and there is one for each charge state.", "quantifier": "all numbers of elements and charge states, all temperatures, densities, energies and masks", "why_tests_cant": "arbitrary sizes and reals", "anchors": ["src/jaxrts/ionization.py:solve_ionization", "src/jaxrts/ionization.py:solve_saha", "src/jaxrts/ionization.py:calculate_charge_state_distribution"]}
{"id": "C20", "title": "Stewart-Pyatt lowering interpolates between Debye-Hueckel and ion sphere", "statement": "The magnitude of the Stewart-Pyatt lowering never exceeds that of the Debye-Hueckel nor that of the ion-sphere model for the same plasma conditions, tends to the former at high and to the latter at low temperature, and all of them lower (never raise) the continuum. The lowering of Stewart and Pyatt grows by no larger factor than the charges of the plasma, and never falls when they grow.", "quantifier": "all positive densities, temperatures and charges, any number of species", "why_tests_cant": "a two-sided inequality over a continuum, and limits", "anchors": ["src/jaxrts/ipd.py:ipd_stewart_pyatt", "src/jaxrts/ipd.py:ipd_stewart_pyatt_preston", "src/jaxrts/ipd.py:ipd_debye_hueckel", "src/jaxrts/ipd.py:ipd_ion_sphere"]}
{"id": "C21", "title": "Ecker-Kroell lowering is continuous at the critical density", "statement": "Below the critical density the Ecker-Kroell lowering equals the Debye-Hueckel lowering, and without a user-given factor it is continuous in the density, in particular at the critical density.", "quantifier": "all single-species plasmas, and all multi-species plasmas", "why_tests_cant": "limits over a continuum", "anchors": ["src/jaxrts/ipd.py:ipd_ecker_kroell", "src/jaxrts/ipd.py:ipd_debye_hueckel"]}
{"id": "C22", "title": "Form factors are those of hydrogen-like orbitals", "statement": "Each of the ten form factors is the Fourier transform of the electron density of the hydrogen-like orbital with the same quantum numbers and effective charge; hence it equals one at k=0, stays within [-1,1], is even in k and depends on k only through k/Zeff. No form factor is returned for other quantum numbers.", "quantifier": "all k, all effective charges, all ten orbitals", "why_tests_cant": "integrals over the radial density and polynomial inequalities over a continuum", "anchors": ["src/jaxrts/form_factors.py:pauling_f10", "src/jaxrts/form_factors.py:pauling_f43", "src/jaxrts/form_factors.py:pauling_atomic_ff", "src/jaxrts/form_factors.py:pauling_all_ff"]}
{"id": "C23", "title": "Bound electrons are distributed completely and within capacity", "statement": "The orbital populations returned for Z_core bound electrons sum to Z_core and each stays between zero and the population of the neutral atom.", "quantifier": "all elements and every real Z_core between 0 and the nuclear charge", "why_tests_cant": "continuum of Z_core for each element", "anchors": ["src/jaxrts/elements.py:electron_distribution_ionized_state", "src/jaxrts/elements.py:Element.electron_distribution"]}
{"id": "C24", "title": "Compton profiles are those of hydrogen-like orbitals and normalised", "statement": "The impulse-approximation profile of each orbital is the projection of the momentum density of the hydrogen-like orbital; it is non-negative and the scattering of an orbital, integrated over all frequencies, equals its population, with or without the asymmetric correction.", "quantifier": "all orbitals with tabulated profiles, all wave numbers and all effective charges", "why_tests_cant": "integral over the real line", "anchors": ["src/jaxrts/bound_free.py:J_impulse_approx", "src/jaxrts/bound_free.py:J_BM_HR_approx", "src/jaxrts/bound_free.py:J_BM_approx", "src/jaxrts/bound_free.py:all_J_Schum75", "src/jaxrts/bound_free.py:all_J_HR", "src/jaxrts/bound_free.py:all_J_BM"]}
{"id": "C25", "title": "Fractional ionisation is treated as a mixture of integer charge states", "statement": "The bound-free scattering of an ion with mean charge q is the mixture of the scattering of the two neighbouring integer charge states, with the non-negative weights that sum to one and reproduce q; for integer charge exactly one state contributes, and the elastic correction r_k lies in [0,1].", "quantifier": "every real charge between 0 and the nuclear charge", "why_tests_cant": "floor/ceil edge cases over a continuum", "anchors": ["src/jaxrts/models.py:SchumacherImpulse.evaluate_raw"]}
{"id": "C26", "title": "Free-bound scattering obeys detailed balance with bound-free scattering", "statement": "The free-bound spectrum at energy loss w equals the bound-free spectrum at -w times exp(-w/kT), for every bound-free model, so the sum bf+fb satisfies S(-w)=exp(-w/kT)S(w).", "quantifier": "all bound-free models (as functions), temperatures and energy shifts", "why_tests_cant": "quantifies over all spectra", "anchors": ["src/jaxrts/models.py:DetailedBalance.evaluate_raw", "src/jaxrts/free_bound.py:FreeBoundFlippedSetup"]}
{"id": "C27", "title": "ITCF thermometry recovers the temperature", "statement": "For every spectrum fulfilling detailed balance at temperature T, the two-sided Laplace transform is symmetric about beta/2 and attains its minimum there and only there, so the temperature computed on a grid of imaginary times containing beta/2 is T, also after convolution with an instrument function. The order of the data does not matter. The static structure factor and the f-sum are the integral and the negative first moment of the spectrum.", "quantifier": "all non-negative spectra in detailed balance, all temperatures, instrument functions and energy grids", "why_tests_cant": "quantifies over all spectra", "anchors": ["src/jaxrts/analysis.py:twoSidedLaplace", "src/jaxrts/analysis.py:ITCFT_grid", "src/jaxrts/analysis.py:ITCF", "src/jaxrts/analysis.py:ITCF_ssf", "src/jaxrts/analysis.py:ITCF_fsum"]}
{"id": "C28", "title": "The free electron structure factor is non-negative and in detailed balance", "statement": "S0_ee obtained through the fluctuation-dissipation theorem from a dielectric function with Im eps of the sign of the energy is non-negative, satisfies S(k,-E)=exp(-E/kT)S(k,E) whenever Re eps is even and Im eps odd; the RPA and Dandrea dielectric functions have these parities.", "quantifier": "all k, temperatures, densities, energies and local field corrections", "why_tests_cant": "continuum of parameters", "anchors": ["src/jaxrts/free_free.py:S0ee_from_susceptibility_FDT", "src/jaxrts/free_free.py:S0ee_from_dielectric_func_FDT", "src/jaxrts/free_free.py:_imag_diel_func_RPA_no_damping", "src/jaxrts/free_free.py:_real_diel_func_RPA_no_damping"]}
{"id": "C29", "title": "The Mermin dielectric function has the right limits", "statement": "The Born-Mermin dielectric function reduces to the RPA function for vanishing collision frequency, its three implementations agree, and applying local field corrections before or after the Mermin step gives the same susceptibility.", "quantifier": "all complex dielectric values, frequencies, collision frequencies and local field corrections", "why_tests_cant": "complex algebra over a continuum", "anchors": ["src/jaxrts/free_free.py:dielectric_function_BMA_full", "src/jaxrts/free_free.py:dielectric_function_BMA_chapman_interpFit", "src/jaxrts/free_free.py:susceptibility_BMA_Fortmann"]}
{"id": "C30", "title": "Susceptibility and dielectric function conversions are inverse", "statement": "susceptibility_from_epsilon and epsilon_from_susceptibility are mutually inverse, the RPA relations compose correctly, and a local field correction of one switches the interaction off.", "quantifier": "all complex dielectric values and k != 0", "why_tests_cant": "continuum", "anchors": ["src/jaxrts/plasma_physics.py:susceptibility_from_epsilon", "src/jaxrts/plasma_physics.py:epsilon_from_susceptibility", "src/jaxrts/ee_localfieldcorrections.py:xi_lfc_corrected"]}
{"id": "C31", "title": "Short- and long-range parts add up to the potential", "statement": "For every HNC potential, in r space and in k space, the short-range part plus the long-range part equals the full potential, and this is preserved by sums and by scaling. A soft core weakens the potential and removes its singularity.", "quantifier": "all potentials, all distances, wavenumbers and split parameters", "why_tests_cant": "continuum, and arbitrary sum/scale expressions", "anchors": ["src/jaxrts/hnc_potentials.py:HNCPotential", "src/jaxrts/hnc_potentials.py:PotentialSum", "src/jaxrts/hnc_potentials.py:ScaledPotential", "src/jaxrts/hnc_potentials.py:YukawaShortRangeRepulsion"]}
{"id": "C32", "title": "r-space and k-space potentials are a Fourier pair", "statement": "The analytic k-space forms of the Coulomb, Debye-Hueckel and Deutsch potentials are the radial Fourier transforms of their r-space forms.", "quantifier": "all k, screening and split parameters", "why_tests_cant": "integral identity over a continuum", "anchors": ["src/jaxrts/hnc_potentials.py:CoulombPotential", "src/jaxrts/hnc_potentials.py:DebyeHueckelPotential", "src/jaxrts/hnc_potentials.py:DeutschPotential"]}
{"id": "C33", "title": "Interpolated local field corrections stay between their limits", "statement": "The interpolated static local field corrections lie between the zero-temperature and the Geldart-Vosko values for every degeneracy and take these values in the degenerate and the classical limit; the Hubbard correction lies in [0,1/2), and the Geldart-Vosko one between 0 and 1-g(0) when its fitted coefficient is positive and g(0) below one.", "quantifier": "all k, densities, temperatures", "why_tests_cant": "continuum", "anchors": ["src/jaxrts/ee_localfieldcorrections.py:eelfc_interp_gregori2007", "src/jaxrts/ee_localfieldcorrections.py:eelfc_interp_fortmann2010", "src/jaxrts/ee_localfieldcorrections.py:eelfc_hubbard", "src/jaxrts/ee_localfieldcorrections.py:eelfc_geldartvosko"]}
{"id": "C34", "title": "Arkhipov-Davletov structure factors are physical", "statement": "In equilibrium the static structure factors satisfy 0 < S_ii, 0 < S_ee and S_ii S_ee > S_ei^2, the screening cloud sqrt(Z) S_ei/S_ii tends to Z for k -> 0, and the non-equilibrium extra term vanishes for T_e=T_i.", "quantifier": "all k, densities, charges, masses and temperatures", "why_tests_cant": "inequality over a continuum", "anchors": ["src/jaxrts/static_structure_factors.py:S_ii_AD", "src/jaxrts/static_structure_factors.py:S_ei_AD", "src/jaxrts/static_structure_factors.py:S_ee_AD"]}
{"id": "C35", "title": "Rayleigh weight is consistent across numbers of species", "statement": "For one species the Rayleigh weight is |f+q|^2 S_ii, splitting a species into identical copies does not change it, and it is non-negative when the partial structure factor matrix is positive semidefinite.", "quantifier": "all numbers of species, form factors, screening and structure factors", "why_tests_cant": "arbitrary matrix sizes", "anchors": ["src/jaxrts/models.py:IonFeatModel.Rayleigh_weight"]}
{"id": "C36", "title": "Partial structure factors built from an average S_ii", "statement": "The multi-component structure factor built from a one-component S_ii is symmetric, reduces to S_ii for one species, gives the identity for S_ii=1, and is positive semidefinite for 0<=S_ii<=1.", "quantifier": "all numbers of species, charges and densities", "why_tests_cant": "arbitrary matrix sizes", "anchors": ["src/jaxrts/models.py:ArkhipovIonFeat.S_ii", "src/jaxrts/models.py:Gregori2003IonFeat.S_ii", "src/jaxrts/models.py:Gregori2006IonFeat.S_ii"]}
{"id": "C37", "title": "The HNC iteration preserves symmetry and solves Ornstein-Zernike", "statement": "One HNC cycle maps symmetric pair functions to symmetric ones, its k-space step solves the Ornstein-Zernike equation, g stays positive, and the loop stops after at most the configured number of cycles. A state is left unchanged exactly if it solves the HNC equations.", "quantifier": "all numbers of species, densities, grids and iteration counts", "why_tests_cant": "unbounded iterations and matrix sizes", "anchors": ["src/jaxrts/hypernetted_chain.py:pair_distribution_function_HNC", "src/jaxrts/helpers.py:cramer_solve"]}
{"id": "C38", "title": "Averaging a plasma state preserves its ion and electron density", "statement": "The average-atom state used for effective one-component calculations has the ion density and free electron density of the original multi-component state.", "quantifier": "all numbers of species and compositions", "why_tests_cant": "arbitrary species lists", "anchors": ["src/jaxrts/models.py:averagePlasmaState"]}
{"id": "C39", "title": "Fermi-Dirac statistics and chemical potentials are sane", "statement": "The Fermi function lies in (0,1), is 1/2 exactly at the chemical potential and decreases with momentum; the chemical potential tends to the Fermi energy at vanishing temperature and to the classical ideal gas value at high temperature; effective temperatures are not below the electron temperature nor the Fermi temperature and coincide with the mixture rules at equal temperatures.", "quantifier": "all momenta, chemical potentials, temperatures and densities", "why_tests_cant": "continuum and limits", "anchors": ["src/jaxrts/plasma_physics.py:fermi_dirac", "src/jaxrts/plasma_physics.py:temperature_interpolation", "src/jaxrts/plasma_physics.py:chem_pot_interpolationIchimaru", "src/jaxrts/plasma_physics.py:chem_pot_sommerfeld_fermi_interpolation", "src/jaxrts/static_structure_factors.py:T_cf_Greg", "src/jaxrts/static_structure_factors.py:T_i_eff_Greg", "src/jaxrts/static_structure_factors.py:_T_rs_Greg2006", "src/jaxrts/static_structure_factors.py:T_Debye_Bohm_Staver"]}
{"id": "C40", "title": "Element look-up is a bijection", "statement": "Element symbols, names and atomic numbers determine each other, electron configurations have exactly Z electrons and respect shell capacities, and the tabulated ionisation energies of every element increase with charge state.", "quantifier": "the complete element table", "why_tests_cant": "table-wide consistency, settled by checking the entire table in the kernel", "anchors": ["src/jaxrts/elements.py:Element", "src/jaxrts/elements.py:_ionization_econf", "src/jaxrts/elements.py:_ionization_energies"]}
{"id": "C41", "title": "Absorption edges only remove intensity", "statement": "The edge models NonNegative, Heaviside and Fermi multiply the spectrum by a factor in [0,1] that tends to one far beyond the edge and to zero far below it, is monotone in the energy loss and antitone in the binding energy; the Fermi edge tends to the Heaviside edge as the temperature vanishes, also at the edge itself.", "quantifier": "all energies, binding energies and temperatures", "why_tests_cant": "continuum and limits", "anchors": ["src/jaxrts/models.py:Heaviside.evaluate", "src/jaxrts/models.py:Fermi.evaluate", "src/jaxrts/models.py:NonNegative.evaluate", "src/jaxrts/models.py:NoEdge.evaluate"]}
{"id": "C42", "title": "Sampling a scattering model coarsely only changes the resolution", "statement": "With sample_points set, a scattering model is evaluated for the same physics (all Setup options) as without, and at coinciding grid points gives the same values.", "quantifier": "all setups and all sampling counts", "why_tests_cant": "all setups and sizes", "anchors": ["src/jaxrts/models.py:ScatteringModel.evaluate"]}
{"id": "C43", "title": "Form factor lowering changes only the 1s factor of each ion", "statement": "FormFactorLowering.evaluate replaces, for every ion species, exactly that species' 1s form factor and nothing else; the lowered 1s factor uses the two K-shell ionization energies of the element, lies in [0,1] and grows as the continuum is lowered less.", "quantifier": "all numbers of species, all elements", "why_tests_cant": "index errors only appear for several species", "anchors": ["src/jaxrts/models.py:FormFactorLowering.evaluate", "src/jaxrts/form_factors.py:form_factor_lowering_10"]}
{"id": "C44", "title": "Compton shift is physical", "statement": "The Compton energy shift is non-negative, less than the photon energy, zero in forward direction, and equals the kinetic energy h^2k^2/2m to leading order through the exact kinematic identity.", "quantifier": "all photon energies and angles", "why_tests_cant": "continuum", "anchors": ["src/jaxrts/plasma_physics.py:compton_energy", "src/jaxrts/plasma_physics.py:thomson_momentum_transfer"]}
{"id": "C45", "title": "Piecewise linear interpolation never overshoots", "statement": "Values interpolated between tabulated points lie within the tabulated range, hit the table at the nodes, and screening constants interpolated from a table depend on a sorted node list.", "quantifier": "all tables and query points", "why_tests_cant": "arbitrary table sizes and real queries", "anchors": ["src/jaxrts/form_factors.py:pauling_size_screening_constants", "src/jaxrts/ionization.py", "src/jaxrts/instrument_function.py:FromArray"]}
{"id": "C46", "title": "Citations list every stored model once, in a stable way", "statement": "The citation text of a state contains the citation of each stored model and nothing else.", "quantifier": "every state", "why_tests_cant": "arbitrary model sets", "anchors": ["src/jaxrts/plasmastate.py:PlasmaState.citation", "src/jaxrts/models.py:Model.citation"]}
{"id": "C47", "title": "Model choices do not depend on assignment order", "statement": "Two histories that assign the same final models under independent keys lead to states that evaluate identically, including the electron treatment of the potentials.", "quantifier": "all pairs of histories that are permutations of each other", "why_tests_cant": "factorially many histories", "anchors": ["src/jaxrts/models.py:ThreePotentialHNCIonFeat.prepare", "src/jaxrts/models.py:OnePotentialHNCIonFeat.prepare", "src/jaxrts/hnc_potentials.py:HNCPotential.include_electrons"]}
{"id": "C48", "title": "A state with every contribution set can be probed", "statement": "Once the four scattering contributions of a state are set to admissible models, computing the spectrum does not raise for a missing attribute or a missing model, whatever other models were chosen.", "quantifier": "all histories of constructor calls and model assignments", "why_tests_cant": "the number of model combinations and histories is unbounded", "anchors": ["src/jaxrts/plasmastate.py:PlasmaState.probe", "src/jaxrts/models.py:Neglect", "src/jaxrts/models.py:BornMermin", "src/jaxrts/models.py:Sum_Sii"]}
{"id": "C49", "title": "Equality of elements is an equivalence compatible with hashing", "statement": "For elements and average atoms, == is reflexive, symmetric and transitive, and objects that compare equal have the same hash.", "quantifier": "all elements and average atoms", "why_tests_cant": "average atoms have a real charge; three objects have to be compared at once", "anchors": ["src/jaxrts/elements.py:Element.__eq__", "src/jaxrts/elements.py:Element.__hash__", "src/jaxrts/elements.py:MixElement"]}
{"id": "C50", "title": "Cold binding energies are the tabulated edges", "statement": "For every element, the cold binding energy of each orbital is the energy tabulated for that orbital; occupied orbitals have a positive energy.", "quantifier": "every element and every orbital", "why_tests_cant": "a wrong column is only seen when all elements and orbitals are compared with the table", "anchors": ["src/jaxrts/elements.py:Element.cold_binding_energies"]}
{"id": "C51", "title": "Interpolated populations of an integer number of electrons are a neutral configuration", "statement": "electron_distribution_ionized_state(Z) equals the tabulated configuration of the neutral atom with Z electrons.", "quantifier": "every element", "why_tests_cant": "exceptions of the filling order are only found by going through the whole table", "anchors": ["src/jaxrts/elements.py:electron_distribution_ionized_state", "src/jaxrts/elements.py:electron_distribution"]}
{"id": "C52", "title": "Binding energies of ions belong to occupied orbitals and grow with charge", "statement": "get_binding_energies gives, for the nearest integer charge, a positive energy exactly for the orbitals occupied at that charge; inner orbitals are bound more strongly, each orbital more strongly at higher charge, and a bare nucleus has no binding energies.", "quantifier": "every element, real charge and orbital", "why_tests_cant": "the table is filled by a loop over a data file with thousands of entries and read with rounding and clipping of a real charge", "anchors": ["src/jaxrts/elements.py:Element.get_binding_energies"]}
{"id": "C53", "title": "Core radii of derived states belong to their species", "statement": "ion_core_radius of a state has one entry per species: the value set by the user if there is one, else the calculated radius; the same holds for states obtained with expand_integer_ionization_states and for average states.", "quantifier": "all states with any number of species", "why_tests_cant": "needs states with several species that are transformed first", "anchors": ["src/jaxrts/plasmastate.py:PlasmaState.ion_core_radius", "src/jaxrts/plasmastate.py:PlasmaState.expand_integer_ionization_states", "src/jaxrts/models.py:averagePlasmaState"]}
{"id": "C54", "title": "The direction of the energy axis does not matter for the convolution", "statement": "Convolving a spectrum on a descending equidistant energy grid gives the reverse of what the ascending grid gives: same sign, no shift by a channel.", "quantifier": "all equidistant grids, spectra and instrument functions", "why_tests_cant": "sign and off-by-one errors depend on direction and parity of arbitrary grids", "anchors": ["src/jaxrts/setup.py:convolve_stucture_factor_with_instrument"]}
{"id": "C55", "title": "S0_ee_RPA at real energies is the RPA structure factor", "statement": "S0_ee_RPA evaluated at a real energy equals S0_ee_RPA_no_damping, whichever implementation of the damped dielectric function is selected.", "quantifier": "all k, T, densities, energies, chemical potentials, local field corrections and both settings of rpa_rewrite", "why_tests_cant": "two implementations are integrals that agree only in a limit; a test compares them at a few damped energies", "anchors": ["src/jaxrts/free_free.py:S0_ee_RPA", "src/jaxrts/free_free.py:dielectric_function_RPA_rewrite", "src/jaxrts/free_free.py:dielectric_function_RPA", "src/jaxrts/free_free.py:S0_ee_RPA_no_damping"]}
{"id": "C56", "title": "Collisions keep detailed balance", "statement": "The Born collision frequency satisfies nu(-E) = conj nu(E), also after tabulation and interpolation, and the structure factors S0_ee_BMA, S0_ee_BMA_chapman_interp, S0_ee_BMA_chapman_interpFit and S0_ee_BMA_Fortmann satisfy S(-E) = exp(-E/kT) S(E).", "quantifier": "all k, E, temperatures, densities, potentials, ion structure factors, interpolation grids and local field corrections", "why_tests_cant": "nested integrals and interpolation over a continuum of parameters", "anchors": ["src/jaxrts/free_free.py:S0_ee_BMA", "src/jaxrts/free_free.py:S0_ee_BMA_chapman_interp", "src/jaxrts/free_free.py:S0_ee_BMA_chapman_interpFit", "src/jaxrts/free_free.py:S0_ee_BMA_Fortmann", "src/jaxrts/free_free.py:collision_frequency_BA_full"]}
{"id": "C57", "title": "The collision frequency damps", "statement": "The real part of the Born collision frequency is non-negative, with the RPA or the Dandrea fit as screening, also after interpolation between its nodes.", "quantifier": "all energies, temperatures, densities, potentials and non-negative ion structure factors", "why_tests_cant": "integral over a continuum of parameters", "anchors": ["src/jaxrts/free_free.py:collision_frequency_BA_full", "src/jaxrts/free_free.py:collision_frequency_BA_fullFit"]}
{"id": "C58", "title": "The dielectric function at an energy does not depend on other energies", "statement": "dielectric_function_BMA_full evaluated on an array of energies gives at each energy what it gives for any other array containing that energy.", "quantifier": "all arrays of energies", "why_tests_cant": "needs comparison of calls with different arrays", "anchors": ["src/jaxrts/free_free.py:dielectric_function_BMA_full"]}
{"id": "C59", "title": "Structure factors with collisions are positive", "statement": "S0_ee_BMA, S0_ee_BMA_chapman_interp and S0_ee_BMA_chapman_interpFit are positive at every non-zero energy transfer at which the collision frequency has a positive real part.", "quantifier": "all k, E, temperatures, densities, chemical potentials, potentials, ion structure factors and local field corrections", "why_tests_cant": "the sign follows from an inequality between integrals over a continuum of parameters", "anchors": ["src/jaxrts/free_free.py:S0_ee_BMA", "src/jaxrts/free_free.py:S0_ee_BMA_chapman_interp", "src/jaxrts/free_free.py:S0_ee_BMA_chapman_interpFit"]}
{"id": "C60", "title": "All implementations of the RPA dielectric function agree", "statement": "dielectric_function_RPA and dielectric_function_RPA_rewrite return the same value at every complex energy off the axes, and dielectric_function_RPA_no_damping does not depend on its unsave flag.", "quantifier": "all k, complex energies, chemical potentials and temperatures", "why_tests_cant": "equality of two different families of integrals; sampling cannot tell it from a close fit", "anchors": ["src/jaxrts/free_free.py:dielectric_function_RPA", "src/jaxrts/free_free.py:dielectric_function_RPA_rewrite", "src/jaxrts/free_free.py:dielectric_function_RPA_no_damping"]}
{"id": "C61", "title": "Zero temperature local field corrections obey their sum rules", "statement": "For every value of the fitted coefficients, the local field correction of Utsumi and Ichimaru divided by (k/k_F)^2 tends to the compressibility coefficient as k goes to zero, and the correction itself tends to 1-g(0) at large k; the correction of Farid et al. has the same long-wavelength limit and grows as its kinetic energy coefficient times (k/k_F)^2 plus a constant at large k.", "quantifier": "all densities (all values of the fitted coefficients)", "why_tests_cant": "the limits involve cancellations of high powers of k between polynomial and logarithm that floating point evaluation cannot reach", "anchors": ["src/jaxrts/ee_localfieldcorrections.py:eelfc_utsumiichimaru", "src/jaxrts/ee_localfieldcorrections.py:eelfc_farid", "src/jaxrts/ee_localfieldcorrections.py:eelfc_geldartvosko"]}
{"id": "C62", "title": "Pauli blocking shift is bounded and monotone", "statement": "The Pauli blocking shift always lowers the ionization potential, by at most (Zi+1) times the Coulomb energy at the radius of the orbital, and its magnitude grows with the chemical potential of the electrons; the shifts of several models add up.", "quantifier": "all charges, chemical potentials and temperatures", "why_tests_cant": "integral over a half line", "anchors": ["src/jaxrts/ipd.py:ipd_pauli_blocking", "src/jaxrts/models.py:IPDSum.evaluate"]}
{"id": "C63", "title": "Saha solver returns the unique ionization equilibrium", "statement": "For every mixture there is exactly one neutral state in which each pair of neighbouring charge states obeys the Saha equation, and the solver returns it within its tolerance; states without a bound electron are not populated; raising the temperature never lowers the number of free electrons, and dilution never lowers the charge per ion; the generalised equation turns into the classical one for a classical electron gas. The electron density that the solver returns, not only the equilibrium it looks for, never falls when the plasma gets hotter or the continuum is lowered further. The electron density changes by no larger factor than the coefficients of the equation, and the charge that the solver returns for one element has a relative error of at most (Z + 4) 1e-8. In mixtures the charge of each element changes by at most the power 2 Z of the factor by which the coefficients change, and the solver returns it with a relative error of at most 2 Z 1e-8.", "quantifier": "all mixtures, coefficients, densities and temperatures", "why_tests_cant": "existence, uniqueness and monotony over reals and arbitrary numbers of states", "anchors": ["src/jaxrts/ionization.py:solve_ionization", "src/jaxrts/ionization.py:solve_saha", "src/jaxrts/ionization.py:solve_gen_saha", "src/jaxrts/ionization.py:saha_equation", "src/jaxrts/ionization.py:gen_saha_equation"]}
{"id": "C64", "title": "Planck-Larkin partition sum", "statement": "The partition sum over the levels of an ion is the Planck-Larkin sum: each level with binding energy x (in units of the thermal energy) counts with exp(x) - 1 - x, levels above the threshold do not count.", "quantifier": "all lists of levels, all temperatures", "why_tests_cant": "an identity over the reals", "anchors": ["src/jaxrts/ionization.py:planck_larkin_partition_sum", "src/jaxrts/ionization.py:bu_balance_term", "src/jaxrts/ionization.py:solve_BU"]}
{"id": "C65", "title": "Thomas-Fermi charges of mixtures", "statement": "The Thomas-Fermi mean charge lies strictly between zero and the atomic number, tends to the atomic number at high density and at high temperature, and obeys the Thomas-Fermi scaling; the self-consistent charges of a mixture are computed in at most 100 iterations, agree with the formula for one element, and are a fixed point up to 1e-5 unless the iterations are exhausted.", "quantifier": "all numbers of elements, all densities, temperatures and masses", "why_tests_cant": "loop over reals, limits", "anchors": ["src/jaxrts/ionization.py:calculate_mean_free_charge_more"]}
{"id": "C66", "title": "Screening charges agree with each other where the documentation says so", "statement": "The screening charge of every screening model tends to the mean ion charge for small wavenumbers and to zero for large ones and lies between zero and the ion charge; the linear response screening of Gericke with a classical screening length equals Debye-Hueckel screening, and finite wavelength screening reduces to it with a classical susceptibility.", "quantifier": "all wavenumbers, temperatures, densities and charges", "why_tests_cant": "limits and inequalities over a continuum", "anchors": ["src/jaxrts/models.py:DebyeHueckelScreening", "src/jaxrts/models.py:FiniteWavelengthScreening", "src/jaxrts/models.py:LinearResponseScreeningGericke2010", "src/jaxrts/models.py:Gregori2004Screening", "src/jaxrts/ion_feature.py:q_Gregori2004", "src/jaxrts/ion_feature.py:q_Glenzer2009"]}
{"id": "C67", "title": "Charged hard sphere model", "statement": "For every plasma there is exactly one sphere diameter solving the model's equation with a packing fraction below one, and the code returns it. The direct correlation function of the ions is less than one for all wavenumbers, equals the transform of a polynomial inside the sphere plus the Coulomb tail outside, and the ions screen each other perfectly for small wavenumbers. Hence S_ii > 0 and the structure factors form a positive definite matrix for all wavenumbers; electrons screen exactly the charge of the ions in the limit of small wavenumbers, also in mixtures. The diameter never grows with the temperature of the ions.", "quantifier": "all densities, temperatures, charges and wavenumbers", "why_tests_cant": "root finding over a continuum, positivity for all wavenumbers, mixtures of any size", "anchors": ["src/jaxrts/static_structure_factors.py:S_ii_CHS", "src/jaxrts/static_structure_factors.py:S_ei_CHS", "src/jaxrts/static_structure_factors.py:S_ee_CHS", "src/jaxrts/models.py:CHSIonFeat", "src/jaxrts/models.py:GregoriCHSScreening"]}
{"id": "C68", "title": "Debye-Waller factor is that of a Debye lattice", "statement": "The Debye-Waller factor is exp(-k^2 <x^2>) with the mean square displacement of the Debye model, for the mass of one atom M/N_A; it lies in (0,1), falls with the wavenumber and with temperature, has the classical limit at high and the zero-point limit at low temperature, and the structure factor of the solid lies between those of plasma and lattice.", "quantifier": "all wavenumbers, masses, Debye temperatures and temperatures", "why_tests_cant": "integral identity and limits over a continuum", "anchors": ["src/jaxrts/static_structure_factors.py:debyeWallerFactor", "src/jaxrts/models.py:DebyeWallerSolid"]}
{"id": "C69", "title": "The sine transform approximates the three-dimensional Fourier transform at the wavenumbers it is used with", "statement": "The value of the sine transform at index n is the midpoint rule of the Fourier integral 4 pi int r^2 f(r) sin(k r)/(k r) dr at the n-th wavenumber of the grid that the HNC functions and models build.", "quantifier": "all even grid sizes, spacings and functions", "why_tests_cant": "sizes and values are unbounded; the deviation is only visible at small wavenumbers", "anchors": ["src/jaxrts/hypernetted_chain.py:fourier_transform_sine", "src/jaxrts/hypernetted_chain.py:pair_distribution_function_HNC", "src/jaxrts/models.py:OnePotentialHNCIonFeat", "src/jaxrts/models.py:ThreePotentialHNCIonFeat"]}
{"id": "C70", "title": "The HNC convergence test controls the residual for every mixing", "statement": "If the HNC loop stops before the maximal number of cycles, then the result solves the HNC equations up to the tolerance of the test, for every mixing parameter in [0, 1).", "quantifier": "all problems and mixing parameters", "why_tests_cant": "unbounded iterations; a continuum of mixing parameters", "anchors": ["src/jaxrts/hypernetted_chain.py:pair_distribution_function_HNC"]}
{"id": "C71", "title": "Physical limits and invariances of the HNC result", "statement": "Without interactions g = 1 and S = 1; without density g is the Boltzmann factor of the whole potential, and at low density it is close to it, also for several temperatures; at high temperature g is close to 1 and S to the unit matrix; only potential over temperature matters; relabelling species relabels the result and splitting a species into groups does not change a cycle; the structure factor S_ii_HNC is symmetric and at a solution equals the inverse of 1 - sqrt(n) c sqrt(n) at every wavenumber of the grid.", "quantifier": "all numbers of species, densities, potentials, grids and intermediate temperatures", "why_tests_cant": "unbounded iterations and matrix sizes", "anchors": ["src/jaxrts/hypernetted_chain.py:pair_distribution_function_HNC", "src/jaxrts/hypernetted_chain.py:pair_distribution_function_SVT_HNC", "src/jaxrts/hypernetted_chain.py:S_ii_HNC"]}
{"id": "C72", "title": "The multi-temperature HNC scheme generalises the single-temperature one", "statement": "The k-space step of the scheme for several temperatures solves its modified Ornstein-Zernike equation and preserves symmetry; with equal temperatures it is that of the scheme for one temperature, whatever the masses; the number of cycles it returns is the number of cycles it made; mean temperatures of pairs are symmetric, lie between the two temperatures and equal them for equal species.", "quantifier": "all numbers of species, masses, temperatures and densities", "why_tests_cant": "unbounded iterations and matrix sizes", "anchors": ["src/jaxrts/hypernetted_chain.py:pair_distribution_function_SVT_HNC", "src/jaxrts/hypernetted_chain.py:geometric_mean_T", "src/jaxrts/hypernetted_chain.py:mass_weighted_T"]}
{"id": "C73", "title": "The secant search returns an extremum between the bounds", "statement": "The search for extrema returns for every function, never divides by zero, stays between the bounds, does at most the configured number of iterations, and if it stops earlier the result is close to the extremum; the temperature found with it does not depend on the unit of the intensity.", "quantifier": "all differentiable functions, bounds and tolerances", "why_tests_cant": "unbounded iterations; a continuum of functions", "anchors": ["src/jaxrts/helpers.py:secant_extrema_finding", "src/jaxrts/analysis.py:ITCF.get_T"]}
{"id": "C74", "title": "Potentials between particles are symmetric and have the right limits", "statement": "Every potential matrix is symmetric, like charges repel and unlike charges attract, quantum potentials are finite at zero distance and approach the Coulomb potential at large distance, the exchange potential does not exceed its value at contact, and the choice of listing electrons does not change the exchange interaction of electrons.", "quantifier": "all plasmas, temperatures, masses, charges and distances", "why_tests_cant": "a continuum of distances and of plasmas", "anchors": ["src/jaxrts/hnc_potentials.py:HNCPotential", "src/jaxrts/hnc_potentials.py:KelbgPotential", "src/jaxrts/hnc_potentials.py:DeutschPotential", "src/jaxrts/hnc_potentials.py:KlimontovichKraeftPotential", "src/jaxrts/hnc_potentials.py:SpinAveragedEEExchange", "src/jaxrts/hnc_potentials.py:SpinSeparatedEEExchange"]}
{"id": "C75", "title": "Ion features from the hypernetted chain scheme use the right potentials and screening", "statement": "With three potentials, two ions interact with the ion-ion potential, ions and electrons with the electron-ion potential, electrons with the electron-electron potential; the resulting structure factors are symmetric; the screening charges are those which follow from the correlation of electrons and ions, and the Rayleigh weight of one species is (f+q)^2 S. The Rayleigh weight of a mixture is a quadratic form in the form factors and screening charges; structure factors and grids are those of the discrete transform with the densities of ions and electrons.", "quantifier": "all potentials, mixtures, settings and wavenumbers", "why_tests_cant": "results of an unbounded iteration for a continuum of potentials", "anchors": ["src/jaxrts/models.py:OnePotentialHNCIonFeat", "src/jaxrts/models.py:ThreePotentialHNCIonFeat"]}
{"id": "C76", "title": "Results do not depend on how the ions are listed", "statement": "Writing a species as several entries of the same kind, with densities that add up, changes no density, ionization potential depression, degree of ionization, bound-free spectrum and Rayleigh weight.", "quantifier": "all plasmas and all divisions into any number of entries", "why_tests_cant": "quantifies over all lists of ions", "anchors": ["src/jaxrts/plasmastate.py:PlasmaState", "src/jaxrts/ipd.py", "src/jaxrts/ionization.py", "src/jaxrts/models.py:IonFeatModel.Rayleigh_weight", "src/jaxrts/models.py:SchumacherImpulse"]}
{"id": "C77", "title": "No reference is lost or repeated", "statement": "The citation of a state names the references of all models that take part, also of those which are added or scaled, and each reference of a bibtex citation once.", "quantifier": "all states and all styles", "why_tests_cant": "quantifies over all sets and sums of models", "anchors": ["src/jaxrts/plasmastate.py:PlasmaState.citation", "src/jaxrts/models.py:IPDSum", "src/jaxrts/hnc_potentials.py:PotentialSum", "src/jaxrts/literature.py"]}
{"id": "C78", "title": "Approximations of Fermi integrals agree with the integrals", "statement": "Each rational approximation of a complete Fermi-Dirac integral (orders -1/2, 1/2, 3/2, 5/2) returns the value of the integral that the quadrature version returns, to single precision; it is positive, increases with the reduced chemical potential, has no visible step where its formula changes, and the approximation of one order is the derivative of the approximation of the next order.", "quantifier": "all real arguments of the four approximations", "why_tests_cant": "A test compares the values at a few arguments; a coefficient that matters only for a part of the range (here: arguments between 1 and 2) is missed, and monotonicity, the size of the step and the derivative relation are statements about every argument.", "anchors": ["src/jaxrts/math.py:11-58", "src/jaxrts/math.py:161-408"]}
{"id": "C79", "title": "The inverse of the Fermi integral of order 1/2 in use inverts it", "statement": "The Fermi integral of order 1/2 of the reduced chemical potential which the inverse used by the finite-temperature dielectric function returns is the number the inverse was called with, to within five parts in a million; the inverse increases over all of its pieces, so a larger density never has a smaller chemical potential; it approaches the zero-temperature relation for large arguments; the chemical potential used by the finite-temperature dielectric function reproduces the density at every temperature.", "quantifier": "all positive arguments, all temperatures and densities", "why_tests_cant": "The inverse has six pieces with steps of one part in ten million at their borders; that none of the steps is downward, and that the error is bounded between the sampled points, cannot be seen by sampling.", "anchors": ["src/jaxrts/math.py:71-157", "src/jaxrts/free_free.py:1003-1005"]}
{"id": "C80", "title": "The fitted finite-temperature dielectric function has the limits of the random phase approximation", "statement": "The fitted dielectric function obeys the f-sum rule at large energy transfers and has the exact third moment (mean kinetic energy of the electrons) in the next order; without energy transfer and for small momentum transfers it screens with the inverse length the ionisation potential depression uses for the same chemical potential; and it depends continuously on the temperature. At high temperatures the coefficients scale with powers of the temperature.", "quantifier": "all momentum transfers, temperatures and densities", "why_tests_cant": "Limits in energy and momentum, and the behaviour at one special temperature which no sampled temperature hits.", "anchors": ["src/jaxrts/free_free.py:829-1056", "src/jaxrts/ipd.py:26-60"]}
{"id": "C81", "title": "Electrons of any degeneracy screen according to their compressibility", "statement": "The squared inverse screening length for electrons of arbitrary degeneracy is e^2/eps0 times the change of the density of a free electron gas with the chemical potential, to the accuracy of one part in a million of the approximated Fermi integral; to that accuracy it never exceeds the Debye value of that density, tends to the Debye-Hueckel value at high temperature and to the Thomas-Fermi value at zero temperature.", "quantifier": "all densities, temperatures and chemical potentials", "why_tests_cant": "A derivative and two limits of an integral, with an inequality over a continuum.", "anchors": ["src/jaxrts/ipd.py:26-60", "src/jaxrts/math.py:226-288", "src/jaxrts/plasma_physics.py:224-257"]}
{"id": "C82", "title": "Plasma parameters measure what they are named after", "statement": "interparticle_spacing is the radius of a sphere that holds, at the given density, the geometric mean of the charge numbers; coupling_param is the Coulomb energy at that distance over the thermal energy; the Debye-Hueckel length times the plasma frequency is the thermal velocity, for every charge, and inverse squares of the lengths of parts of a plasma add up.", "quantifier": "all charges, densities, temperatures and numbers of species", "why_tests_cant": "continuum of densities and charges, any number of species", "anchors": ["src/jaxrts/plasma_physics.py:interparticle_spacing", "src/jaxrts/plasma_physics.py:coupling_param", "src/jaxrts/plasma_physics.py:Debye_Hueckel_screening_length", "src/jaxrts/plasma_physics.py:plasma_frequency"]}
{"id": "C83", "title": "Screening lengths agree in the limits they share", "statement": "The screening length models tend to the Debye-Hueckel length in the classical limit, and those which account for degeneracy tend to the Thomas-Fermi length at zero temperature; the exact inverse screening length squared is the change of the electron density with the chemical potential, and is never above the classical one; the statically screened potential is the bare one over the static dielectric function.", "quantifier": "all densities, temperatures and chemical potentials", "why_tests_cant": "limits and a continuum of states", "anchors": ["src/jaxrts/models.py:DebyeHueckelScreeningLength", "src/jaxrts/models.py:Gericke2010ScreeningLength", "src/jaxrts/models.py:ArbitraryDegeneracyScreeningLength", "src/jaxrts/free_free.py:inverse_screening_length_exact", "src/jaxrts/free_free.py:inverse_screening_length_non_degenerate", "src/jaxrts/free_free.py:statically_screened_ie_debye_potential"]}
{"id": "C84", "title": "The fast Fourier transform computes the discrete Fourier transform", "statement": "For every power of two, four1 turns an array of interleaved real and imaginary parts in place into the discrete Fourier transform of the complex array, with the sign of the exponent as given; a transform followed by the one with the other sign returns the array times its length.", "quantifier": "all lengths that are powers of two, all arrays, both signs", "why_tests_cant": "bit reversal and butterflies nest log2(n) loops; a test fixes the length", "anchors": ["src/jaxrts/hypernetted_chain.py:four1"]}
{"id": "C85", "title": "The transforms of real arrays pack the same spectrum", "statement": "For every power of two, realfft returns the non-negative half of the discrete Fourier transform of a real array, with the term of the highest frequency in the second place; the inverse returns the array times half its length; realfftnp agrees with it everywhere but in the second place, which it leaves zero.", "quantifier": "all real arrays of even (power of two) length", "why_tests_cant": "continuum of arrays, unbounded lengths", "anchors": ["src/jaxrts/hypernetted_chain.py:realfft", "src/jaxrts/hypernetted_chain.py:realfftnp"]}
{"id": "C86", "title": "sinft is the discrete sine transform of type 1, and its own inverse", "statement": "For every even length n, sinft returns the sums of y_j sin(pi j k / n); applied twice it returns the array times n/2, but for the first element, which becomes zero. So the missing term of the highest frequency in realfftnp does not matter here.", "quantifier": "all even lengths, all real arrays", "why_tests_cant": "continuum of arrays, unbounded lengths", "anchors": ["src/jaxrts/hypernetted_chain.py:sinft"]}
{"id": "C87", "title": "The quadrature of Ogata samples the Fourier integral", "statement": "fourier_transform_ogata returns, for every table, step, wave number and number of terms, the trapezoidal sum of the three-dimensional Fourier integrand after a double-exponential substitution of the radius; the substituted integral equals the Fourier integral; the substituted function has the tabulated values at the nodes; the sum converges with the number of terms even if the function does not decay; the value that replaces an overflow is the limit.", "quantifier": "all tables, steps, wave numbers and numbers of terms", "why_tests_cant": "limits, and a continuum of steps and functions", "anchors": ["src/jaxrts/hypernetted_chain.py:psi", "src/jaxrts/hypernetted_chain.py:dpsi", "src/jaxrts/hypernetted_chain.py:bessel_3_2", "src/jaxrts/hypernetted_chain.py:bessel_0_5", "src/jaxrts/hypernetted_chain.py:bessel_2ndkind_0_5", "src/jaxrts/hypernetted_chain.py:fourier_transform_ogata"]}
{"id": "C88", "title": "The iterations for the mean charge are sound, and stop where they are self-consistent", "statement": "calculate_mean_free_charge_saha and calculate_mean_free_charge_BU return one result that does not depend on the charges the state had before; whatever models for the lowering and the chemical potential are attached, the densities sum to that of all ions, every mean charge is possible for its element, and the state has these charges afterwards. Without lowering and chemical potential the iteration changes nothing. Once it repeats a state, that state is self-consistent and stays; then the generalised Saha equation gives the populations of the grand canonical ensemble. For one element, without the chemical potential, the iteration converges if the lowering in units of the temperature changes by at most q < 1 times the relative change of the charge: there is exactly one self-consistent charge, and the returned one differs from it by a factor of at most q^6 of the initial logarithmic difference plus the error of the solver. The lowering of Debye and Hueckel fulfils this if the energy of an electron next to the full charge at the distance of the screening length is below the temperature. The same holds for mixtures with the bound q / (2 Z), Z the largest atomic number, and the largest relative change of a charge. In a mixture the lowering of Debye and Hueckel fulfils it if 2 Z^2 times the energy of two elementary charges at the distance of the screening length is at most q times the temperature. With the ion-sphere model and one element whose charge stays above 1e-6 the lowering is that of a sphere which holds one ion, at any charge, and the result is self-consistent exactly. The lowering of Stewart and Pyatt fulfils the condition if in the fully ionized plasma it is at most q times the temperature (in mixtures q / (2 Z) times, with all charges Z); so does every lowering that grows by no larger factor than the charges.  The same geometric convergence to a unique exact solution holds for mixtures when the chemical potential is used, and for the solver with the Beth-Uhlenbeck partition sums, if the logarithms of the coefficients of the equations depend weakly enough on the charges; for the classical chemical potential this is the condition for the Saha equation.  With Ichimaru's interpolation for the chemical potential the condition is that the plasma is hot enough: its correction to the classical value, at the density of all electrons, has to be small.", "quantifier": "all mixtures, options, models and initial charges", "why_tests_cant": "models are arbitrary functions of the charges; the result of six iterations depends on all of them", "anchors": ["src/jaxrts/ionization.py:calculate_mean_free_charge_saha", "src/jaxrts/ionization.py:calculate_mean_free_charge_BU", "src/jaxrts/ionization.py:solve_saha", "src/jaxrts/ionization.py:solve_gen_saha", "src/jaxrts/ionization.py:solve_BU"]}
{"id": "C89", "title": "The dielectric function at zero temperature is the limit of the random phase approximation", "statement": "As the temperature goes to zero and the chemical potential to the Fermi energy, dielectric_function_RPA_no_damping (with either way of integration) goes to dielectric_function_RPA_0K at every wave number and energy off the edges of the excitation continuum. The function at zero temperature obeys detailed balance, takes up energy exactly where an occupied state can be lifted above the Fermi energy, screens static long-wave fields with the Thomas-Fermi wave number, and responds like free electrons at high energies. The real part of collision_frequency_BA_0K is not negative.", "quantifier": "all densities, wave numbers, energies, and families of chemical potentials that go to the Fermi energy", "why_tests_cant": "a limit in temperature, wave number or energy is not reached by any finite number of calls, and the integrals become singular there", "anchors": ["src/jaxrts/free_free.py:noninteracting_susceptibility_0K", "src/jaxrts/free_free.py:dielectric_function_RPA_0K", "src/jaxrts/free_free.py:dielectric_function_RPA_no_damping", "src/jaxrts/free_free.py:collision_frequency_BA_0K"]}
{"id": "C90", "title": "The Kramers-Kronig transform keeps the symmetry of a response and converges to the principal value", "statement": "On energies symmetric about zero, KramersKronigTransform of an even function is odd, so the collision frequencies with KKT=True obey detailed balance. The transform is linear. At a grid point the sum leaves out that point only and does not depend on the exclusion; on finer grids it converges to the principal value of the Kramers-Kronig integral for every continuous function with a derivative there. A real part which decreases with the size of the energy has an imaginary part that is not negative at positive energies.", "quantifier": "all arrays of energies and values, numbers of points, functions and grid points", "why_tests_cant": "symmetry holds for arrays of every length; convergence is a limit", "anchors": ["src/jaxrts/free_free.py:KramersKronigTransform", "src/jaxrts/free_free.py:_KKT_single_point", "src/jaxrts/free_free.py:collision_frequency_BA_Chapman_interp"]}
{"id": "C91", "title": "The guessed cutoff energies", "statement": "guess_E_cutoffs is meant to find the largest energy of interest from the structure factor. It does not: the structure factor at zero energy is not a number, so the upper limit is the largest energy of the call (fifteen times it with KKT=True) whatever the wave number, temperature and density; were it a number, the limit would be zero. The limits are in order exactly if the plasma energy is below twice the largest energy.", "quantifier": "all plasma states, wave numbers and energies", "why_tests_cant": "the effect is hidden by the fallback value and is a statement on all states", "anchors": ["src/jaxrts/free_free.py:guess_E_cutoff_max", "src/jaxrts/free_free.py:guess_E_cutoff_min", "src/jaxrts/models.py:BornMermin.guess_E_cutoffs"]}
{"id": "C92", "title": "Pair distribution functions belong to the structure factors", "statement": "The logarithm of g_ii_ABD (g_ei_ABD, and in equilibrium g_ee_ABD) is the Fourier transform of S_ii_AD - 1 (of S_ei_AD, of S_ee_AD - 1), divided by the density. In equilibrium all three go to one at large distances and have a finite limit at contact; electrons among themselves and ions among themselves are nowhere rarer, electrons around ions nowhere denser, than at contact.", "quantifier": "all distances, temperatures, densities, masses and charges that are positive", "why_tests_cant": "limits at infinite and vanishing distance, and bounds at every distance", "anchors": ["src/jaxrts/static_structure_factors.py:g_ee_ABD", "src/jaxrts/static_structure_factors.py:g_ii_ABD", "src/jaxrts/static_structure_factors.py:g_ei_ABD", "src/jaxrts/static_structure_factors.py:S_ii_AD", "src/jaxrts/static_structure_factors.py:S_ei_AD", "src/jaxrts/static_structure_factors.py:S_ee_AD"]}
{"id": "C93", "title": "Limits of the local field correction of Dornheim et al.", "statement": "eelfc_dornheim2021 tends to 1 - g(0) at large wave numbers, where g(0) is the pair distribution at contact, and is proportional to the square of the wave number at small ones (compressibility sum rule). The fits get density, Fermi wave number and temperature in atomic units. Electrons of opposite spin are independent at high density and their pair distribution is not negative. No parameter of the fit has a pole.", "quantifier": "all densities, temperatures and wave numbers", "why_tests_cant": "limits; the deviation at small wave numbers is below 1.4e-7 but makes the ratio to the square of the wave number infinite", "anchors": ["src/jaxrts/ee_localfieldcorrections.py:eelfc_dornheim2021", "src/jaxrts/ee_localfieldcorrections_dornheim_2021.py:G_analytical", "src/jaxrts/ee_localfieldcorrections_dornheim_2021.py:OnTop"]}
{"id": "C94", "title": "Exchange potential from the classical map", "statement": "The Pauli potential of PauliClassicalMap is the one potential for which the pair distribution function of the ideal electron gas, which the two functions return together with it, solves the hypernetted chain equations, at every wave number of the grid; electrons of opposite spin do not interact; the pair distribution function is positive and at most one; at most one electron is missing around an electron; the entries of the ions are zero; the values belong to the wave numbers that were asked for. The values for separate and for averaged spins belong to the same gas.", "quantifier": "all densities, temperatures, grids of even length, and pair distribution functions", "why_tests_cant": "an equation on all grids; the potential at small wave numbers and the limit of low temperature need a relation between sums on two grids", "anchors": ["src/jaxrts/hnc_potentials.py:pauli_potential_from_classical_map_SpinAveraged", "src/jaxrts/hnc_potentials.py:pauli_potential_from_classical_map_SpinSeparated", "src/jaxrts/hnc_potentials.py:PauliClassicalMap"]}
{"id": "C95", "title": "Structure factors from a neural network belong to the species of the plasma", "statement": "NNSiiModel.S_ii returns a symmetric matrix whose entry (a, b) is the output of the network for the species a and b of the plasma, in whatever order the plasma lists its elements; the inputs of the network do not depend on that order, nor on splitting the species into integer charges; the integer and fractional part of a charge are a lossless replacement of it; a network made for n elements takes 3 + n inputs, and its shape is what it was made with.", "quantifier": "all numbers of elements, orders, weights, norms, charges, densities and temperatures", "why_tests_cant": "any number of elements and every permutation; the tests have no trained network, and two elements never show the error", "anchors": ["src/jaxrts/experimental/SiiNN.py:NNSiiModel", "src/jaxrts/experimental/SiiNN.py:NNModel", "src/jaxrts/experimental/SiiNN.py:NNModelExpandedZ"]}
{"id": "C96", "title": "The lists of available models contain exactly what was asked for", "statement": "get_all_models(types) lists under each key exactly the concrete classes with a public name of the requested modules that admit the key, each one once, and a key is in the dictionary exactly if a class is listed under it; get_all_models_list(types, names_only) returns the classes (or the names) of the requested types; get_all_instrument_functions lists exactly the concrete public instrument functions. Every class listed under a key can be assigned to every state under this key, and the decoder finds every concrete class, and only those, under its name.", "quantifier": "for all contents of the modules, all requested types, all keys, all histories of assignments of a state and all names", "why_tests_cant": "the tests iterate over the lists that the functions return, so that a class which is missing or not asked for is not noticed", "anchors": ["src/jaxrts/collections.py:29-162", "src/jaxrts/saving.py:193-212", "src/jaxrts/__init__.py:76-84"]}
{"id": "C97", "title": "SchumacherImpulseFitRk makes the inelastic spectrum fulfil the f-sum rule", "statement": "With 'bound-free scattering' set to SchumacherImpulseFitRk and 'free-bound scattering' to DetailedBalance, the sum of free-free, bound-free and free-bound scattering before the convolution has the first moment hbar^2 k^2 / (2 m_e) over the energy window used by ITCF_fsum, for every free-free model. What is needed for it: a setup without the correction of the wave number and an energy axis symmetric about the energy of the probe; for every other axis the sum rule is missed by a stated amount. On an axis with energy loss only, r_k is a division by zero. With the default for the free-bound scattering (Neglect) the first moment exceeds the sum rule.", "quantifier": "all setups, energy axes, temperatures, densities, free-free and bound-free models that work channel by channel", "why_tests_cant": "A test integrates one spectrum numerically with a tolerance; it cannot tell an exact identity from a good fit, nor find the axes for which the factor does not exist.", "anchors": ["models.py SchumacherImpulseFitRk.r_k and evaluate_raw", "models.py DetailedBalance", "analysis.py ITCF_fsum", "plasmastate.py default of free-bound scattering"]}
{"id": "C98", "title": "The structure factor given to the Born-Mermin collision frequency is that of the 'BM S_ii' model", "statement": "The function S_ii(k) that the Born-Mermin models prepare once equals the result of evaluating the 'BM S_ii' model with a setup that probes k, for every k, setup and ion feature, whether or not the structure factor is read from a grid. Sum_Sii returns the structure factor of all ions regardless of their species: one without correlations, the one of the species if there is only one, the structure factor of all particles for the partial structure factors of any configuration of particles, and the common structure factor for the models which extend one structure factor to mixtures. It is not negative if the partial structure factors give no negative intensity, and does not depend on the order of the species.", "quantifier": "all wave numbers, setups, grids, mixtures and configurations of particles", "why_tests_cant": "A test compares a few wave numbers for one mixture; the identities hold for every grid and mixture, and the commutation of interpolation and sum is a statement on all grids.", "anchors": ["models.py _build_cached_S_ii", "models.py Sum_Sii", "models.py AverageAtom_Sii", "hypernetted_chain.py hnc_interp", "setup.py get_probe_setup"]}
{"id": "C99", "title": "Ionization potential depressions of all charge states agree with the mean one", "statement": "all_element_states of an IPD model returns for every species one value for each charge state from neutral to hydrogen-like. For a species whose mean charge is an integer, the entry of this charge state is the result of evaluate, for every model and every sum of models. The depressions of an IPDSum are the sums over its members. The depression grows strictly with the charge state.", "quantifier": "all plasmas, models, nested sums of models, temperatures and densities", "why_tests_cant": "A test looks at one model and one element; nested sums and all charge states need induction.", "anchors": ["models.py IPDModel and all subclasses: evaluate and all_element_states", "models.py IPDSum", "models.py Neglect.all_element_states", "ipd.py ipd_ecker_kroell"]}
