# Formal model of pyBBN: design

Target: ckald/pyBBN (pinned commit in /repo), Python + C++.  The code is read as text, never run.
The model is a set of shallow Lean 4 definitions, one per modelled function, under
`lean/Verif/Model/`.  Property theorems are in `lean/Verif/Props/`, long auxiliary proofs in
`lean/Verif/Lemmas/`.  Every model definition cites file and lines of /repo.

## Conventions

* Numbers: floating point is modelled by the real field (`ℝ`), or by an arbitrary linearly ordered
  field where only algebra/order is used.  Rounding, overflow, NaN and infinities are **outside**
  the model unless a definition says otherwise (`distribution_interpolation` of an empty state).
* Exceptions are values: `Except Err α` / `Option α`.  `Err` distinguishes the exception classes the
  code raises (value error, key error, index error, ...).
* Mutable objects are records threaded through functions.  Python object identity matters in two
  places only (shared `Universe.data`, shared `Params`), and is modelled by an explicit store.
* Numpy arrays are lists / functions on indices; `numpy.resize` (tiling), `numpy.delete`,
  `searchsorted` are modelled explicitly because their behaviour matters.
* OpenMP: a schedule is a list of lists of iteration indices (one per thread); each thread runs its
  iterations in order on its private copies.  Any partition of the iterations is allowed.
* External numerical integrators (GSL `qag`, `scipy.simps`, `leggauss`) are abstract: parameters
  constrained by explicit hypotheses or arbitrary functions of their arguments.

## Trusted base

* Lean 4.33 kernel, and for every theorem at most the axioms `propext`, `Classical.choice`,
  `Quot.sound` (checked by `vcheck`).  No `sorry`, no added axioms, no `native_decide`/`bv_decide`.
* Faithfulness of the hand-written model to the cited lines (review item; each simplification is
  stated in the comment of the definition).

## Properties

Status `partial` means: the full statement is false of the code or not fully proved; the note in MANIFEST.json says which part. A refutation is a theorem about the model with a concrete witness.

| id | property | status | module | what is modelled, how it is proved |
|----|----|----|----|----|
| C01 | History tables behave like an append-only log with pop | proved | `Props/DynArray` | `DynamicRecArray`/`Dynamic2DArray` with buffer, `numpy.resize` tiling and `numpy.delete`; representation invariant and refinement to list push/pop by induction over the operations |
| C02 | Integer indexing of a history table | partial | `Props/DynArray` | the same tables; non-negative indices by the invariant, negative ones refuted |
| C03 | Independent simulations do not share history | partial | `Props/Process` | class-level table shared by universes, arbitrary interleavings of operations; refutation, and independence of the states in Euler mode |
| C04 | Environment variables override defaults with the type of the default | partial | `Props/Environment` | `environment.get` and its conversions with Python truthiness; case analysis over all strings, refutation for switches |
| C05 | Boolean environment flags of the utility helper | proved | `Props/Environment` | `getenv`, `getboolenv`; case analysis over all strings |
| C06 | Plot ring buffer capacity and extremes | proved | `Props/Utils` | `ring_deque`; induction over the operations, compared with the list of all values added |
| C07 | Log throttling never emits twice within the period | proved | `Props/Utils` | `Throttler`; induction over the calls |
| C08 | Grid search returns the bracketing cell | proved | `Props/Interpolation` | C++ `binary_find` by well-founded recursion; loop invariant |
| C09 | Distribution lookup is exact on grid points and total on the grid range | proved | `Props/Interpolation` | `distribution_interpolation`; case analysis on the bracketing cell |
| C10 | Thermal spectra are reproduced exactly between grid points | proved | `Props/Interpolation` | `distribution_interpolation` with exponential interpolation; logarithms and exponentials |
| C11 | Interpolated occupation numbers stay between the neighbours | proved | `Props/Interpolation` | as C10; monotonicity |
| C12 | Linear interpolation helper | partial | `Props/Interpolation` | `linear_interpolation`, `searchsorted`; refutation, chord formula where the cell is right |
| C13 | Cubic interpolation helper | proved | `Props/Interpolation` | `cubic_interpolation`; polynomial identities (it is a linear combination of neighbours, not an interpolant in general) |
| C14 | Adams-Bashforth steps are exact for polynomial slopes | proved | `Props/Integrators` | `adams_bashforth_correction`; exactness for polynomials of the degree of each order |
| C15 | Adams-Moulton solver solves its implicit equation | proved | `Props/Integrators` | `adams_moulton_solver`; algebra: the value solves the implicit equation |
| C16 | Implicit Euler step | proved | `Props/Integrators` | `implicit_euler`; algebra |
| C17 | Euler and Heun corrections | proved | `Props/Integrators` | `euler_correction`, `heun_correction`; algebra |
| C18 | Free species keep their distribution when collision terms vanish | partial | `Props/Particle` | collision pipeline of a particle over a run; refutation by computing a step, free case by induction |
| C19 | Gaussian quadrature wrappers | proved | `Props/Integrators` | quadrature wrappers over an abstract rule; finite sums |
| C20 | Momentum grids | proved | `Props/Grids` | linear and logarithmic grids; real powers |
| C21 | Adaptive grid construction terminates | proved | `Props/Grids` | adaptive grid; potential-function termination proof |
| C22 | Scale factor, temperature and x stay consistent | proved | `Props/Params` | `Params`; algebra and induction over updates |
| C23 | Logarithmic stepping is geometric | proved | `Props/Evolution` | `evolve` loop in logarithmic mode; induction over steps |
| C24 | Cosmic time never decreases within a run | proved | `Props/Evolution` | `evolve` loop; induction over steps |
| C25 | Evolution reaches the requested final temperature | proved | `Props/Evolution` | `evolve` loop; well-founded termination from a lower bound on the steps |
| C26 | Temperature update is exact for constant slopes | partial | `Props/Evolution` | `integrand`, `make_step`, `save_params`; induction over steps, exact weights of the first steps |
| C27 | Decoupling is irreversible and freezes the comoving temperature | proved | `Props/Particle` | particle state machine `set_params`, `update`, `in_equilibrium`; invariant over runs |
| C28 | Dynamical regimes progress one way | proved | `Props/Particle` | `regime`; monotone order on regimes over runs |
| C29 | Stored distributions are never negative and equilibrium species are untouched | proved | `Props/Particle` | `update_distribution`; case analysis, induction over runs |
| C30 | Flavour oscillation probabilities are a symmetric stochastic matrix | proved | `Props/Oscillations` | oscillation table; trigonometric identities |
| C31 | Oscillations conserve the total collision term | proved | `Props/Oscillations` | `apply_oscillations`; exchange of finite sums |
| C32 | Collision statistics functional: gain minus loss, linearised form | proved | `Props/Collision` | statistics functionals as folds over reactions of any length; induction over the list |
| C33 | Detailed balance | proved | `Props/Collision` | as C32 with thermal occupations; exponentials of the total energy |
| C34 | Pauli-consistent signs of gain and loss | proved | `Props/Collision` | as C32; signs of the factors |
| C35 | Kinematic cut-off means momentum can be conserved | proved | `Props/CutOff` | `in_bounds`, `energy`; existence of plane vectors with the given lengths |
| C36 | First angular kernel D1 | proved | `Props/DFunctions` | `D1`; case analysis on orderings against the integral over sin/cos products |
| C37 | Second angular kernel D2 | proved | `Props/DFunctions` | `D2`; as C36 |
| C38 | Third angular kernel D3 | proved | `Props/DFunctions` | `D3`; as C36 |
| C39 | Zero-momentum kernels are limits of the general ones | partial | `Props/DLimits` | `Db1`, `Db2` and the branches for massless/at-rest particles; limits by explicit polynomials |
| C40 | Collision integrals do not depend on thread scheduling | partial | `Props/Schedule` | parallel loops with private copies, arbitrary schedules; induction over schedules, refutation for scattering |
| C41 | Crossing preserves conserved charges | proved | `Props/Crossing` | `CrossGeneratingInteraction`; induction over lists |
| C42 | Generated reactions are well formed | proved | `Props/Crossing` | as C41; permutations |
| C43 | Matrix element ordering is meaning-preserving | proved | `Props/MatrixElements` | `FourParticleM` ordering, `stack`; finite permutations |
| C44 | Merging duplicate integrals loses no amplitude | proved | `Props/Dedup` | `deduplicate`; induction over the list of integrals |
| C45 | Explicit Interaction objects keep the supplied integrals | proved | `Props/Dedup` | explicit `Interaction`; unfolding, exception |
| C46 | Two-body decay momentum | proved | `Props/Kinematics` | `cm_momentum`; algebra with square roots |
| C47 | Collision arrays match the momentum grid | proved | `Props/Kinematics` | grid cuts and array assembly; list lengths and positions |
| C48 | Decoupling temperature estimate | proved | `Props/Kinematics` | `decoupling_temperature`; real powers, case analysis |
| C49 | A decayed species stays decayed with zero distribution | proved | `Props/Particle` | `has_decayed` and the flag over runs; invariant |
| C50 | QCD transition conserves comoving entropy of relativistic species | proved | `Props/QCD` | `QCD_transition`; real powers |
| C51 | Neutron-proton rates are non-negative and complete | proved | `Props/Kawano` | neutron/proton rates with an abstract positive quadrature |
| C52 | Thermodynamic identities of equilibrium species | proved | `Props/Thermo` | equilibrium thermodynamics: derivative and integral identities |
| C53 | Particle ordering is deterministic | proved | `Props/Selection` | `particle_orderer`; sorting, permutation invariance |
| C54 | Interaction filtering | proved | `Props/Selection` | `interaction_filter`, `particle_filter`; list lemmas |
| C55 | Helium estimate is latched and bounded | proved | `Props/Kawano` | semi-analytic monitor; latch invariant over runs |
| C56 | Equilibrium occupation functions | proved | `Props/Statistics` | Fermi and Bose functions; monotonicity, bounds |
| C57 | Reaction kind classification agrees between Python and C++ | proved | `Props/Selection` | reaction types in Python and C++; arithmetic of sides |
| C58 | Fast-decaying species | proved | `Props/FastDecay` | `Icoll_fast_decay` raises; exceptions as values |
| C59 | Integrals of single kinds | proved | `Props/FastDecay` | last part of `integrate`; exceptions as values |
| C60 | Registered collision integrals per step | proved | `Props/Particle` | registration of integrals per step; induction over runs |
| C61 | Natural units are consistent | proved | `Props/Units` | derived units against the CODATA constants and under rescaling; runs by induction |
| C62 | Identical-particle multiplicity | proved | `Props/Selection` | `CollisionMultiplier3p/4p`; counting |
| C63 | The collision kernel is the averaged squared amplitude, and non-negative | proved | `Props/Amplitude` | `D1..D3` sum against the amplitude averaged over directions, positivity from the average |
| C64 | Four-particle integration limits lose no allowed configuration | proved | `Props/Limits` | outer and inner limits of the four-particle integral; every allowed configuration is inside |
| C65 | Three-particle integration limits are exact | proved | `Props/Limits` | limits of the three-particle integral against the on-shell condition |
| C66 | Creation cut-offs drop only forbidden momenta | proved | `Props/BalanceStep`, `Props/Kinematics` | creation cut-offs; Lorentz boosts |
| C67 | Meson used to choose the grid | proved | `Props/Kinematics` | meson picked by `searchsorted(...) - 1` |
| C68 | Temperature derivative in the nuclear-network table | proved | `Props/Kawano` | `T_derivative` column of the nuclear table; algebra of finite differences |
| C69 | The temperature equation conserves energy | proved | `Props/Master` | `integrand` (dx/dlna) with equilibrium species; derivative of the energy density |
| C70 | Energy conservation with non-equilibrium species in linear mode | partial | `Props/Master`, `Props/Units` | as C69 with non-equilibrium species in linear mode; refutation |
| C71 | Comoving temperature of an equilibrium plasma never decreases | proved | `Props/Master` | as C69; signs of numerator and denominator |
| C72 | The two quadratures of the massive temperature terms agree | proved | `Props/Planck` | radiation and intermediate formulas; change of variables in the integrals |
| C73 | Entropy and pressure of non-equilibrium species | proved | `Props/Entropy` | NonEq entropy and pressure against integrals |
| C74 | H-theorem for the collision functional | proved | `Props/Entropy` | collision functional with entropy weights; inequality (x-y)log(x/y) >= 0 |
| C75 | Closed radiation formulas are the momentum integrals | proved | `Props/Planck` | radiation formulas against Bose/Fermi integrals (zeta values) |
| C76 | SI units are mutually consistent | partial | `Props/Units` | SI units; refutation with the size of the discrepancy |
| C77 | The recorded table satisfies the expansion equations | proved | `Props/History` | recorded rows of a run against finite-difference equations; induction over the rows |
| C78 | Which temperature the density and N_eff columns belong to | proved | `Props/History` | columns of a row traced through `make_step`/`save_params` |
| C79 | A density passed to Params makes the universe unusable | proved | `Props/History` | `Params` constructor; attribute error |
| C80 | Oscillations use the mixing angles in matter | partial | `Props/MatterAngle` | matter mixing angles against diagonalisation of the Hamiltonian |
| C81 | State of a particle after it joins a universe | proved | `Props/ParticleInit` | `set_params`/`init_distribution` when a particle is added |
| C82 | Fast-decaying species decay exponentially | proved | `Props/ParticleInit` | `update_distribution` with `fast_decay`; exponentials over a run |
| C83 | Looking up a distribution is exact for thermal shapes | proved | `Props/ParticleInit` | `particle.distribution` against the stored spectrum |
| C84 | What the kinds of a collision integral mean | proved | `Props/Integrand` | integrand kinds of the C++ code against gain/loss terms |
| C85 | The four-particle integrand is the phase-space integrand | partial | `Props/Integrand` | four-particle integrand; average over directions of the squared amplitude |
| C86 | Two-body decays happen at the textbook rate | proved | `Props/DecayRate` | `ThreeParticleIntegral.integrate` with exact quadrature against the two-body rate with time dilation |
| C87 | What one species loses the others gain | proved | `Props/Exchange` | integrals of all species of one reaction against one another; change of the order of integration |
| C88 | Four-particle collision terms are the textbook ones, whatever the unit of momentum | proved | `Props/Normalisation` | `FourParticleIntegral.integrate` with exact quadrature; scaling of limits, kernels and integrals |
| C89 | Three-body decays happen at the Fermi rate | proved | `Props/FermiRate` | `FourParticleIntegral.integrate` for a decay into empty massless states; explicit phase-space integral |
| C90 | Every registered integral enters the collision term once, with the right part treated implicitly | proved | `Props/Universe` | the branch of `calculate_collision_integral` without fast decay; results of `integrate3`, `integrate4` shown to have the shape of their kind, sums by induction over the list |
| C91 | All collision terms of a step are computed from one state | proved | `Props/Universe` | loop of `calculate_collisions` over all particles; loop invariant over the positions, concrete universe for the refutation |
| C92 | Every particle of a universe evolves by the single-species step | proved | `Props/Universe` | steps 1–4 of `integrand` for all particles; simulation of every particle by `particleRun` |
| C93 | A two-body decay and its inverse conserve particle numbers and energy | proved | `Props/Balance`, `Props/BalanceStep` | loops of all three species with exact quadrature; limits shown to be the full kinematic region, the three integrals rewritten over one set of events in the energies of the products (Fubini, translation); stored and thermal spectra shown measurable and bounded; `integrate` by the strict form of C66 and the change to comoving momenta |
| C94 | Interpolated collision integrals on fine grids | proved | `Props/Resample` | `interpolation_4p` and scipy's linear `interp1d` inside `integrate`; monotonicity of `searchsorted` of the nodes, cell by cell; the single node as a refutation |
| C95 | The recommended grids are usable and as fine as asked | proved | `Props/GridParams` | all `grid_resolution_*`, `grid_params_*` with nan as `none`; case analysis over the thresholds, numerical bounds on π, log 10 and the constants of the lepton spread |
| C96 | A reaction is skipped for all its participants or for none | partial | `Props/Skip` | `Neglect4pInteraction`, `Neglect3pInteraction` on a reaction in the order of `reactions_map`; case analysis, refutation for the hot heavy neutrino |
| C97 | The momentum cut of scattering and decay integrals does not depend on unrelated earlier work | partial | `Props/Skip` | sequence of `store_energy` and grid cuts threading the environment variable; induction over the sequence, refutations with witnesses |
| C98 | The declared interactions conserve charge and lepton flavour | partial | `Props/Library` | the interaction tables of `library/SM.py`, `library/NuMSM.py` and the particle templates as functions; charge as an arbitrary additive function, balance of each declaration, transported to the generated reactions with C41; failing declarations characterised exactly |
| C99 | Every participant of a declared reaction receives its integral | partial | `Props/Owners` | `reactions_map` on each declaration through C42; a leg leads iff it is an incoming particle after crossing; completeness up to conjugate declarations, refutations for quark channels and kaon, rho, omega decays |
| C100 | Meson decay chains are complete and counted once | partial | `Props/Chains` | `meson_interactions` as a fold over the primary mesons with its `already_there` checks; invariant over the fold relating the list built to a decay table and a count of descents; refutation with an ancestor declared first |
| C101 | Declared decays have the textbook widths | partial | `Props/Declared`, `Props/SterileWidths`, `Props/Widths` | matrix elements of the declarations through `reactions_map`, crossing, `drop_duplicates` and the filters: a total coefficient invariant under merging; with C86, C89 for the rates; refutation for charged vector mesons |
| C102 | Three-body decays conserve particles and energy | proved | `Props/Balance4`, `Props/Balance4Step` | `integration4Exact`, `integrate4` of Model/Assembly.lean; the reaction of the products is `viewOf`/`viewMs` of that of X. Lemmas/Phase4.lean: the triple integral of the density of events over energies in the four orders (Fubini, changes of variables); Props/Balance4.lean: each array is (p E)^-1 times an inner double integral of the same density (`value_decay`, `value_product`), whence `C102_additive` for every quantity additive in the decay, `C102_conservation` (numbers, energy), `C102_spectra` (from stored or thermal spectra); Props/Balance4Step.lean: `C102_integrate` with the grid cuts, the split A + f B (`distribution_on_grid`) and the constants. |
| C103 | All participants of a process feel it equally | partial | `Props/TermsLib`, `Props/TermsTotal` | Props/Terms.lean, Props/TermsLib.lean, Props/TermsTotal.lean. The reactions of a declaration are put in bijection with the choices of a leading leg and of the legs that stay with it (crossings_perm), which gives the coefficient of every class of integrals with the same particle and the same species on each side (coeffIn_generated); merging keeps it (coeffIn_dedup). The filters and the multiplier depend on the class only. C103_* state the weights for scattering, neutral and charged currents, C103_one_declaration that no two declarations concern the same process. Dirac species only. |
| C104 | Scatterings of two particles conserve particles and energy | proved | `Props/BalanceScat`, `Props/BalanceScatStep` | Lemmas/PhaseScat.lean: the triple integral of the density of events over three of the four energies in each order (Fubini, reflections, translations) (`totals_scat`). Props/BalanceScat.lean: each array is (p E)^-1 times an inner double integral of the same density with indicators of the grids of its own side; `C104_totals` gives the exact total of each species, `C104_conservation` the balances, `C104_confined` a sufficient condition for confinement, `C104_spectra` the version for stored or thermal spectra. Props/BalanceScatStep.lean: `C104_integrate` with the cut grids, the split A + f B and the constants. |
| C105 | Decays never decrease the entropy | proved | `Props/EntropyDecay`, `Props/EntropyStep` | Props/EntropyDecay.lean: the weighted totals of C93 and C102 for arbitrary weights (`C93_totals`, `C102_totals`: sum over species = integral over all events of q_X - sum of q_products times the density of events), with the derivative of the entropy per mode as weight (`entropyWeight`). Each event contributes (log gain - log loss)(gain - loss) times the kernel (`flux_entropy`), the kernel being an average of amplitudes (`kern_nonneg`, from C63). Equality: a non-negative density with vanishing integral is zero almost everywhere, then all totals with indicator weights vanish (`vanish_of_totals`). `partly_stored`, `partly_thermal` show that tables and thermal spectra meet the hypothesis, also beyond the end of the grid. Props/EntropyStep.lean: the same for `integrate` (`C105_integrate_two_body`, `C105_integrate_three_body`), through `decay3_returns`, `decay4_returns` and the change of variables to comoving momenta. |
| C106 | Standard Model processes are felt equally by all participants | proved | `Props/TermsSM` | Props/TermsSM.lean: the crossings of a declaration are counted as divisions of its legs with a marked leg (`countIn_splits`); a declaration and its conjugate (for neutrino scattering and annihilation the same one, legs exchanged) let every leg lead exactly once, so a species is counted as often as it occurs (`conjugate_count`). Charged currents: the sum over ordered pairs of families is symmetrised (`lepton_sum`). The multiplier is one for these processes (`multOf_light`, `no_decay`). The weight is specified by `processWeight`. |
| C107 | Standard Model scatterings together conserve energy and particle number | proved | `Props/TotalsSM` | Lemmas/CrossAmp.lean, CrossAmpSM.lean: the amplitude which a generated integral hands to the C++ code is that of its declaration with the legs renumbered (`library_amp`). Lemmas/CrossFamily.lean: shape of all generated integrals (`library_sound`). Lemmas/CrossKern.lean: the sum over the crossings with given participants is symmetric under exchange of the two sides and of the two particles of a side (`ampBalanced_of`). Props/TotalsSM.lean: with this the balance of a family of scatterings (C104) applies to the whole list (`C107_totals`); `C107_only_scatterings`, `C107_spectrum_ends`. The example has an electron, a muon and two neutrinos, with spectra that end inside the grids. |
| C108 | Declared matrix elements are those of the Fermi theory | proved | `Props/Fermi`, `Props/FermiDeclared`, `Props/FermiEvents` | Lemmas/Dirac.lean: the specification: gamma matrices (`gam_clifford`), vertices, `spinSum`, amplitudes with spinors (`fermiAmp`), complete sets of spinors (`SpinComplete`, which exist on the mass shell: `complete_exists`), traces evaluated for arbitrary momenta (`fermiSq_eq`), sum over spins = traces (`fermiSq_spins`), crossing of a leg (`spinSum_cross`), Fierz identity and identical particles (`fierz`, `identical`). Props/Fermi.lean: each declaration is compared with the trace formula; crossing through C43; refutations by explicit momenta. Props/FermiDeclared.lean: which reactions are declared (`C108_declared`), couplings, and `C108_no_effect` through the sum over all assignments of legs (`generated_amp`). Props/FermiEvents.lean: what all generated integrals of a declaration feed to one event is the sum of the squared amplitudes of its leg assignments (`C108_events`); with the amplitudes of Dolgov's tables for one and two flavours (`C108_one_flavour`, `C108_two_flavours`). |
| C109 | Standard Model scatterings never decrease the entropy | proved | `Props/SecondLaw` | Lemmas/Angles.lean: four vectors of given lengths and vanishing sum, parametrised by the length of k0 + k1 and the angle between two planes; all scalar products and products of two of them averaged in closed form. Lemmas/EventKernel.lean: the averages of the code agree with these for every pairing (`avg_all`); the amplitude of an event is the average of the squared Fermi amplitude (C108), a sum of squares, hence not negative (`weakNonneg_avg`). Lemmas/EventsLaw.lean: production of entropy by a family of scatterings, event by event (`event_law`, `events_law`). Props/SecondLaw.lean: `C109_configurations`, `C109_directions`, `C109_nonneg`, `C109_entropy`, `C109_pauli`. Confined spectra vanish at the end of their grids, where the entropy per particle is infinite; hence the floor eps. |
| C110 | Decay products of the primary interactions decay | partial | `Props/Secondary` | `Model/Secondary.lean` on top of the chains of C100: the count of outgoing legs, the declarations, the filter on the type of reaction and the kinds. Exact lists of declarations, closure under decay, the reactions kept (via C42) and, for open decays, the kept integral itself. Fails: with taus and pions but no muons the lepton interactions are declared twice (`C110_twice`); four-particle integrals of these kinds raise (`C110_raises`). |
| C111 | All Standard Model reactions together conserve energy and never decrease the entropy | proved | `Props/DecaysSM` | Lemmas/DecayLegs.lean, SameKernel.lean, DecayFamily.lean: what a charged current declaration generates besides scatterings; with the declaration of the exchanged families it is nothing or the four integrals of one decay (`cc_decays`, `lepton_decays`, `C111_decay_member`), whose matrix elements have the same kernel although their orders are written differently. Lemmas/DecayLaw.lean: the weighted totals of C102 for the arrays of `integrate` (`decay4_law`), zero for additive weights, bounded below for the weight of the entropy (C105). Lemmas/DecayRuns.lean: the runs of the generated integrals meet the hypotheses, multiplier one. Props/DecaysSM.lean: `C111_decays`, and `C111_totals` together with C107 and C109 for the same arrays. |
| C112 | Elastic processes conserve the number of every species separately | proved | `Props/SumRules` | Model/SumRules models the filter of the script. Every amplitude of an event comes from reactions with the sides of the event, so the elastic part of a balanced list is balanced (totalAmp_elastic, elastic_balanced); list_laws then applies with the number of one species as the conserved quantity. Existence of kept integrals from the weights of C106. |
| C113 | A species in a thermal bath relaxes towards its own equilibrium | proved | `Props/Relaxation` | Lemmas/LoopRelation.lean: two runs of the momentum loop over the same momenta with the same limits are related entry by entry if the quadratures are, with an invariant of the state of a thread; a loop whose quadratures succeed returns. Props/Relaxation.lean: with the rest in equilibrium F_f = -F_1 / f_eq (from C33), so pointwise and after both integrations A = -f_eq B (`bath_quad4`, `bath_loop4`); the limits are ordered, so B <= 0 (`C63_nonneg` gives non-negative kernels). `C113_relaxation`, `C113_returns`, `C113_stationary`, `C113_three`, `C113_three_returns`, `C113_implicit_step`. |
| C114 | A particle at rest or moving decays into three products with mass at the textbook width | proved | `Props/MovingWidth`, `Props/OneMassWidth`, `Props/RestWidth` | Lemmas/Dalitz.lean: the double integral over two momenta of the kernel of a particle at rest is an integral over the Dalitz region: in energies, `closes` is the indicator of the region where the third momentum closes a triangle (`region_identity` factorises the condition), the inner integral has the length sqrt(E^2-a^2) sqrt(lambda)/s (`inner_length`), and the order of integration and the choice of the two independent products are exchanged by Fubini and reflection (`dalitz_all`, `tri_exchange`). Props/RestWidth.lean: the kernel `Db` at zero momentum in terms of the textbook matrix element (`Db_rest`), then the quadrature, the loop and integrate (`C114_rest`). Lemmas/Boost.lean: for a moving particle the average over the momentum transfer is exchanged with the energy of one product, the transfer is substituted by the rest-frame energy of the partner (`transfer_subst`), and a last Fubini over the symmetric boost relation (`boost_symm`, `boost_fubini`) gives q times the integral at rest (`boost_all`); Props/MovingWidth.lean: the kernel `D` in terms of the same matrix element (`D_moving`), the quadrature, the loop and integrate (`C114_moving`: rate Gamma m/E on the whole grid). Lemmas/OneMass.lean: the integral in closed form with one mass, by two explicit primitives; Props/OneMassWidth.lean: `C114_one_mass`, `C114_one_mass_rate`, and the generator keeps K2 = 0 (`generated_K2`), hence `C114_muon`. |
| C115 | Nothing stale enters a collision term | proved | `Props/Cache` | Model/Cache.lean: integrals with kept attributes (initialize resets, integrate fills and reads), and the loops of the universe threading them. Props/Cache.lean: refinement to the model without memory by an invariant over the loop over particles (integrals of particles not yet visited have no creaction, all grids are those of the species), then induction over the steps (`C115_nothing_stale`); instance with integrate4 (`C115_four_particle`); what a second call without initialize reads (`C115_second_call`). |
| C116 | Annihilation of massive species heats the plasma by the ratio of degrees of freedom | proved | `Props/Annihilation` | Lemmas/Annihilation.lean: the integrals I(2), I(4) as integrals over the energy, differentiated under the integral sign (`shell_hasDerivAt`: d I4/du = -3 u I2), limits at zero and infinite mass, integration by parts I4 = 3 (rho + p) (`entropy_parts`), closed values (`shell_zero`). Props/Annihilation.lean: the program's numerators and denominators in these terms (`stands_sums`), hence theta^3 F(x/theta) is constant (`heats_conserves`) and equal to the entropy by momentum integrals (`plasmaEntropy_eq`); limits from the bounds on F (`C116_heating`, `C116_finite_start`); solutions constructed by inverting w -> w (s/F(w))^(1/3) (`C116_exists`). Idealisation: exact integrals in place of quadratures and the differential equation in place of steps (steps: C24, C77; quadrature branches: C72). |
| C117 | The steps of the universe converge to the solution of the temperature equation, to first order in dy | proved | `Props/Convergence` | Lemmas/Convergence.lean: the Adams-Bashforth weights sum to one, so a step is an Euler step with a slope within O(dy) of the current one (`abSlope_near`); a discrete Gronwall inequality with a bootstrap keeping the rows in the region where the slope is Lipschitz (`steps_error`). Props/Convergence.lean: applied to traces of the loop of evolve (`loop_error`, `C117_convergence`), termination (`C117_completes`), Lipschitz bounds of the plasma slope (`plasmaSlope_lip`, `C117_plasma`), together with C116 the heating seen in the rows (`C117_heats`); lower bound for constant slope (`C117_first_order`). Idealisation: real arithmetic; the slope is within eps of the exact one, where eps stands for the quadrature error. |
| C118 | The column N_eff ends at the number of neutrino species | proved | `Props/NeffEnd` | Props/NeffEnd.lean: the rows after X0 have a T within 1.4 to 1.402 times its initial value (`C117_heats`), the electrons' density is bounded by their entropy and vanishes (`fullEnergy_le`, `shell_tendsto`), N_eff of a row from the density and the temperature of the row before (`C77_table`), then arithmetic (`neff_arith`). The example runs a universe with three neutrino species to its end. |
| C119 | The table in memory and evolution.txt hold the history of the run | proved | `Props/Table` | Model/Table.lean: the loop of evolve on the dynamic array, the dictionary of save_params, savetxt and the exports. Props/Table.lean: simulation of the list model through the representation invariant of C01 (`loopBodyTable_sim`, `evolveLoopTable_sim`, `C119_refines`), invariant about the last written file (`runTable_file`, `C119_interrupted`), scaling of the lines together with C61 (`C119_units`). Idealisation: numbers in the file are exact (numpy writes 19 digits). |
| C120 | Refining the step, the distributions tend to the solution of the kinetic equation | partial | `Props/KineticLimit` | The model of one step of a species (C18, C27) is iterated over sequences whose collision terms may depend on step and state. The Adams–Moulton output is the old value up to O(h) (bounds on the coefficients of all five orders), so that f grows like (1+h)^n; an induction carrying bounds on distribution and history gives an explicit error bound against e^l f0 (C120_limit), the limit (C120_tendsto) and that this is not the solution of any equation with small enough right-hand side (C120_not_solution). C120_total shows that the runs exist; C120_universe carries the bound over to every massless decoupled particle of a universe through C92. Without registered integrals the claim holds (C120_no_integrals_partial). |
| C121 | A run split into two calls of evolve is the same run | partial | `Props/Resume` | Props/Resume.lean, on the loop model of C23-C26. The loop to T1 followed by the loop to T2 is the loop to T2 (evolveLoop_trans, and conversely evolveLoop_through); the explicit step does not read the table (evolveLoop_euler), so the repeated row is harmless (C121_resume_partial, C121_stop_partial). C121_duplicate: the row of the stop is recorded again in every mode, and when the clock agrees. C121_ab_step: exact difference of the first resumed step; C121_ab_refuted: a run of two steps ending elsewhere. |
| C122 | Only thermal spectra balance a reaction | proved | `Props/OnlyThermal` | Props/OnlyThermal.lean, on the integrands of C33-C35. Lookups are continuous (Filled.continuous); the kernel D is positive when the momenta are not aligned (D_pos, from C63); so a vanishing integrand makes the affinities ln((1-ηf)/f) add up to zero (C74_zero_iff) in an open set of events. Lemmas/Invariants.lean: such functions of the energies are affine with a common slope (local Cauchy equation, connectedness); Lemmas/Polygons.lean: every energy of every particle occurs in some event, for all masses. Filled.thermal: the Boltzmann tail is not thermal. Each of C122_scattering, C122_decay_two, C122_decay_three, C122_grid is an equivalence. |
| C123 | A species which has just left equilibrium stays where it is | proved | `Props/Freshly`, `Props/FreshlyTwo` | Props/Freshly.lean. C123_decoupling: what update leaves behind and integrate converts satisfies FreshSp at temperature one. C123_odds: looked up at any momentum such a species has the odds of equilibrium up to a factor which is 1 on the grid and within the last stored occupation of 1 beyond (Boltzmann tail). flux_balance: creation and destruction of an event differ by the product of these factors; C123_scattering integrates this (same double integral as C110), C123_decay and C123_inverse use entry4_decay/entry4_creation of C102 with C96 pointwise. Props/FreshlyTwo.lean: C123_decay_two and C123_inverse_two, zero integrand by bath_point3 inside the limits of C65. |
| C124 | Left alone a neutron decays once per lifetime | proved | `Props/Neutron` | Props/Neutron.lean. C124_closed_form: primitive of the electron spectrum; C124_normalised: rational bounds on the square root and the logarithm; C124_vacuum: the rates with empty states; C124_blocking: monotonicity in the occupations (any PosQuad); C124_late and C124_tendsto: bounds on the integrals by the comoving density and the largest electron occupation, then squeezing. |
| C125 | Densities do not jump when a species changes regime | partial | `Props/Regimes`, `Props/RegimesCut` | Props/Regimes.lean, Props/RegimesCut.lean. C125_dust: the integral as one over kinetic energy, Boltzmann bracket of the occupations, sqrt(1+x) <= 1+x/2, half-integer Gamma functions. C125_radiation: the integral as one over energy, Fermi and Bose moments by zeta sums. C125_intermediate: the tail above 20 T against e^{-20}; C125_jump refutes continuity at the switch to dust for every positive rule exact to degree two. |
| C126 | Densities do not jump when a species leaves equilibrium | proved | `Props/Decouple` | Props/Decouple.lean. C126_decoupling: what update stores (C27_decoupling_step) are samples of the thermal integrands in comoving momentum; substitution y = aT v, tail of the thermal integrals against moments of the exponential beyond R/aT (thermal_tail). C126_massless uses C75, C126_massive C125_intermediate. C126_free_streaming: termwise derivative. |
| C127 | What the parent of a declared two-body decay loses its products gain | partial | `Props/Cross3`, `Props/CrossTotals` | Model/Cross3.lean (generation and merging of three-particle integrals), Props/Cross3.lean, Props/CrossTotals.lean. C127_generated: the generated integrals are one for each leg that can lead (C127_merged: two legs of one species give one integral with twice the constant); C127_returns: each of them, run on the usual path, returns a function determined at every momentum; C127_shares: the gains of the species are in proportion to their shares (number of declarations a leg of which leads, doubled for species with antiparticles), from the balance C93; C127_conserved_partial: equal shares conserve number and energy; C127_library, C127_templates, C127_neutral, C127_pair: which declarations of the library have equal shares; refuted by C127_majorana_refuted, C127_charged_refuted, C127_identical_refuted. |
| C128 | The table handed to the nuclear network holds the cold part of the run | partial | `Props/KawanoFile` | Model/KawanoFile.lean (save_kawano, the log file with its states, export, the module-level particle table of kawano.py), Props/KawanoFile.lean. C128_table: with an open file, the run is that of the plain program and the rows, the lines of s4.dat and of kawano.txt are those of the specification (one per iteration ending at or below T_kawano, read off the states of the plain run); C128_species: whose electrons and neutrinos enter the rates; C128_temperature: which temperature the rates belong to; refuted by C128_folder_refuted, C128_again_refuted, C128_species_refuted; C128_no_file is the general form of the first two. |
| C129 | Quadrature rules from recursion coefficients are exact and interior | partial | `Props/Jacobi`, `Props/Orthopoly` | Model/Orthopoly.lean, Lemmas/Orthopoly.lean (monic polynomials of the recursion and the tridiagonal matrix), Lemmas/Jacobi.lean (structure relations), Props/Orthopoly.lean, Props/Jacobi.lean. eig_banded, solve_banded and solve are parameters with their contracts (orthonormal eigenvectors; a returned vector solves the system), shown to be satisfiable by the spectral theorem. C129_gauss, C129_radau, C129_lobatto, C129_nodes for any functional with the recursion; C129_jacobi, C129_jacobi01: the arrays belong to the weights (orthogonality from the differential equation, first moment from the beta function); C129_rule combines them and gives rules of every order for C19. Refuted for N = 1 by C129_one_refuted; C129_radau says when the caller's array is changed. |
| C130 | Three-particle collision terms are the textbook ones, whatever the unit of momentum | proved | `Props/Normalisation3` | Lemmas/Scale3.lean, Props/Normalisation3.lean. Limits, kinematic factor and integrand of integration_3 under a change of unit; weight 1/lambda at rest and lambda in motion carried through the parallel loop point by point (sw_parallelLoop), the zeros of grid_cutoff_3p and the scaling of fast decays; C130_unit_free, C130_increasing, C130_physical. |
| C131 | The collision term of a particle at rest is the limit of those of slow particles | proved | `Props/Continuity`, `Props/RestLimit` | Props/RestLimit.lean, Props/Continuity.lean. Both limits of the loop tend to the momentum of a decay at rest (limits3_rest), the occupation numbers to those met there (netFlux_rest), the measure of the first energy integrates to 2 p k/m (limits3_energy), so the integral tends to 4/m^2 times the value at rest (quad3_rest, C131_loop), which is the ratio of the two constants (rest_constant). C131_rest for occupation numbers continuous at the momenta concerned, C131_spectra for positive tables and thermal species. |
| C132 | Interpolated spectra have no jumps | proved | `Props/Continuity` | Props/Continuity.lean. Each closed cell and the tail carry a continuous formula equal to the lookup on it (interpCell_lo, interpCell_hi, interpCell_continuousOn); finitely many closed pieces cover the half line. C132_zero_jump: what a stored zero does. |
| C133 | The collision term of a massive product at rest is the limit of slow products | partial | `Props/RestProduct` | Props/RestProduct.lean. Energy window of the loop for a product (limits3_energy_product), the cut at max_2 inactive or empty for slow products according to the side of max_2 on which the recoil momentum lies (parent_energy), shrinking integral (quad3_core of Props/RestLimit.lean), the first entry after the cut of the grid (product_head). Parents on the grid: C133_inside_partial, C133_array_partial, C133_spectra_partial; parents beyond it: C133_beyond, C133_jump. |
| C134 | mod_chebyshev turns modified moments into the orthogonal polynomials of the weight | proved | `Props/Chebyshev` | Model/Chebyshev.lean, Props/Chebyshev.lean. The orthogonal polynomials are constructed from the functional alone (orthoPair, ortho_orthogonal); loop invariant ChebInv: the rows of sig are L(pi_(n-1) p_m), established by cheb_init, kept by cheb_step (mixed_shift, mixed_lower, mixed_diag, ortho_alpha); C134_chebyshev, C134_rule (with C129_gauss), C134_count_refuted. |
| C135 | The sampling quadratures in C++ compute the rules they name and their cache is invisible | proved | `Props/SampledQuad` | Model/SampledQuad.lean, Props/SampledQuad.lean. Telescoping over the panels (sampled_telescope, C135_sampled); invariant CacheOk of the cache (evalCached_ok, trap_loop_ok, C135_trapezium) against the rule trapRule stated without cache; induction over the depth (adaptive_spec, C135_adaptive, C135_adaptive_affine); induction over the doublings (trapLoop_spec, C135_nonadaptive, C135_unassigned_refuted). |
| C136 | The interactions declared by the library do not depend on the unit of energy | proved | `Props/EnergyUnit` | Model/MesonElements.lean, Model/Library.lean, Model/Templates.lean, Props/EnergyUnit.lean. The change of unit is a separate specification (LibAttr.inUnit, LibConst.inUnit, Decl.inUnit). Thresholds compare sums of masses (C136_reactions); each declaration function commutes with the change (C136_leptons, C136_quarks, C136_sterile_leptons, C136_sterile_mesons); induction over the primary mesons for the chains, with the table of elements and the templates (C136_mesons). The loops over quarks and mesons in C136_sterile_loops. |
| C137 | The kind of an integral of a fast decaying species tells whether the species is created or decays | partial | `Props/FastKinds` | Model/FastKinds.lean, Props/FastKinds.lean. The generated reactions are the well formed crossings (C42), whose sides are counted (wellFormed_counts); C137_hadrons_partial for mesons, C137_leptons_partial says exactly for which reactions of leptons the kind is right, C137_leptons_refuted gives the decay of the muon. |

## Modelled code

One line per model definition; the citation is the first sentence of its comment in `lean/Verif/Model`.

### Model/Assembly

* `toC`: `particle_t` / `particle_t3` built by `integrate` (three_particle/__init__.py 70–85, four_particle/__init__.py 127–143): masses, grid and temperature in units of `params.aT`.
* `dofFactor`: Degrees of freedom dividing the constants (three_particle/__init__.py 99–102, four_particle/__init__.py 150–153).
* `constants3`: The array `constant` of the three-particle integral (three_particle/__init__.py 88–107) for `n` momenta: a special value for the first one. (`numpy.repeat` with `n = 0` raises; not modelled, grids are not empty.)
* `constant4`: The scalar `constant` of the four-particle integral (four_particle/__init__.py 147–158); `GF` is `CONST.G_F`.
* `toCM`: `M_t` built from a matrix element (four_particle/__init__.py 162–163).
* `neglect3`: `Neglect3pInteraction` (kinematics.py 280–293).
* `neglect4`: `Neglect4pInteraction` (kinematics.py 295–323).
* `CKind.toInt`: The numbers of `CollisionIntegralKind` (four_particle/cpp/integral.h 28–37).
* `exactQuad3`: The exact integral of the integrand between the limits (the converged value of `gsl_integration_qag`, three_particle/cpp/integral.cpp 525–548).
* `loopCtx3`: `get_reaction_type` and the masses read by the limits, with `max_2`.
* `integration3Exact`: `integration_3` (three_particle/cpp/integral.cpp 477–555) with exact quadrature, the value at rest of 491–494, and an exception of any iteration passed on.
* `Int3`: Everything `ThreeParticleIntegral.integrate` reads: the particles of the reaction with their states, the sum of the matrix elements, attributes of the first particle, limits of the grids, and the quantities of `kinematic
* `Int3.reaction`: The `creaction` of an integral.
* `cutoff3`: `grid_cutoff_3p` (kinematics.py 146–155).
* `integrate3`: `ThreeParticleIntegral.integrate` (three_particle/__init__.py 56–140) with exact quadrature, on the grid of the particle.
* `exactQuad4`: `integrand_1st_integration` and the value of the outer quadrature of `integration` (four_particle/cpp/integral.cpp 542–602, 657–690) with both adaptive quadratures replaced by exact integrals.
* `loopCtx4`: `get_reaction_type` and the masses read by the limits, with `max_3`.
* `integration4Exact`: `integration` (four_particle/cpp/integral.cpp 604–698) with exact quadrature.
* `Int4`: Everything `FourParticleIntegral.integrate` reads.
* `Int4.reaction`: The `creaction` built by `integrate` when there is none (four_particle/__init__.py 127–143).
* `integrate4`: `FourParticleIntegral.integrate` (four_particle/__init__.py 105–205) with exact quadrature, on the grid of the particle, right after `initialize` (no cached `creaction`), for grids not finer than `FOUR_PARTICLE_GRID_RESO
* `sumArr`: Elementwise sum of arrays, `sum(list_of_arrays)`; the empty sum is the number 0, written as the zero array.
* `collect`: The loop of `calculate_collision_integral` (particles/__init__.py 303–322) over pairs of kind and result of `integrate`: the lists `ABs` and `Bs`.

### Model/Cache

* `Kept`: Attributes of an integral that survive a call (boltzmann.py 28, four_particle/__init__.py 99–103).
* `KeptWorld`: The collision integrals of a universe with `integrate` cut at the places where kept attributes are read.
* `initKept`: `self.grids = …`, `self.creaction = None`, `self.cMs = None` (four_particle/__init__.py 99–103).
* `integrateKept`: `integrate` (four_particle/__init__.py 105–205) with what is kept afterwards.
* `initInteractionsKept`: `init_interactions` (evolution.py 215–227) with the kept attributes.
* `outputsKept`: The loop over the registered integrals (particles/__init__.py 303–317).
* `collisionTermKept`: The branch without `fast_decay` (particles/__init__.py 300–339).
* `collideOneKept`: `particle.collision_integral = particle.integrate_collisions()` (evolution.py 238, particles/__init__.py 285–339).
* `collideAllKept`: The loop of `calculate_collisions` (evolution.py 234–238).
* `calculateCollisionsKept`: `calculate_collisions` (evolution.py 229–238).
* `universeStepKept`: Steps 1–4 of `integrand` (evolution.py 286–293).
* `universeRunKept`: Several steps (evolution.py 134–139).
* `integrate4From`: Lines 144–205 of `FourParticleIntegral.integrate` (four_particle/__init__.py) for a given `creaction` and `cMs`; same restrictions as `integrate4`.
* `Limits`: Momentum limits of the two grids kept by an integral.
* `keptFour`: Four-particle integrals as they are called by a universe: `c i l p` is what integral `i` reads in the present state, `lim` the limits of the grids of its second and third particle.

### Model/Chebyshev

* `ChebState`: State of the loop of `mod_chebyshev` (377–384) before the pass `n`: the arrays `alpha`, `beta`, the entries `sig[k + 1, k]` which `np.diagonal(sig, -1)` collects (386), and the rows `sig[n - 2]` and `sig[n - 1]`, the onl
* `chebInit`: Lines 372–375.
* `chebRow`: The row `sig[n]` (378–380): columns `n - 1` to `2N - n`, the rest zero.
* `chebStep`: One pass (378–384).
* `modChebyshev`: `mod_chebyshev(N, mom, alpham, betam)` (340–388) for an integer `N`.

### Model/Collision

* `CParticle`: `particle_t` / `particle_t3` (integral.h 48–56 / 37–45).
* `Reactant`: `reaction_t` / `reaction_t3`.
* `CM`: `M_t` (integral.h 40–47).
* `fLoop`: The loop shared by `F_A` and `F_B` (integral.cpp 141–152, 168–179; three-particle 145–156, 175–186): `side` is the side whose particles contribute `f`.
* `F_A`: `F_A` (integral.cpp 130–155; three-particle 132–159).
* `F_B`: `F_B` (integral.cpp 157–182; three-particle 162–189).
* `F_f`: `F_f` (199–202).
* `F_1`: `F_1` (204–207).
* `F_decay`: `F_decay` (209–212).
* `F_creation`: `F_creation` (214–217).
* `Kind`: `CollisionIntegralKind` (integral.h 28–37).
* `Kind.ofInt`: `CollisionIntegralKind(kind)` followed by the `switch` (integral.cpp 326–347): unknown values take the default branch.
* `kindFactor`: The statistics factor selected by the `switch` (integral.cpp 328–347; three-particle 354–373).
* `occAt`: `distribution_interpolation(specie, p)` (integral.cpp 110–117).
* `inBounds4`: Four-particle `in_bounds` (230–246).
* `lastEnergy4`: Fourth energy (integral.cpp 272–280): `E[3] = -side₃ Σ_{j<3} side_j E_j`.
* `momenta4`: Momenta after 282 (`E[3] ≥ m[3]`).
* `energies4`: Energies after 280.
* `jacobian4`: The Jacobian factor of 286–293.
* `kernel4`: The squared matrix element factor `ds` of 297–315.
* `integrandFull4`: Four-particle `integrand_full` (249–348).
* `inBounds3`: Three-particle `in_bounds` (three_particle integral.cpp 248–265); `std::sort` of three numbers in descending order is written with `max`/`min`.
* `lastEnergy3`: Third energy (three_particle integral.cpp 295–304, 318–327).
* `momenta3`: Momenta after 307 / 330.
* `factor3`: The factor `temp` (291–345); `.ok 0` stands for each of the early returns.
* `integrandFull3`: Three-particle `integrand_full` (268–374).

### Model/Cross3

* `Integral3`: A three-particle collision integral: its particle, reaction and the constants `K` of its matrix elements (boltzmann.py 9–62, three_particle/__init__.py 14–38).
* `similar3`: The test for a similar integral (interactions/__init__.py 243–258).
* `dedupAppend3`: `IntegralDeduplicator.append` (interactions/__init__.py 249–284) for three-particle elements.
* `initIntegral3`: One pass of the loop over the reactions, with `init_integrals` (interactions/__init__.py 107–115, 212–231): the elements are copied; those that are no `FourParticleM` are not relabelled.
* `crossGenerating3`: `CrossGeneratingInteraction.__init__` for three-particle matrix elements (interactions/__init__.py 105–117).

### Model/DFunctions

* `sgn`: `Sgn` (4–6).
* `ordMax`: The `std::swap` prologue (`if (q1 < q2) swap`), used in 115–116, 145–146, 235.
* `ordMin`: Second component of the swapped pair.
* `D1`: `D1` (40–62).
* `D2core`: The expression of `D2` after the swaps (119–125).
* `D2`: `D2` (111–128).
* `D3core`: `D3` after the swaps (148–180).
* `D3`: `D3` (132–181).
* `D`: `D` (184–212).
* `Db1`: `Db1` (215–229): `std::sort` in descending order of three numbers is written with `max`/`min`.
* `Db2core`: `Db2` after the swap (237–242).
* `Db2`: `Db2` (232–245).
* `Db`: `Db` (248–291).

### Model/DynArray

* `DynArr`: Buffer object.
* `empty`: `__init__` (utils.py 173–175 and 231–233): length 0, size 10, buffer of ten zero rows.
* `append`: `append` (utils.py 194–199 and 255–263).
* `extend`: `extend` (utils.py 201–203 and 265–267).
* `truncate`: `truncate` (utils.py 209–211 and 288–290).
* `data`: `data` property (utils.py 205–207 and 269–271), also `Dynamic2DArray.__getitem__` before the final indexing (181).
* `len`: `__len__` (utils.py 177–178, 235–236).
* `column`: `DynamicRecArray.__getitem__` with a column name (utils.py 248–249): the column of the visible part; `col` projects a row on the column.
* `getInt`: `DynamicRecArray.__getitem__` with an integer (utils.py 250–253).
* `get2D`: `Dynamic2DArray.__getitem__` with an integer (utils.py 180–181).
* `appendDict`: `append` of a dictionary (utils.py 256–257): a tuple is built from the listed columns; a missing column raises `KeyError` before the table is touched.
* `Op`: The operations a client can perform on a table.
* `step`: Execute one operation.
* `run`: Execute a sequence of operations.

### Model/Environment

* `PyVal`: Python values occurring as settings.
* `truthy`: Python truth value.
* `Parsers`: Number parsing of the host language.
* `defaults`: `defaults` (environment.py 4–57).
* `convert`: `typ(val)` where `typ` is the type of the first argument (environment.py 65–66).
* `envGet`: `environment.get` (environment.py 60–68); Python `None` is Lean `none`.
* `switch`: `if environment.get(name):` — how the rest of the code reads a switch.
* `getenv`: `utils.getenv` (common/utils.py 102–103).
* `getboolenv`: `utils.getboolenv` (common/utils.py 106–108).

### Model/Evolution

* `Physics`: Everything the loop obtains from the particles, for an arbitrary type `W` of particle states.
* `Row`: One record of `Universe.data` (36–46).
* `Uni`: A `Universe` object (48–71) without the class-level history table.
* `Uni.new`: `Universe.__init__` (48–71).
* `integrand`: `integrand` (269–303).
* `makeStep`: `make_step` (181–197); `ab` = `ADAMS_BASHFORTH_TEMPERATURE_CORRECTION`.
* `saveParams`: `save_params` (305–316).
* `loopBody`: Body of the `while` loop (135–139): step, save, count.
* `evolveLoop`: The `while self.params.T > T_final` loop (134) with an iteration budget; `none` = budget used up.
* `evolveStart`: Lines 126–132 of `evolve`: clock initialisation, first update if the density is unknown, first saved row.
* `evolve`: `evolve` (102–159) with an iteration budget; `sys.exit(1)` (151–153) is `systemExit`.

### Model/FastKinds

* `leptonKind`: The last loop of `sterile_leptons_interactions` (NuMSM.py 207–210) at one integral of the given kind.
* `hadronKind`: The last loop of `sterile_hadrons_interactions` (NuMSM.py 331–337) at one integral of the given kind.

### Model/GridParams

* `npSqrt`: `numpy.sqrt`.
* `pyInt`: `int(x)`: towards zero; nan raises `ValueError`.
* `gridResHNL`: `grid_resolution_HNL` (180–184).
* `gridResNeutrino`: `grid_resolution_neutrino` (186–199).
* `momentumSpread`: `delta_y_meson` (210–211) and `delta_y_lepton` (231–232): difference of the momenta at energies `e ± s`; nan if one of them is below the mass.
* `gridResMeson`: `grid_resolution_meson` (201–216); `not nan > 0` is true.
* `gridResLepton`: `grid_resolution_lepton` (218–234); `min(nan, x)` is nan.
* `gridParamsHNL`: `grid_params_HNL` (236–244) as a function of the decoupling temperature.
* `gridParamsNeutrino`: `grid_params_neutrino` (246–250).
* `gridParamsMeson`: `grid_params_meson` (252–264).
* `gridParamsLepton`: `grid_params_lepton` (266–278).

### Model/Grids

* `orDefault`: `if not v: v = default` for an optional number (222–226, 249–253): `None` and `0` are falsy.
* `Grid`: A grid object: `MIN_MOMENTUM`, `MAX_MOMENTUM`, `MOMENTUM_SAMPLES`, `TEMPLATE`.
* `linspace`: `numpy.linspace(start, stop, num, endpoint=True)`; for `num = 1` the single point is `start`.
* `linearSpacedGrid`: `LinearSpacedGrid` (220–244).
* `logTemplate`: `LogSpacedGrid.generate_template` (262–269), base 1.2. With one sample the code divides zero by zero (nan); the real model gives 0 there, and the theorems ask for two samples.
* `logSpacedGrid`: `LogSpacedGrid` (247–260).
* `heurT`: Temperature assigned to a grid point in `HeuristicGrid` (284).
* `heurNext`: Next (lower) grid point in `HeuristicGrid` (285).
* `heurFirst`: First point of `HeuristicGrid` (275–280); `s` is the unit of time.
* `heurLoop`: The `while grid[-1] > 0` loop (282–285) with a step budget: `none` when the budget is exhausted.
* `heuristicGrid`: `HeuristicGrid` (272–292) with a loop budget; the loop keeps the list reversed already (287).

### Model/Handover

* `fin4`: Position of a particle as the C++ code indexes the reaction.
* `M4.toC`: `M_t(list(M.order), M.K1 / unit, …)` (four_particle/__init__.py 162–163) before the division by `unit`, which is `toCM`.

### Model/Integration

* `reactionTypeSum`: Sum of sides, `get_reaction_type` (351–357; three-particle 377–383).
* `p2MaxDec`: `p2_max_dec` (389–398).
* `scatRad`: Radicand used by `p2_min_scat` / `p2_max_scat` for `m0 ≠ 0` (436–440, 501–505).
* `scatRad1`: Radicand used for `m0 = 0`, `m1 ≠ 0` (453–461, 523–531), with the `temp < 0` guard.
* `p2MinScat`: `p2_min_scat` (421–474).
* `p2MaxScat`: `p2_max_scat` (476–539).
* `innerLimits`: The limits of the inner integral, `integrand_2nd_integration` (542–583): `none` is the early `return 0.`; `dflt` are the limits passed in, used for other reaction types.
* `LoopCtx`: Masses and type of a reaction, constant during the loop, and `max_3`.
* `scatMin1`: Lower limit in the scattering branch (628–635).
* `outerLimits`: One iteration's update of the thread-private `(min_1, max_1)` (621–655); the flag says whether the iteration goes on to integrate (`false` = `continue`).
* `p1Bounds1`: `p1_bounds_1` (three-particle 408–422).
* `p1Bounds2`: `p1_bounds_2` (425–437).
* `p1Bounds3`: `p1_bounds_3` (440–461).
* `p1Bounds4`: `p1_bounds_4` (464–474).
* `LoopCtx3`: Masses and type of a three-particle reaction, and `max_2`.
* `outerLimits3`: One iteration's update of `(min_1, max_1)` for `p0 ≠ 0` (three-particle 499–523).
* `runThread`: The iterations executed by one thread, in its order, from its private copy (`firstprivate`) of `(min_1, max_1)`: list of (index, value stored in `integral[i]`).
* `parallelLoop`: The `omp parallel for` (618–695; three-particle 488–552): every iteration is executed by one thread; the threads write to different entries, so their interleaving is immaterial.
* `ValidSchedule`: A schedule assigns every iteration to exactly one thread.
* `integration4`: `integration` (604–698).
* `integration3`: `integration_3` (three-particle 477–555).

### Model/Integrators

* `eulerCorrection`: `euler_correction` (11–31).
* `heunCorrection`: `heun_correction` (34–48).
* `implicitEuler`: `implicit_euler` (51–68).
* `abCoefficients`: `ADAMS_BASHFORTH_COEFFICIENTS` (71–77).
* `maxAB`: `MAX_ADAMS_BASHFORTH_ORDER` (78).
* `dotZip`: `sum(b * f for b, f in zip(bs, fs))` (89, 111).
* `adamsBashforth`: `adams_bashforth_correction` (81–89).
* `amCoefficients`: `ADAMS_MOULTON_COEFFICIENTS` (92–98).
* `maxAM`: `MAX_ADAMS_MOULTON_ORDER` (99).
* `adamsMoulton`: `adams_moulton_solver` (102–112).
* `Rule`: A quadrature rule on `[-1, 1]`: the pairs (node, weight) of `gauss_legendre.points`, `gauss_legendre.weights` (gauss_legendre.py 6–9).
* `gaussian`: `gaussian` (142–150).
* `remapInterval`: `remap_interval` (153–166).
* `doubleGaussian`: `double_gaussian` (169–176).
* `integrate1D`: `integrate_1D` (115–128), value only; `quad` is the external adaptive integrator, used when FIXED_ORDER_1D_QUADRATURE is off.

### Model/Interactions

* `Attr`: Attributes of a particle used here (particles/__init__.py 30–75).
* `Item`: `IntegralItem` (interactions/__init__.py 21).
* `crossParticle`: `cross_particle` (interactions/__init__.py 119–125).
* `legs`: The legs passed to `itertools.permutations` (interactions/__init__.py 127–146): `zip` truncates to the shorter list, the indices of the right side start at the full `len(particles[0])`.
* `itPerms`: `itertools.permutations`: tuples in the order of the positions chosen.
* `ltSpecie`: `a < b` for particles: `Particle` has no `__lt__`, so Python calls the reflected `b.__gt__(a)` (particles/__init__.py 103–104), which compares names.
* `ltItem`: `a < b` for the named tuples: the first field in which they differ (`==`; identity for particles) decides.
* `sortItems`: `sorted` of items.
* `crossAll`: The tuple `reaction` for one permutation and one position of the arrow (interactions/__init__.py 181–187).
* `reactionOf`: One pass of the inner loop (interactions/__init__.py 181–204): `none` stands for `continue`.
* `storeReaction`: The dictionary update (206–208): a reaction whose key is present is not stored again.
* `reactionsMap`: `reactions_map` (interactions/__init__.py 148–210); dictionaries keep insertion order.
* `Ord4`: The index order `(i, j, k, l)`.
* `M4`: `FourParticleM` (four_particle/__init__.py 16–84).
* `normOrder`: Assignment to `order` (four_particle/__init__.py 57–61).
* `mkM4`: `FourParticleM(K1=…, K2=…, K=…, order=…)` (four_particle/__init__.py 33–40).
* `M4.iadd`: `__iadd__` (four_particle/__init__.py 42–45): the constant `K` is not added.
* `M4.applyOrder`: `apply_order` (four_particle/__init__.py 75–80).
* `posOf`: `map[val]` with `map = {item.index: i for i, item in enumerate(reaction)}` (interactions/__init__.py 221); the last of several equal indices wins.
* `relabel`: The relabelling of one matrix element in `init_integrals` (interactions/__init__.py 219–222).
* `M4.stackable`: `stackable` (four_particle/__init__.py 82–84).
* `Integral4`: A collision integral: its particle, reaction and matrix elements (boltzmann.py 9–62).
* `absorb`: The inner loop over the matrix elements of the old integral (interactions/__init__.py 269–278): `none` if the new element was not absorbed.
* `mergeStep`: One pass of the loop over the new elements (266–281); the second list collects the elements not absorbed.
* `mergeMs`: The loop over the new elements (266–284): elements not absorbed are appended at the end.
* `speciesOn`: Species on one side of a reaction, the contents of the `Counter` (243–247).
* `similar`: The test for a similar integral (254–258): the same particle and equal `Counter`s.
* `dedupAppend`: `IntegralDeduplicator.append` (249–284).
* `dedup`: `IntegralDeduplicator(new_integrals).integrals` (238–241).
* `dedupOpt`: `IntegralDeduplicator(x)` where `x` may be `None` (`for … in None` raises `TypeError`).
* `interactionClassIntegrals`: The class attribute `Interaction.integrals` (interactions/__init__.py 34).
* `interactionInit`: `Interaction.__init__` (interactions/__init__.py 36–38): reads `self.integrals`, not the argument.
* `initIntegral`: One pass of the loop over the reactions in `CrossGeneratingInteraction.__init__`, with `init_integrals` (interactions/__init__.py 107–115, 212–231), for four-particle matrix elements.
* `crossGenerating`: `CrossGeneratingInteraction.__init__` for four-particle matrix elements (interactions/__init__.py 105–117).
* `absorb3`: The same inner loop for `ThreeParticleM` (three_particle/__init__.py 14–38), which has only `K` and no `stackable`: an old element with `K = 0` raises.
* `mergeStep3`: One pass of the loop for three-particle elements.
* `mergeMs3`: Merging for three-particle elements.

### Model/Interpolation

* `bfLoop`: The bisection loop of `binary_find` (integral.cpp 20–27).
* `binaryFind`: C++ `binary_find` (integral.cpp 9–38).
* `searchsortedLeft`: `numpy.searchsorted(grid, x)` on a sorted array: number of leading entries below `x`.
* `searchsortedRight`: `numpy.searchsorted(grid, x, side='right')` on a sorted array.
* `binaryFindPy`: Python `binary_find` (common/__init__.py 376–391), with `MOMENTUM_SAMPLES = len(TEMPLATE)`.
* `energy`: `energy` (integral.cpp 4–6); also `Particle.conformal_energy` (particles/__init__.py 161–173).
* `interpCell`: The interior case of `distribution_interpolation` (integral.cpp 68–106) and of `interp` (common/__init__.py 412–440).
* `lookupAt`: The part of `distribution_interpolation` after the grid search (integral.cpp 55–106).
* `distributionInterpolation`: C++ `distribution_interpolation` (integral.cpp 41–108).
* `interpPy`: Python `interp` (common/__init__.py 394–440).
* `linearInterpolation`: `linear_interpolation(function, grid)(x)` (common/__init__.py 307–330).
* `cubicCell`: The cubic formula (common/__init__.py 364–371).
* `cubicInterpolation`: `cubic_interpolation(function, grid)(x)` (common/__init__.py 333–373).

### Model/Kawano

* `KEnv`: The module level quantities: `q`, `m_e` (kawano.py 18–20), the global `a` (22), the two distributions (28–30).
* `ye`: Electron momentum `numpy.sqrt(E_e**2 - (m_e * a)**2)` (e.g. kawano.py 66).
* `rate1`: `_rate1` (kawano.py 60–68): n + ν_e → e + p.
* `rate2`: `_rate2` (kawano.py 71–79): e + p → n + ν_e.
* `rate3`: `_rate3` (kawano.py 82–91): n → e + ν_e' + p.
* `rate4`: `_rate4` (kawano.py 94–102): e + ν_e' + p → n.
* `rate5`: `_rate5` (kawano.py 105–113): n + e' → ν_e' + p.
* `rate6`: `_rate6` (kawano.py 116–125): ν_e' + p → n + e'.
* `jobs`: The list of integrands and bounds (kawano.py 135–142).
* `baryonicRates`: `baryonic_rates` (kawano.py 128–149); `norm` is `CONST.rate_normalization`, `pa` is `particles.neutrino.params.a`.
* `kawanoDTdt`: `dTdt` of `Universe.save` (evolution.py 329–332).
* `kawanoRow`: The row appended to `kawano_data` (evolution.py 334–346); columns in the order of `kawano.heading` (kawano.py 156–169).
* `Monitor`: Attributes the monitor sets on the universe; `none`: not set (`hasattr` false).
* `equilibrationLost`: `neutron_equilibration > 10 or < 0.1` (semianalytic.py 15–16) for numpy floats: a zero denominator gives nan (both tests false) or an infinity (one test true).
* `monitorNeutron`: First block (semianalytic.py 10–18).
* `monitorDeuterium`: Second block (semianalytic.py 20–22); `Tbbn` is `T_BBN`.
* `monitorEstimate`: Third block (semianalytic.py 24–49); `q` is `universe.kawano.q`, `tau` is the neutron lifetime `885.7 * UNITS.s`.
* `stepMonitor`: `step_monitor` (semianalytic.py 7–60).
* `ratesAsWritten`: Lines 11–14 as numpy executes them: a `dtype` cannot be sliced (`data.dtype[-6:]`), it accepts an integer, a field name or a list of names and raises `TypeError` otherwise.
* `ratesIntended`: Lines 11–14 as meant: the last six columns of the row.
* `monitorRun`: The monitor called once per step (evolution.py 184–185).

### Model/KawanoFile

* `LogFile`: `kawano_log`: `None` (evolution.py 31), a file open for writing with its lines (76), or a closed file (172).
* `KSetup`: What the table is computed with: `kawano.q`, `m_e` (kawano.py 18–20), `T_kawano` (16), `CONST.rate_normalization`, `integrate_1D(..)[0]`, the bounds of the grid of the neutrino, the two distributions as functions of the 
* `KSetup.rates`: `baryonic_rates(a)` (kawano.py 128–149) with the species of universe `v`.
* `kawanoUnits`: Units of the twelve columns (kawano.py 156–169).
* `kawanoLine`: `row_repr(-1)` (utils.py 270–284) and a line of `savetxt` (292–302).
* `KUni`: A universe and its output: was a folder given, is `self.kawano` set, `kawano_data`, `kawano_log`, the file `kawano.txt`.
* `KUni.new`: A universe as `Universe.__init__` (48–71) leaves it.
* `KRun`: The history shared by all universes (36–46), and one of them.
* `saveKawano`: `save` (318–351).
* `KUni.writeTxt`: `kawano_data.savetxt` (143–145, 175–176).
* `loopBodyK`: Body of the `while` loop (135–145); `freq` is `export_freq`.
* `evolveLoopK`: The `while` loop (134–145) with an iteration budget; `none` = budget used up.
* `KUni.exportK`: `export` (161–179): the log is closed, `kawano.txt` written.
* `evolveK`: `evolve` (102–159) with an iteration budget.
* `KProc`: The history, the universes, and the global variable `particles` of kawano.py (25): the position of the universe whose species were given last (`none`: not yet set).
* `KProc.initKawano`: `universe.init_kawano(electron=.., neutrino=..)` (evolution.py 73–79, kawano.py 28–30) on the universe at position `i`, with its own species.
* `KProc.source`: Whose species the rates of the universe at position `i` are computed from (kawano.py 67–68, 132, 144).
* `KProc.evolve`: `evolve` on the universe at position `i`.

### Model/Kinematics

* `cmMomentum`: `cm_momentum` (kinematics.py 12–16).
* `KSpecie`: The attributes of a species used by the bounds: `conformal_mass`, whether `mass == 0`, the grid and its `MAX_MOMENTUM`.
* `bounds3Creation`: `three_particle_bounds_creation` (kinematics.py 23–44).
* `Slices`: Result of splitting a grid: leading zeros, evaluated points, trailing zeros.
* `pyZeros`: `[0] * n` for an integer `n`: empty for negative `n`.
* `pySliceFrom`: `l[k:]` for an integer `k` (negative: from the end).
* `gridBounds3`: `three_particle_grid_bounds_creation` (kinematics.py 46–61), with the bounds as arguments.
* `gridCutoff3`: `grid_cutoff_3p` for a creation reaction (kinematics.py 146–155): `none` is the `return False` taken when `slice_2` has no non-zero element.
* `integrate3Array`: How `ThreeParticleIntegral.integrate` uses the slices (three_particle/__init__.py 111–118) for the `Full` kind: `C` is the array of the loop over the points; if `grid_cutoff_3p` returned `False` the unpacking raises insi
* `bounds4Creation`: `four_particle_bounds_creation` (kinematics.py 63–76); `dflt` is `MAX_MOMENTUM_MEV * MeV`.
* `gridCut4`: The cut shared by `four_particle_grid_cutoff_creation`, `_scattering` and `_decay` (kinematics.py 82–88, 101–106, 120–126) for a given upper bound.
* `hnlMaxMom`: `max(numpy.sqrt(e**2 - m**2), dflt)` (kinematics.py 97, 116); the root of a negative number is nan (`none`), and `max(nan, dflt)` is nan.
* `scatteringMaxMom`: Upper bound of the scattering cut (kinematics.py 93–99), `none` for nan.
* `decayMaxMom`: Upper bound of the decay cut (kinematics.py 112–118).
* `gridCut4Nan`: The cut for a bound that may be nan: `searchsorted(grid, nan)` is the length of the grid, nothing is cut.
* `interpPositions`: `interpolation_4p` (kinematics.py 351–359) when it applies: the momenta kept out of `ps` are those at the positions `searchsorted(ps, linspace(ps[0], ps[-1], steps))`.
* `gStar`: `g_star` of `decoupling_temperature_relativistic` (kinematics.py 158–165): the first `if` is not connected to the second one.
* `decouplingRel`: `decoupling_temperature_relativistic` (kinematics.py 157–169).
* `decouplingOf`: `decoupling_temperature` (kinematics.py 171–178) as a function of the relativistic estimate; the flag says whether the environment variable `Relativistic_decoupling` is set.
* `decouplingTemperature`: `decoupling_temperature` (kinematics.py 171–178).
* `mesonBelow`: The meson picked by `grid_resolution_neutrino` / `_meson` (kinematics.py 195–196, 205–206): `meson_masses[searchsorted(meson_masses, mass) - 1]`.
* `mesonsNeutrino`: The meson masses of `grid_resolution_neutrino` (kinematics.py 195), in MeV.
* `mesonsMeson`: The meson masses of `grid_resolution_meson` (kinematics.py 205), in MeV.
* `storeEnergy`: `store_energy` (kinematics.py 347–349): new value of `HNL_ENERGY`, if it is written.

### Model/Library

* `LibAttr`: Attributes of the particle templates read by the library (SM.py 44–453, NuMSM.py 42–69).
* `LibConst`: Constants of the library: `CONST.G_F`, `CONST.g_R`, `CONST.sin_theta_w_2`, `CONST.alpha` (common/__init__.py 51–67), the table `CKM` (SM.py 382–392).
* `Amp`: Matrix elements of a declaration: four-particle elements, or the constant of one three-particle element.
* `Decl`: The arguments `particles`, `antiparticles` and `Ms` of `CrossGeneratingInteraction`.
* `weakM`: `WeakM(K1=…, K2=…, order=…)` (SM.py 17–27).
* `weakConst`: `WeakM(K=…)` with the default order (four_particle/__init__.py 33–40): the constant is not multiplied.
* `sterileM`: `SterileM(theta=…, …)` (NuMSM.py 20–30).
* `neutrinoScattering`: `neutrino_scattering` (SM.py 460–479).
* `neutrinosToLeptons`: `neutrinos_to_leptons` (SM.py 481–510).
* `leptonsCC`: `leptons_CC` (SM.py 512–524).
* `leptonsLeptonsNC`: `leptons_leptons_NC` (SM.py 526–540).
* `combRepl`: `itertools.combinations_with_replacement(l, 2)`.
* `couplingL`: `g_L` of a lepton and a neutrino (SM.py 555, NuMSM.py 172).
* `neutrinoInteractions`: `neutrino_interactions` (SM.py 542–558).
* `leptonInteractions`: `lepton_interactions` (SM.py 560–600).
* `decayChargedPion`: `decay_charged_pion` (SM.py 602–621).
* `decayNeutralPion`: `decay_neutral_pion` (SM.py 623–635).
* `fourMeson`: `four_particle_meson_decay` (SM.py 637–647): the second of the four particles is put on the left.
* `threeMeson`: `three_particle_meson_decay` (SM.py 649–659).
* `baryonsInteraction`: `baryons_interaction` (SM.py 989–999).
* `Chain`: The particles bound by the loops at the head of `meson_interactions` (SM.py 667–704), one field per name, and the photon.
* `Meson`: The eleven names tested by the final loop (SM.py 953–985).
* `Chain.get`: The particle bound to a name.
* `alreadyThere`: `already_there` (SM.py 736–745): some integral of some interaction involves a particle of that name.
* `pi0Decay`: `neutral_pion_decay` (SM.py 747–750).
* `piDecay`: `charged_pion_decay` (SM.py 752–761).
* `withPi`: `if not already_there(inters, 'Charged pion'): charged_pion_decay(inters)`.
* `withPi0`: `if not already_there(inters, 'Neutral pion'): neutral_pion_decay(inters)`.
* `kaonDecay`: `charged_kaon_decay` (SM.py 763–790).
* `kaonLDecay`: `kaon_long_decay` (SM.py 792–819).
* `kaonSDecay`: `kaon_short_decay` (SM.py 821–835).
* `etaDecay`: `eta_decay` (SM.py 837–859).
* `rho0Decay`: `neutral_rho_decay` (SM.py 861–868).
* `rhoDecay`: `charged_rho_decay` (SM.py 870–880).
* `omegaDecay`: `omega_decay` (SM.py 882–896).
* `etaPDecay`: `eta_prime_decay` (SM.py 898–922).
* `phiDecay`: `phi_decay` (SM.py 924–951).
* `mesonDecay`: The body of the final loop (SM.py 953–985).
* `mesonInteractions`: `meson_interactions` (SM.py 661–987) for the given primary mesons, in their order.
* `sterileScattering`: `sterile_active_scattering` (NuMSM.py 74–97).
* `sterileNC`: `sterile_active_to_leptons_NC` (NuMSM.py 99–121).
* `sterileCC`: `sterile_active_to_leptons_CC` (NuMSM.py 123–143).
* `sterileLeptons`: `sterile_leptons_interactions` (NuMSM.py 145–212), without the removal of single integrals (162–164, 182–186, 202–204) and the change of kinds (207–210).
* `sterileQuarkNC`: `sterile_quark_neutral` (NuMSM.py 241–267).
* `sterileQuarkCC`: `sterile_quark_charged` (NuMSM.py 269–286).
* `sterileQuarks`: `sterile_quark_interactions` (NuMSM.py 216–239); `none` if a neutral channel fails.
* `neutralScalar`: `neutral_scalar_meson` (NuMSM.py 341–359).
* `chargedScalar`: `charged_scalar_meson` (NuMSM.py 361–385).
* `kappa`: `kappa` (NuMSM.py 394–399); other names leave it unbound.
* `neutralVector`: `neutral_vector_meson` (NuMSM.py 387–413).
* `chargedVector`: `charged_vector_meson` (NuMSM.py 416–440).
* `sterileNeutralMesons`: The loop over neutrinos and neutral mesons of `sterile_hadrons_interactions` (NuMSM.py 295–311).
* `sterileChargedMesons`: The loop over charged leptons and charged mesons (NuMSM.py 313–329).

### Model/MesonElements

* `mesonElements`: `matrix_elements` (SM.py 706–735); a missing key (`KeyError`, no caller uses one) gives 0.

### Model/NeutronConst

* `kawanoQ`: `q` (kawano.py 18): neutron mass minus proton mass of library/SM.py 73, 82.
* `kawanoMe`: `m_e` (kawano.py 20): electron mass of library/SM.py 314.
* `rateNormalization`: `CONST.rate_normalization` (common/__init__.py 76).

### Model/Orthopoly

* `jacobiMatrix`: The symmetric tridiagonal matrix handed to `eig_banded` (`lower=False`) as the rows `sqrt(beta)` and `alpha` (orthopoly.py 56–57): entry `(j - 1, j)` is `sqrt(beta[j])`, `beta[0]` is not used.
* `EigBanded`: `scipy.linalg.eig_banded`: eigenvalues and the matrix of eigenvectors.
* `LinSolve`: `scipy.linalg.solve_banded` and `solve`: `none` for a singular matrix (`LinAlgError`).
* `arrayAt`: Entry of an array, for use at positions below its length.
* `gauss`: `gauss(alpha, beta)` (orthopoly.py 37–59).
* `setLast`: `l[-1] = v` in place.
* `lastVector`: The unit vector `(0, .., 0, 1)` times `c` (`f[-1] = c` on `zeros(n)`; 81–82, 113–114).
* `radau`: `radau(alpha, beta, xr)` (62–89): the arrays as the call leaves them (`alphar = alpha` is the same array, 86–87), and the rule.
* `lobatto`: `lobatto(alpha, beta, xl1, xl2)` (92–130), as `radau`; the 2×2 system is solved by `solve` (121–123).
* `RecCoeffs`: What `rec_jacobi` returns: two numbers for `N == 1` (160–162), else two arrays.
* `jacobiNu`: First coefficients (157–158).
* `jacobiAlpha`: `alpha[n]` for `n ≥ 1` (164–166), `beta[1]` (169), `beta[n]` for `n ≥ 2` (167–171).
* `recJacobi`: `rec_jacobi(N, a, b)` (133–173); `arange(1.0, N)` is empty for `N ≤ 1`.
* `recJacobi01`: `rec_jacobi01(N, a, b)` (177–214); for `N == 1`, `d[0]` on a number raises `IndexError`.

### Model/Oscillations

* `oscillationTable`: The table `oscillations` (SM.py 361–377) for given mixing angles.
* `oscillationsMap`: `oscillations_map(MSW_12, MSW_13, matter_effects)` (349–378) at one momentum.
* `OscConsts`: Constants entering `oscillation_parameters`: `CONST.MSW_constant`, `CONST.delta_m12_sq`, `CONST.delta_m13_sq` (common/__init__.py 41–78).
* `oscillationParameters`: `oscillation_parameters` (evolution.py 81–94) at the momentum `y`: the table used in the step.
* `Osc`: One oscillating species: flavour, decoupling temperature and collision integral as a function of the grid index.
* `collOf`: The dictionary `{A.flavour: A.collision_integral for A in particles}` (evolution.py 248): for repeated flavours the last entry wins.
* `mixCollisions`: Lines 242–252 of evolution.py: mixing of the collision integrals.

### Model/Params

* `Consts`: The constants used by `Params`: `UNITS.MeV` (26) and `CONST.M_p` (46); `CONST.G = 1/M_p²` (49).
* `Consts.G`: `CONST.G` (49).
* `ParamsKw`: Keyword arguments of `Params(**kwargs)` (98); `none` = argument absent.
* `Params`: A `Params` object (81–131).
* `falsy`: `kwargs.get(k)` is falsy (128, 130): absent or zero.
* `Params.new`: `Params.__init__` (98–131) with `infer` (133–148).
* `Params.initTime`: `Params.init_time` (150–152).
* `Params.update`: `Params.update` (165–203); quotients are real quotients (zero divisors are excluded in the theorems).

### Model/Particle

* `Species`: What does not change about a species (particles/__init__.py 49–66).
* `Species.eta`: `eta` (69).
* `Species.stat`: `statistics` as a function of energy over temperature (70).
* `PState`: The mutable part of a particle; `ι` names collision integrals.
* `inEq`: `in_equilibrium` (143–146): `(T > decoupling_temperature) * thermal_dyn`.
* `Regime`: The four computation regimes (particles/__init__.py 30–36).
* `regime`: `regime` (115–141); `factor` is the setting `REGIME_SWITCHING_FACTOR`.
* `conformalEnergy`: `conformal_energy` (161–173).
* `eqDistribution`: `equilibrium_distribution(conf_mass=...)` on the grid (376–386).
* `Species.zeros`: `numpy.zeros(MOMENTUM_SAMPLES)`.
* `initDistribution`: `init_distribution()` (388–395) with the default conformal mass `mass * params.a` (175–179).
* `particleUpdate`: `update` (215–253).
* `setParams`: `set_params` (190–205).
* `CNum`: A floating point entry of a collision integral.
* `sanitize`: Lines 260–263: nan becomes 0, any infinity fails the assertion.
* `updateDistribution`: `update_distribution` (255–283) for a species without `fast_decay`; `coll` is the collision integral attribute as computed (its entries may be nan or infinite).
* `updateDistributionFast`: `update_distribution` (255–283) for a species with `fast_decay`: the collision integral is checked and stored but the distribution is the decaying thermal relic (268–275).
* `hasDecayed`: `has_decayed` (common/kinematics.py 376–385): the new state and the answer.
* `particleDistribution`: `distribution(p)` (341–374).
* `collComponent`: One component of the non-fast-decay branch of `calculate_collision_integral` (317–339): the Adams–Moulton solver applied to the interpolated distribution and the last five stored terms.
* `calculateCollision`: `calculate_collision_integral` (288–339) on the own grid, without `fast_decay`.
* `registerIntegral`: `FourParticleIntegral.initialize` (interactions/four_particle/__init__.py 92–103) and `ThreeParticleIntegral.initialize` (interactions/three_particle/__init__.py 45–54): registration with the first particle.
* `particleStep`: Everything `Universe.integrand` (evolution.py 287–294) does to one species without `fast_decay` in one step, oscillations off: update, registration of the integrals of which it is the first particle, collision term (only
* `particleRun`: Several steps in a row (evolution.py 137–150 repeats `integrand`); one `Params` per step.
* `particleStepFast`: The same for a species with `fast_decay`: the collision term is the outcome `icoll` of `Icoll_fast_decay` (particles/__init__.py 297–298), the distribution update is the exponential one.
* `particleRunFast`: Several such steps.

### Model/Process

* `Process`: A process: universes numbered by creation order and the single class-level table.
* `UOp`: Calls made on universe `i`.
* `UOp.owner`: The universe a call is made on.
* `Process.apply`: `universes[i].make_step()` (evolution.py 181–197) or `universes[i].save_params()` (305–316), both using the shared table.
* `Process.run`: A sequence of calls; the first exception ends it.

### Model/Py

* `Err`: Exceptions the modelled code can raise (class only, messages dropped).
* `pyIndex`: Python index normalisation: `i` for `0 ≤ i < n`, `n + i` for `-n ≤ i < 0`, else `IndexError`.
* `pyGet`: `l[i]` for an integer `i`.
* `pySet`: `l[i] = x` for an integer `i`.
* `pySliceTo`: `l[:n]` for an integer `n` (negative `n` counts from the end).
* `pyLast`: `l[-n:]` for a natural `n`: for `n = 0` this is the whole list (`-0 = 0`), otherwise the last `n` elements (all of them if there are fewer).
* `npResize`: `numpy.resize(l, n)`: the flattened input is repeated cyclically; an empty input gives zeros.
* `npDelete`: `numpy.delete(l, i, axis=0)` for an integer `i`.

### Model/Resample

* `interpSteps`: `interpolate` and `steps` (kinematics.py 353–355); `maxMom`, `samples` are those of the particle's grid, `last` is `slice_1[-1]`, `res` is `FOUR_PARTICLE_GRID_RESOLUTION * MeV`.
* `interp1d`: `interp1d(xs, ys, kind='linear')(x)` of scipy (`_call_linear`, `_check_bounds`; external code, taken from its documentation and source): out of range raises `ValueError`; the cell is `searchsorted(xs, x).clip(1, len(xs) 
* `resampled`: The loop over the selected momenta followed by the interpolation back to all momenta `ps` (four_particle/__init__.py 169–179, 182–186); without interpolation the loop over `ps`.
* `integrate4Fine`: `FourParticleIntegral.integrate` as in `integrate4`, with `interpolation_4p` included.

### Model/SampledQuad

* `PanelRule`: Rules of a panel `[x, x + h]` (simpson.cpp 15–55).
* `PanelRule.apply`: `m(f, x, h)` (simpson.cpp 21–32, 41–44, 51–54).
* `integrateSampled`: `integrate_sampled(f, a, b, steps, m)` (simpson.cpp 4–12).
* `QCache`: The `std::map` of values already computed: a partial function.
* `evalCached`: `F(x)` (trapezoidal.cpp 5–18): with a cache the stored value if there is one, else the new value, which is stored.
* `trapStep`: One pass of the loop (trapezoidal.cpp 22–24).
* `cppTrapezium`: `trapezium(f, a, b, n, cache)` (trapezoidal.cpp 3–26) for `n ≥ 2` (the callers use 8, 15, and 20 or more; for `n = 0` the unsigned `n - 1` would wrap).
* `Converged`: `fabs(error) <= epsabs || fabs(error / result) <= epsrel`; a quotient by zero is infinite or nan, and the comparison false.
* `adaptiveTrap`: `adaptive_trapezium_helper` (trapezoidal.cpp 29–50); the first argument is `limit - n`, zero if `n >= limit`.
* `adaptiveTrapezium`: `adaptive_trapezium` (trapezoidal.cpp 53–59): `result` and `error`, with a fresh cache.
* `trapLoop`: The loop of `nonadaptive_trapezium` (trapezoidal.cpp 68–78) with `n = m + 2` points, the result `old` for them, and the values of `result` and `error` so far (`none`: not assigned).
* `nonadaptiveTrapezium`: `nonadaptive_trapezium` (trapezoidal.cpp 62–84).

### Model/Secondary

* `produced`: `species[name]` (NuMSM.py 458–461): the outgoing legs of that name in all integrals of the primary interactions (given by their reactions).
* `secondaryDecls`: The interactions declared (NuMSM.py 463–488).
* `kindCreation`: `kind_creation` (NuMSM.py 448–453).
* `kindDecay`: `kind_decay` (NuMSM.py 448–453).
* `Decl.kept`: The integrals left in one interaction and their kinds (NuMSM.py 490–497).

### Model/Selection

* `ltPart`: `(m, p) < (m', p')` for the pairs built by `particle_orderer` (utils.py 164–165).
* `particleOrderer`: `particle_orderer` (utils.py 163–166): `sorted(…, reverse=True)` is the stable sort in descending order; here the insertion sort for `x ≥ y := not x < y`.
* `particleFilter`: `particle_filter` (utils.py 158–160).
* `FInt`: What `interaction_filter` reads of a collision integral: the reaction as pairs of species name and side (`integral.reaction`), and an identifier of the object.
* `keepFirst`: Condition of the comprehension for `first_only=True` (utils.py 148–150); an empty reaction has no element 0. `rt` is the argument `reaction_type`, whose entries are integers or `None`.
* `keepAll`: Condition of the comprehension for `first_only=False` (utils.py 152–154).
* `compM`: A list comprehension whose condition can raise.
* `filterIntegrals`: The body of the loop of `interaction_filter` (utils.py 147–154) on one list of integrals.
* `interactionFilter`: `interaction_filter` (utils.py 145–155) on the lists `inter.integrals` of all interactions.
* `pyCreation`: `reaction_type.CREATION` (utils.py 128–132) of the sum of sides.
* `pyScattering`: `reaction_type.SCATTERING` (utils.py 133–137).
* `pyDecay`: `reaction_type.DECAY` (utils.py 138–142).
* `Kin4`: `Kinematics` of the four-particle extension (integral.h 21–25); a `static_cast` from another value matches none of the enumerators.
* `kin4`: `get_reaction_type` (four_particle/cpp/integral.cpp 351–357).
* `Kin3`: `Kinematics_3` of the three-particle extension (integral.h 19–22).
* `kin3`: `get_reaction_type` (three_particle/cpp/integral.cpp 377–383).
* `countSide`: `Counter(item.specie for item in reaction if item.side == s)[x]` (kinematics.py 329–330).
* `sumSides`: `utils.reaction_type(interaction).sumsides` (utils.py 126–127).
* `hnlName`: Name of the heavy neutral lepton tested for in kinematics.py.
* `multiplier4`: `CollisionMultiplier4p` (kinematics.py 325–335).
* `multiplier3`: `CollisionMultiplier3p` (kinematics.py 337–345).
* `CKind`: `CollisionIntegralKind` (four_particle/cpp/integral.h 28–37).
* `Scaled`: The value of `kinematics.scaling`: `False` or an array.
* `Scaled.truth`: Truth value: an array of more than one element raises `ValueError`; an empty one is false (numpy warns); one element counts as that number.
* `IntOut`: What `integrate` returns: one array or a pair.
* `scaling`: `kinematics.scaling` (kinematics.py 361–374).
* `returnFunction`: `kinematics.return_function` (kinematics.py 17–20).
* `mulArr`: Elementwise product of arrays of the same length.
* `integrateEnd`: The common end (four_particle/__init__.py 196–205 and the same lines of the three-particle file); `const` is the array `constant` (a scalar in the four-particle case), `dist` the particle's `_distribution`.
* `integrateTail4`: four_particle/__init__.py 190–205: `if not scaled_output: …` is evaluated outside any `try`.
* `integrateTail3`: three_particle/__init__.py, from `scaled_output = …`: `try: if not scaled_output: return … except: fullstack = scaled_output`.
* `RTArg`: Python objects handed to `utils.reaction_type`: a collision integral (has the attribute `reaction`) or a bare tuple of items (has not).
* `reactionTypeInit`: `reaction_type.__init__` (utils.py 126–127).
* `FDInt`: One collision integral of a fast decaying particle: its reaction and the outcome of `integral.integrate`.
* `fdIntegrate`: First loop (kinematics.py 392–396).
* `fdScale`: Second loop (kinematics.py 412–427): `scaleOne` stands for the body after the test of line 414, given the sum of sides found there.
* `icollFastDecay`: `Icoll_fast_decay` (kinematics.py 387–441): `combine` stands for the sums at the end.
* `Part`: A particle of the universe: fixed and mutable part.
* `dofOf`: Contribution of one particle in `entropic_dof_eq` (common/__init__.py 158–162).
* `entropicDof`: `Params.entropic_dof_eq` (common/__init__.py 154–163).
* `QUni`: The part of the universe touched by the transition; rows of `data` are of type `Row`, interactions of type `γ` (compared by identity).
* `addParticles`: `add_particles` (evolution.py 199–205).
* `quarkNames`: The names removed (evolution.py 382–386).
* `removeAll`: `for inter in quarkic: interactions.remove(inter)` (evolution.py 398–400).
* `qcdTransition`: `QCD_transition` (evolution.py 377–404).

### Model/Skip

* `SkipInfo`: What the tests for negligible reactions read from a species: `decayed`; density over initial density below the threshold (kinematics.py 302–307); `fast_decay` with `num_creation == 0`; has `fast_decay`; the name `'Steril
* `sideSum`: Sum of the sides.
* `skip4`: `Neglect4pInteraction` (kinematics.py 296–323) for the integral of the first particle of `lhs`.
* `skip3`: `Neglect3pInteraction` (kinematics.py 281–294).
* `CutCall`: One call of `FourParticleIntegral.integrate` that is not skipped, as far as the cut of the grid is concerned.
* `cutCall`: `store_energy` followed by `grid_cutoff_4p` (four_particle/__init__.py 165–167, kinematics.py 89–143) for a scattering or a decay: the new value of `HNL_ENERGY` and the upper bound.
* `cutRun`: A sequence of such calls in one process: the final variable and the bounds.

### Model/Statistics

* `Fermi`: `Fermi` (4–10).
* `Bose`: `Bose` (13–19); at `e = mu` the code divides by zero (inf), excluded in the theorems.

### Model/SterileFilters

* `Decl.integrals`: `CrossGeneratingInteraction(…).integrals` of a four-particle declaration (interactions/__init__.py 105–117).
* `headName`: `integral.reaction[0].specie.name`; a generated reaction is never empty.
* `pairOf`: The two declarations of a list comprehension over two cases.
* `keepScattering`: Neutrino scattering (NuMSM.py 152–166): from the second declaration the integrals of species that have one in the first are removed.
* `countLeft`: `Counter([item.specie.name for item in reaction if item.side == -1])[name]`.
* `keepNC`: Neutral current (NuMSM.py 171–187): for muons and taus the integrals of other species than the heavy neutrino with exactly one such lepton on the left are removed, then those of the lepton in the second declaration.
* `namedSideSum`: `sum([item.side for item in reaction if item.specie.name in [other_lep.name, sterile.name]])`.
* `keepCC`: Charged current (NuMSM.py 192–205): only the integrals with the second lepton and the heavy neutrino on opposite sides are kept.
* `keepLepton`: One lepton and one neutrino in `sterile_leptons_interactions` (NuMSM.py 169–205).
* `sterileLeptonIntegrals`: `sterile_leptons_interactions` (NuMSM.py 145–212): all integrals, in order.

### Model/SumRules

* `elastic`: The condition under which an integral is kept (tests/conservation_sum_rules/__main__.py 46–50): the `Counter` of the species on side −1 equals that on side +1. Particles are compared by identity, as in python; a `Counter
* `elasticOnly`: `interaction.integrals = integrals[num]` for every interaction (tests/conservation_sum_rules/__main__.py 42–53), given the integrals of each.

### Model/Table

* `tableColumns`: `columns` of `Universe.data` (evolution.py 36–46; utils.py 223).
* `tableUnitNames`: `unit_names` (evolution.py 36–46; utils.py 228).
* `tableUnits`: `units` (evolution.py 36–46; utils.py 229).
* `Row.ofTuple`: A record from the tuple of its columns (utils.py 227, 262: the structured dtype).
* `Row.tuple`: The view of a record as a tuple of numbers (utils.py 300).
* `Row.zero`: A row of `numpy.zeros` (utils.py 233).
* `Uni.record`: The dictionary of `save_params` (evolution.py 305–316) for known `rho` and `S`.
* `saveTable`: `save_params` (305–316) on the table.
* `makeStepTable`: `make_step` (181–197): `list(self.data['fraction'][-MAX_ADAMS_BASHFORTH_ORDER:])` reads the column of the table.
* `TextTable`: Contents of a text file written by `savetxt`.
* `saveText`: `savetxt` (utils.py 292–302).
* `Running`: A running universe: table, universe, and the file `evolution.txt` (`none` if not yet written).
* `Output`: `folder` given or not, `export_freq` (22), and the units.
* `loopBodyTable`: Body of the `while` loop (135–143): step, save, count, and the file every `export_freq` steps.
* `evolveLoopTable`: The `while self.params.T > T_final` loop (134–143) with an iteration budget; `none` = budget used up.
* `evolveStartTable`: Lines 126–132 of `evolve`.
* `exportTable`: `export` (161–179).
* `evolveTable`: `evolve` (102–159) with an iteration budget; `doExport` is its argument `export`.

### Model/Templates

* `Tmpl`: The particle templates.
* `name`: `'name'`.
* `mass`: `'mass'` in MeV; 0 if absent (particles/__init__.py 50).
* `majorana`: `'majorana'`.
* `Q`: `'Q'`.
* `flavour`: `'flavour'` (leptons only; empty elsewhere).
* `mesonType`: `'type'` (mesons only; empty elsewhere).
* `decayConstant`: `'decay_constant'` in MeV (mesons only; 0 elsewhere).
* `family`: `'family'` (quarks only; 0 elsewhere).
* `tmplAttr`: The attributes of the templates, for a heavy neutrino of mass `mN` MeV and the unit `MeV`.
* `tmplChain`: The particles of the meson chains (SM.py 667–704) when every template is in the lists.

### Model/Thermo

* `physEnergy`: `energy` (particles/__init__.py 148–159).
* `radDensity`: `density` (13–24).
* `radEnergyDensity`: `energy_density` (27–39).
* `radPressure`: `pressure` (42–49).
* `radEntropy`: `entropy` (52–60).
* `radDenominator`: `denominator` (70–79); `numerator` (65–67) is 0.
* `dustDensity`: `density` (11–21).
* `dustEnergyDensity`: `energy_density` (24–30).
* `dustPressure`: `pressure` (33–39).
* `dustEntropy`: `entropy` (42–50).
* `intDensity`: `density` (16–29).
* `intEnergyDensity`: `energy_density` (34–56).
* `intPressure`: `pressure` (61–83).
* `intEntropy`: `entropy` (86–94).
* `intLaguerre`: The Gauss–Laguerre branch of `Int` (119–130); `lag` holds nodes and weights of `gauss_laguerre.integrate_1D` (gauss_laguerre.py 15–23); `((eps)(eps+2 mat))**((k-1)/2)` is a real power.
* `intLegendre`: The Gauss–Legendre branch of `Int` (131–140).
* `intNumerator`: `numerator` (99–106), given `Int`.
* `intDenominator`: `denominator` (109–115), given `Int`; `conformal_mass` is `mass * params.a`.
* `simps`: `simps(vals, TEMPLATE)`.
* `NGrid`: A non-equilibrium species on its grid: number of points, quadrature weights, momenta.
* `neqDensity`: `density` (137–142); `f` is `particle.distribution(temp)`.
* `neqEnergyDensity`: `energy_density` (145–157).
* `neqPressure`: `pressure` (160–177).
* `neqEntropy`: `entropy` (180–196).
* `neqNumerator`: `numerator` (199–205); `coll` is `particle.collision_integral`.
* `TPart`: What `calculate_temperature_terms` needs of a particle: species, own `aT`, momentum bounds, regime, and for non-equilibrium species the grid and the collision integral.
* `TPart.numerator`: `particle.numerator()` (`populate_methods`, particles/__init__.py 106–113), dispatched on the regime; `Int sp ymin ymax p k` is either branch of `Int`.
* `TPart.denominator`: `particle.denominator()`.
* `addTerms`: One iteration of the loop of `calculate_temperature_terms` (262–264).
* `temperatureTerms`: `calculate_temperature_terms` (256–266).
* `temperatureSlope`: `fraction` (evolution.py 298–301).

### Model/Units

* `Units`: The attributes of `UNITS` (14–36).
* `Units.reset`: `UNITS.reset_units` (23–36), as a function of `UNITS.eV`.
* `defaultEV`: `UNITS.eV` (21) with `use_numericalunits = False`.
* `PConst`: The attributes of `CONST` that carry a dimension or are used by the modelled code (41–79).
* `PConst.of`: The body of `CONST` (41–79).
* `Consts.ofUnits`: What `Params` uses of them.

### Model/Universe

* `World`: The collision integrals `ι` of all interactions of a universe: kind, position of the first particle of the reaction in `universe.particles`, and the outcome of `integrate(TEMPLATE)` as a function of the present state of 
* `updateParticles`: `update_particles` (evolution.py 207–213); `dens` is the density computed by `populate_methods`.
* `initInteractions`: `init_interactions` (evolution.py 215–227): every integral registers with its first particle.
* `outputs`: The loop over the registered integrals (particles/__init__.py 303–317), in the present state `l` of all particles: the results with their kinds.
* `collisionTerm`: The branch without `fast_decay` (particles/__init__.py 300–339): integrals, sums, Adams–Moulton solver.
* `collideOne`: `particle.collision_integral = particle.integrate_collisions()` (evolution.py 238, particles/__init__.py 285–339) for the particle at position `k`.
* `collideAll`: The loop of `calculate_collisions` (evolution.py 234–238) over the given positions.
* `calculateCollisions`: `calculate_collisions` (evolution.py 229–238): the particles with registered integrals, in the order of the list.
* `updateDistributions`: `update_distributions` (evolution.py 239–255) without oscillations, for particles without `fast_decay`.
* `universeStep`: Steps 1–4 of `integrand` (evolution.py 286–293).
* `universeRun`: Several steps, one set of parameters each (evolution.py 134–139).

### Model/Utils

* `RingDeque`: `ring_deque` instance.
* `new`: `__init__` (utils.py 54–56); `zero` is the class attribute value `0`.
* `appendMore`: `append_more` (utils.py 58–65).
* `append`: `append` (utils.py 67–73), including the self-replacement by `append_more`.
* `appends`: A sequence of appends.
* `Throttler`: `Throttler` instance (utils.py 30–34).
* `new`: `__init__` with the clock reading `now` (utils.py 31–34).
* `update`: `update` with the clock reading `now` (utils.py 36–45).
* `run`: Successive updates at the given clock readings; the log pairs each reading with the returned value and the value of `output` seen afterwards.

## Out of the model

* Floating-point rounding, overflow, NaN propagation (except where a definition has an explicit NaN or
  empty case).
* GSL internals: adaptive quadrature is an abstract function of integrand and limits, or the exact
  integral in the `Exact` definitions.
* The float `steps` given to `numpy.linspace` by `interpolation_4p` (rejected by recent numpy).
* Plotting, logging text, file formats, the external KAWANO program, `numericalunits.py` (unused:
  `use_numericalunits = False`), notebooks, the functions `polyval`, `jacobi`, `jacobiD`, `mm_log`, `rec_jaclog` of
  `common/orthopoly.py`.

## What the proofs found in the code

Each item is a theorem (or an example beside one) unless marked "read".

* `DynamicRecArray[-1]` reads past the last row; `truncate` on an empty table loses the next row (C01, C02).
* `Universe.data` is a class attribute shared by all universes (C03).
* `"False"` in an environment variable switches a flag on (C04).
* `linear_interpolation` picks the wrong cell (C12).
* The first saved slope is 0, so a run in Adams–Bashforth mode is off by (79/720) h q for ever (C26).
* The Adams–Moulton output is used as a slope: a species without collisions grows by 1 + h per step (C18).
* The solver is given A = A + f B (read; same lines as C18).
* Massless first particle with a mass term: the kernel jumps at zero momentum (C39).
* Four-particle scattering depends on the OpenMP schedule (C40).
* Fast-decaying species raise `AttributeError` (C58); single kinds raise `ValueError` on real grids (C59).
* `decoupling_temperature`: `g_star = 61.75` is always overwritten (C48).
* A meson mass exactly on the list wraps around (C67).
* Neutron/proton monitor: the evaluation of the rates raises `TypeError` (C55).
* Linear mode divides the collision numerator twice by x (C70).
* The metre uses hc instead of ħc (C76).
* The density column lags the temperature column by one row (C78).
* `Params(rho=…)` without update raises `AttributeError` later (C79).
* Inverted hierarchy beyond the resonance swaps electron and tau (C80).
* Constant four-particle matrix elements use K without the kernel (C85); they are not unit independent.
* Vacuum kinds are wrong for creation reactions (C84).
* Removing radiation: QCD transition uses the aT of the row before the dropped one; on an empty history it
  sets aT = T = 0 silently (C50).
* A species found decayed is emptied before the integrals of the lighter ones are evaluated in the same step
  (C91).
* Fine grids cut within `FOUR_PARTICLE_GRID_RESOLUTION` of zero raise `ValueError` (C94).
* The loss of a heavy neutrino above its mass is skipped while its products are created (C96).
* `HNL_ENERGY` left by one universe changes the momentum cuts of the next one; the cut of decays is below what
  the heavy neutrino produces (C97).
* The resolution computed for muons from pions is never used; masses below 0.025 MeV get 0 samples, replaced by
  the default (C95).
* Four meson decays (K → 3π, K_L → π e ν, K_L → π μ ν, ω → 3π) carry a wrong antiparticle flag and violate electric
  charge by two units; the proton template has charge -1 (C98).
* Muons, electrons and charged pions from kaon, rho and omega decays never receive an integral; in the quark
  channels of the heavy neutrino the active neutrino, or the lepton and the up quark, receive nothing (C99).
* A primary meson declared after one of its ancestors decays at double rate (C100).
* C110: `interactions_decay_products` declares the lepton interactions twice when taus and pions but no muons come out
  (`C110_twice`), and declares them again with `muon_dec` when taus come out; the four-particle integrals it keeps have kinds
  with which `integrate` raises on every grid of two or more points (`C110_raises`).
* Read only: `charged_kaon_decay` and `kaon_long_decay` discard their `lepton_interactions`.
* C103: the removals in `sterile_leptons_interactions` (library/NuMSM.py 162–164, 182–186, 202–204) leave unequal weights:
  in N b ↔ a b the neutrino b gets half of what N and a get; in N a ↔ a a the weights are 3 (N), 1 and 4 instead of 3, 3 and 6;
  scattering on muons and taus changes N only; in N a ↔ e e and N → a e e the electron gets twice its share (without effect
  while electrons are in equilibrium); N l' ↔ a l is absent for all participants.
* C101: `sterile_hadrons_interactions` passes `theta=thetas[neutrino.flavour]` for charged vector mesons with `neutrino`
  left over from an earlier loop (library/NuMSM.py): the decay N → l ρ is declared with the wrong mixing angle.
* C101: a Majorana heavy neutrino gets the same total coefficient as a Dirac one, i.e. half its physical width; the class
  comment says that it is not suitable for Majorana particles.
* C104: in a + b ↔ c + d the equation of a species counts the events with it and its partner inside their grids, with no
  limit on the other side: numbers across the reaction and energy leak past the ends of the grids unless the spectra are confined.
* C104: `four_particle_grid_cutoff_scattering` drops a species' own momenta above MAX_MOMENTUM_MEV while the integral of its
  partner still runs to the end of the grid: with longer grids even the numbers of one side differ (`C104_integrate` assumes
  grids within the cut-off).
* C108: `neutrinos_to_leptons` (SM.py 481–510) declares g_L² with order (0, 2, 1, 3) and g_R² with (0, 3, 1, 2), i.e. with l⁻ and l⁺
  exchanged compared with the theory and its own docstring; without effect, as particles and antiparticles share a species.
* C108: the quark amplitudes (NuMSM.py 241–286) lack the sum over three colours; `baryons_interaction` declares (n·p)(e·ν̄), which is
  not the amplitude of a V±A current; `leptons_leptons_NC` (SM.py 526–540) is not called and lacks mass terms.
* C01: truncating an empty dynamic array leaves eight rows of zeros visible (`C01_truncate_empty_shows_rows`).
* C97: when the bound on the energy is nan, no heavy particle is cut (`C97_heavy_uncut`).
* C108: `leptons_leptons_NC` (never called) lacks the mass terms (`C108_charged_leptons`).
* A second `integrate` without `init_interactions` uses the particles of the first call (C115).
* C117: in logarithmic mode `x` grows by the factor `1 + dy` per step while `aT` grows by `dy` times the Adams–Bashforth slope
  with respect to `ln x` (`evolution.py` 181–197, 269–303): the step in `ln x` should be `ln(1 + dy)`, so the fifth-order formula
  is only first-order accurate (`C117_first_order`).
* C119: the column `fraction` of `evolution.txt` has no unit in the heading but is an energy in logarithmic mode; it is written in
  internal units (`C119_units`). `Universe.data` is a class attribute: a second universe appends to, and its multistep formula
  reads, the rows of the first.
* C120: because the solver's output is used as a slope, refining the step does not help: a decoupled massless species tends to
  e^l times its initial distribution, whatever its collision terms.
* C121: a second call of `evolve` (the scripts use it to drop interactions) saves the current row again; in the
  Adams–Bashforth mode the repeated slope is then used as if a step had been made, and by default the clock is reset
  to that of a radiation universe.
* C122: above the grid a stored spectrum is continued by a Boltzmann tail, which is not Fermi–Dirac or Bose–Einstein;
  so a stored equilibrium spectrum is not a stationary point of any reaction at momenta above the grid.
* C123: a species stored at the moment of decoupling loses particles at once (2->2 collisions of fermions): products
  above the end of the grid are looked up in a Boltzmann tail below equilibrium, so that inverse events are missing. The
  relative error is the occupation at the end of the grid.
* C125: the integrals of the intermediate regime stop at 20 T, but the momenta of a species with M = 1000 T (where the
  switch to dust is made) are of order sqrt(3 M T) = 55 T: just before the switch its density is below 7% of what dust
  gives just after. Of no weight in the totals as the density carries e^{-1000}; with a smaller
  REGIME_SWITCHING_FACTOR (settable through the environment) the jump is smaller too.
* C127: the two declarations for a sterile neutrino carry the flags `False` and `True` on its leg, which is on the left: the
  Majorana sterile neutrino (`sterile_neutrino`) leads only the first, while the products count both, so they receive twice
  what it loses. (The Dirac one is balanced.) A decay into two identical neutral particles gives one integral with twice
  the matrix element, and `CollisionMultiplier3p` doubles it again: the products would gain twice the energy. In the shipped chains
  these are photons (in equilibrium) and neutral pions (`fast_decay`, whose integrals are rescaled), which hides it.
* C128: `init_kawano` opens `s4.dat` only if the universe has a folder, but `save_kawano` writes to `self.kawano_log` in any case: without
  a folder the first step below `T_kawano` raises `AttributeError`. `export` closes the file, so a second call of `evolve`
  raises `ValueError`. The particles are kept in a module-level dictionary: with two universes the rates of both use the species of the one
  initialised last (wrong by the fifth power of the ratio of scale factors). The rates in a row use distributions with the
  comoving temperature of the beginning of the step. `init_kawano` twice on one file, and the external Fortran
  program, are not modelled.
* C129: `rec_jacobi(1, a, b)` returns two numbers instead of arrays, so `rec_jacobi01(1, a, b)` raises `IndexError` and `gauss` cannot use
  them. `radau` and `lobatto` write into the arrays of the caller (`alphar = alpha`). `polyval`, `jacobi` and `jacobiD` use `xrange` and
  `mm_log` uses `reduce`: `NameError` under the python3 of the Makefile. No other module of the program imports the file.
* C132: a stored zero next to a positive value makes the interpolated spectrum jump (`C132_zero_jump`): both neighbouring cells read 0, so
  the positive value counts at its own momentum only.
* C133: the entry at momentum 0 of a massive product ignores the end of the grid of the parent (integral.cpp 491–494) which the loop respects
  for all other momenta; if a parent whose product is at rest lies beyond the grid, the entry at 0 is positive while all slow ones vanish
  (`C133_jump`).
* C134: `mod_chebyshev` clips `N` to half the number of moments (orthopoly.py 365) but then assigns all moments to a row of length `2N` (375):
  with more than `2N` moments, or an odd number, it raises `ValueError` (`C134_count_refuted`).
* C135: `nonadaptive_trapezium` (not compiled in) assigns no result if the limit is below 39 points, and its caller then returns an
  uninitialised number (`C135_unassigned_refuted`); the error of `adaptive_trapezium` is a signed sum, in which parts can cancel.
* C137: `sterile_leptons_interactions` (library/NuMSM.py 207–210) gives every integral of a muon or tau the kind F_creation, also its
  decay into a light heavy neutrino and its scatterings (`C137_leptons_refuted`); the loop over mesons tests the type of the reaction.
* Read only: `particles/__init__.py` imports names that do not exist; `HNL_ENERGY`, `STERILE_DECAYED`,
  `Relativistic_decoupling` are written to the process environment and never cleared; a one-point grid is
  declared empty by the three-particle cut;
  `Counter`-based branching ratio lookup leaves `BR` unbound if no key matches.
