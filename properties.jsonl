{"id": "C01", "title": "History tables behave like an append-only log with pop", "statement": "After any sequence of append / extend / truncate calls on the history tables (DynamicRecArray, Dynamic2DArray), in which truncate is only called while the table is non-empty, the visible content (`data`, `len`, column access) is exactly the list obtained by pushing and popping the same rows in order; no append ever writes outside the buffer and no earlier row is changed by buffer growth or by truncation.", "quantifier": "all row types, all finite sequences of append/extend/truncate on a fresh table", "why_tests_cant": "buffer growth happens at sizes depending on the whole interleaving (length==size or length==len-2 with 1.5x rounding, and truncate shrinks the buffer without updating size); a test only sees a few interleavings", "anchors": ["common/utils.py:Dynamic2DArray", "common/utils.py:DynamicRecArray"]}
{"id": "C02", "title": "Integer indexing of a history table", "statement": "Reading row i of a record table with an integer 0 <= i < len returns the i-th appended row. A user also expects table[-1] to be the last appended row; the code instead reads a row beyond the data (or raises), so that expectation fails for every non-empty table whose last row differs from the stale cell.", "quantifier": "all tables reachable by appends/truncates, all integer indices", "why_tests_cant": "the stale cell contains zeros or tiled old data depending on the entire growth history", "anchors": ["common/utils.py:DynamicRecArray.__getitem__"]}
{"id": "C03", "title": "Independent simulations do not share history", "statement": "Running one Universe must not change the recorded history (and hence the Adams-Bashforth steps) of another Universe created in the same process. The code violates this: the table is a class attribute, so every instance appends to the same rows.", "quantifier": "all interleavings of saves on any number of Universe objects", "why_tests_cant": "tests construct one universe per process or never inspect cross talk; the effect depends on the interleaving of runs", "anchors": ["evolution.py:Universe.data", "evolution.py:Universe.save_params", "evolution.py:Universe.make_step"]}
{"id": "C04", "title": "Environment variables override defaults with the type of the default", "statement": "For every known setting with a numeric default, setting the environment variable to a numeral makes environment.get return that number, and unset variables return the default. For on/off settings a user expects 'False' or '0' to switch off; this fails: any non-empty string leaves a True-default switch on, and a False-default switch returns the raw string (truthy even for 'False').", "quantifier": "all setting names, all environment contents", "why_tests_cant": "the space of environments is unbounded; the existing tests only use the empty string", "anchors": ["environment.py:get", "environment.py:defaults"]}
{"id": "C05", "title": "Boolean environment flags of the utility helper", "statement": "getboolenv returns False exactly when the effective value (variable if set, else default) is absent, is the boolean False, or is one of the four strings 'false','f','0','-1'; every other string - including 'False', 'no' and the empty string - counts as True.", "quantifier": "all variable names, environments and defaults", "why_tests_cant": "string space is infinite", "anchors": ["common/utils.py:getboolenv", "common/utils.py:getenv"]}
{"id": "C06", "title": "Plot ring buffer capacity and extremes", "statement": "A ring_deque created empty with capacity L holds, after n appends, exactly the last min(n, L+1) values in order (one more than the declared capacity), and its max/min are the extremes of all values ever appended, not of the current window.", "quantifier": "all capacities, all finite append sequences over any linear order", "why_tests_cant": "depends on whole append history, incl. the method replacement at first append", "anchors": ["common/utils.py:ring_deque"]}
{"id": "C07", "title": "Log throttling never emits twice within the period", "statement": "For any sequence of clock readings, two consecutive successful updates of a Throttler are at least `rate` apart in clock time, an update is suppressed only when less than `rate` elapsed since the last successful one, and `output` always equals the last returned value (true before the first update).", "quantifier": "all rates, all clock sequences (also non-monotone)", "why_tests_cant": "depends on wall clock history", "anchors": ["common/utils.py:Throttler"]}
{"id": "C08", "title": "Grid search returns the bracketing cell", "statement": "binary_find on any strictly increasing non-empty grid terminates and returns: (last,-1) if x is above the grid, (-1,0) if below, (i,i) if x equals grid point i, and otherwise the unique neighbouring pair (i,i+1) with grid[i] < x < grid[i+1]. It never reads outside the grid.", "quantifier": "all non-empty strictly increasing grids of any length, all x", "why_tests_cant": "unbounded grid sizes; off-by-one in the bisection loop only shows at particular length/position combinations", "anchors": ["interactions/four_particle/cpp/integral.cpp:binary_find", "interactions/three_particle/cpp/integral.cpp:binary_find"]}
{"id": "C09", "title": "Distribution lookup is exact on grid points and total on the grid range", "statement": "For a non-equilibrium species, looking up its distribution at a grid momentum returns exactly the stored value; below the first grid point it raises; above the last point it returns the stored last value times a Boltzmann tail that equals it at the edge, is non-increasing in momentum and non-negative.", "quantifier": "all strictly increasing grids, stored values, masses, temperatures, momenta", "why_tests_cant": "continuum of inputs", "anchors": ["interactions/four_particle/cpp/integral.cpp:distribution_interpolation", "common/__init__.py:interp"]}
{"id": "C10", "title": "Thermal spectra are reproduced exactly between grid points", "statement": "If the stored values are those of an equilibrium Fermi-Dirac (or Bose-Einstein) spectrum of temperature T and mass m on the grid, the lookup at any momentum within the grid returns exactly the equilibrium value at that momentum, and the lookup above the grid is the Boltzmann tail.", "quantifier": "all grids, masses, temperatures, statistics, momenta in range", "why_tests_cant": "existing test samples 10x points for one mass and temperature to 1e-8", "anchors": ["interactions/four_particle/cpp/integral.cpp:distribution_interpolation", "particles/__init__.py:DistributionParticle.distribution"]}
{"id": "C11", "title": "Interpolated occupation numbers stay between the neighbours", "statement": "For stored values strictly between 0 and the statistical maximum, the interpolated value between two grid points lies between the two stored values (hence positive, and below 1 for fermions).", "quantifier": "all positive stored values (fermions: < 1), all grids and momenta in range", "why_tests_cant": "continuum of inputs; monotonicity argument needed", "anchors": ["interactions/four_particle/cpp/integral.cpp:distribution_interpolation"]}
{"id": "C12", "title": "Linear interpolation helper", "statement": "A user of linear_interpolation expects the value between grid points x_i < x < x_{i+1} to be the weighted mean of the two neighbouring samples. The code uses the next cell and extrapolates, so the expectation fails; what holds is: exact at grid points, constant last value above the grid, exact on samples of affine functions except in the last cell.", "quantifier": "all strictly increasing grids and samples, all x", "why_tests_cant": "tests with affine data pass; failure only for non-affine data off-grid", "anchors": ["common/__init__.py:linear_interpolation"]}
{"id": "C13", "title": "Cubic interpolation helper", "statement": "cubic_interpolation is exact at every grid point and for x above the grid returns the last sample; on uniform grids it reproduces samples of every affine function away from the last cell.", "quantifier": "all grids, samples and x", "why_tests_cant": "continuum of inputs", "anchors": ["common/__init__.py:cubic_interpolation"]}
{"id": "C14", "title": "Adams-Bashforth steps are exact for polynomial slopes", "statement": "With k equally spaced slope samples f(-k+1),...,f(0) of a polynomial of degree < k, the order-k correction (k = 1..5) equals the exact integral of the slope over the next step; with more than five samples only the last five matter; with none, or with an explicit order not matching the available samples or above 5, an exception is raised.", "quantifier": "all step sizes, all polynomials of degree < k, all histories of any length", "why_tests_cant": "needs an identity over all polynomials", "anchors": ["common/integrators/__init__.py:adams_bashforth_correction", "common/integrators/__init__.py:ADAMS_BASHFORTH_COEFFICIENTS"]}
{"id": "C15", "title": "Adams-Moulton solver solves its implicit equation", "statement": "adams_moulton_solver returns the unique y' with y' = y + h*(sum of weighted past slopes + b*(A + B y'))/divider whenever the denominator is non-zero; with B=0 and slopes sampled from a polynomial of degree < order it adds the exact integral; the automatically chosen order is always consistent (no exception), whereas explicit order 1 with non-empty history raises.", "quantifier": "all y, histories, A, B, h", "why_tests_cant": "needs algebra for all inputs", "anchors": ["common/integrators/__init__.py:adams_moulton_solver"]}
{"id": "C16", "title": "Implicit Euler step", "statement": "implicit_euler returns the unique solution of y' = y + h(A + B y') when 1-Bh is non-zero; for B <= 0, A >= 0, y >= 0, h >= 0 the result is non-negative and for A = 0 never exceeds y: repeated steps are monotone for every step size.", "quantifier": "all inputs, all numbers of steps", "why_tests_cant": "unconditional stability is a statement about all step sizes", "anchors": ["common/integrators/__init__.py:implicit_euler"]}
{"id": "C17", "title": "Euler and Heun corrections", "statement": "The Euler correction is h*f(t,y); the Heun correction is the trapezoidal value and is exact for every slope depending affinely on t only, and both vanish for h=0.", "quantifier": "all slopes, times and step sizes", "why_tests_cant": "universally quantified over functions", "anchors": ["common/integrators/__init__.py:euler_correction", "common/integrators/__init__.py:heun_correction"]}
{"id": "C18", "title": "Free species keep their distribution when collision terms vanish", "statement": "If all collision terms of a decoupled species evaluate to zero and its past terms are zero, one step should leave its distribution unchanged. The code violates this: the value returned by the Adams-Moulton solver (a new distribution) is used as a slope, so the distribution grows by h*f; the claim holds only when no collision integral is registered for the species.", "quantifier": "all distributions, step sizes and histories", "why_tests_cant": "existing test uses a setup whose integrals cancel only to 1e-14*h tolerances and one step", "anchors": ["particles/__init__.py:DistributionParticle.calculate_collision_integral", "particles/__init__.py:DistributionParticle.update_distribution"]}
{"id": "C19", "title": "Gaussian quadrature wrappers", "statement": "gaussian(f,a,b) is linear in f, is 0 for a=b, is exact for constants and affine functions, changes sign when the limits are swapped, and is monotone (non-negative integrands give non-negative results for a<=b), for any quadrature rule with positive weights summing to 2 and nodes symmetric about 0; double_gaussian of a product over a rectangle is the product of the single ones.", "quantifier": "all integrands, limits and symmetric rules of any order", "why_tests_cant": "quantified over functions", "anchors": ["common/integrators/__init__.py:gaussian", "common/integrators/__init__.py:double_gaussian", "common/integrators/__init__.py:remap_interval"]}
{"id": "C20", "title": "Momentum grids", "statement": "LinearSpacedGrid and LogSpacedGrid produce exactly MOMENTUM_SAMPLES strictly increasing momenta starting at 0 and ending at MAX_MOMENTUM (for at least two samples and a positive maximum); the linear grid is uniform, the log grid has spacing growing by the factor 1.2; a zero or missing argument falls back to the environment default.", "quantifier": "all sample counts >= 2 and maxima > 0", "why_tests_cant": "unbounded sample counts", "anchors": ["common/__init__.py:LinearSpacedGrid", "common/__init__.py:LogSpacedGrid"]}
{"id": "C21", "title": "Adaptive grid construction terminates", "statement": "Building a HeuristicGrid with positive parameters terminates and yields a strictly increasing grid from 0 to its maximum.", "quantifier": "all positive masses, lifetimes and tuning parameters", "why_tests_cant": "termination is not testable; step sizes shrink along the loop", "anchors": ["common/__init__.py:HeuristicGrid"]}
{"id": "C22", "title": "Scale factor, temperature and x stay consistent", "statement": "At creation a*T equals the normalisation m and x = a*m; after every update, a = x/m and T = aT/a hold exactly, whatever the sequence of changes of x and aT and whatever densities are supplied; a Params object without temperature or without the step size matching the time-step mode cannot be created.", "quantifier": "all initial temperatures, all sequences of aT/x changes and updates", "why_tests_cant": "state machine over unbounded histories", "anchors": ["common/__init__.py:Params"]}
{"id": "C23", "title": "Logarithmic stepping is geometric", "statement": "With logarithmic stepping of size dy, after n steps x = x0*(1+dy)^n (and a likewise), so the scale factor strictly increases; with linear stepping x = x0 + n*dx.", "quantifier": "all n, all step sizes > 0, all temperature histories", "why_tests_cant": "induction over steps", "anchors": ["common/__init__.py:Params.update", "evolution.py:Universe.make_step"]}
{"id": "C24", "title": "Cosmic time never decreases within a run", "statement": "Within one evolve call every step adds a non-negative time increment (positive when density and step are positive), so the recorded time column is non-decreasing after the initial time; calling evolve again with default arguments re-initialises the clock, so monotonicity across two runs can fail.", "quantifier": "all positive densities and step sequences", "why_tests_cant": "unbounded histories; restart behaviour depends on accumulated time", "anchors": ["common/__init__.py:Params.update", "common/__init__.py:Params.init_time", "evolution.py:Universe.evolve"]}
{"id": "C25", "title": "Evolution reaches the requested final temperature", "statement": "If aT stays bounded above along the run and the final temperature is positive, evolve terminates with T <= T_final after finitely many steps (explicit bound), every recorded temperature except the last is above T_final, and the table grows by exactly number-of-steps + 1 rows.", "quantifier": "all initial conditions, all bounded heating histories", "why_tests_cant": "termination/liveness over unbounded steps", "anchors": ["evolution.py:Universe.evolve", "evolution.py:Universe.make_step", "evolution.py:Universe.save_params"]}
{"id": "C26", "title": "Temperature update is exact for constant slopes", "statement": "With a constant slope c, n steps of the temperature equation should increase aT by n*h*c from the first step on. The code seeds the slope history with a spurious 0, so the first steps use a wrong weight (first step 1.5*h*c); the claim holds once five genuine slopes are recorded, and always for plain Euler mode.", "quantifier": "all slopes, step sizes and numbers of steps", "why_tests_cant": "needs the exact history semantics of the table and AB coefficients", "anchors": ["evolution.py:Universe.make_step", "evolution.py:Universe.evolve"]}
{"id": "C27", "title": "Decoupling is irreversible and freezes the comoving temperature", "statement": "A species in equilibrium follows the plasma aT at each update; once the temperature of a thermal species is at or below its decoupling temperature it is out of equilibrium, its aT never changes again and it never returns to equilibrium as long as the scale factor does not decrease. (Exception in the code: a charged species declared non-thermal is never in equilibrium but keeps following the plasma aT.)", "quantifier": "all species parameters, all sequences of updates with non-decreasing scale factor", "why_tests_cant": "state machine over unbounded histories", "anchors": ["particles/__init__.py:DistributionParticle.update", "particles/__init__.py:AbstractParticle.in_equilibrium"]}
{"id": "C28", "title": "Dynamical regimes progress one way", "statement": "For a switching factor >= 1 and positive mass, exactly one regime applies at each temperature and as the temperature falls the regime only moves radiation -> intermediate -> dust, then non-equilibrium; massless species are radiation at any positive temperature.", "quantifier": "all masses, temperatures, switching factors", "why_tests_cant": "piecewise conditions over a continuum", "anchors": ["particles/__init__.py:AbstractParticle.regime"]}
{"id": "C29", "title": "Stored distributions are never negative and equilibrium species are untouched", "statement": "After applying the collision term, every stored occupation number of a non-equilibrium species is max(0, old + h*I) (never negative), an equilibrium species is not changed, and the list of registered collision integrals is emptied. A fermion occupation above 1 (Pauli violation) is not prevented.", "quantifier": "all distributions, collision terms and step sizes", "why_tests_cant": "continuum of inputs; Pauli violation needs a witness", "anchors": ["particles/__init__.py:DistributionParticle.update_distribution"]}
{"id": "C30", "title": "Flavour oscillation probabilities are a symmetric stochastic matrix", "statement": "For all mixing angles (hence all matter-effect corrections) the 3x3 oscillation table is symmetric, has entries in [0,1] and rows summing to 1.", "quantifier": "all real mixing angles theta_12, theta_13 and all matter terms", "why_tests_cant": "test checks one angle set to finite precision", "anchors": ["library/SM.py:particles.leptons.oscillations_map"]}
{"id": "C31", "title": "Oscillations conserve the total collision term", "statement": "Mixing the collision terms of the three flavours leaves their sum unchanged at every momentum; with a proper subset of flavours this fails.", "quantifier": "all collision terms, all angles, all momenta", "why_tests_cant": "continuum of inputs", "anchors": ["evolution.py:Universe.update_distributions", "library/SM.py:particles.leptons.oscillations_map"]}
{"id": "C32", "title": "Collision statistics functional: gain minus loss, linearised form", "statement": "For every reaction with n particles on arbitrary sides and occupations f>=0, the Full kind equals gain minus loss, gain = product of f over outgoing and (1 -/+ f) over incoming, loss the converse; F_1 + f0*F_f is the same number for the first particle on the left side; a negative occupation raises.", "quantifier": "all statistics, side assignments and non-negative occupations", "why_tests_cant": "continuum of inputs and all side patterns", "anchors": ["interactions/four_particle/cpp/integral.cpp:F_A", "interactions/four_particle/cpp/integral.cpp:F_B", "interactions/three_particle/cpp/integral.cpp:F_A"]}
{"id": "C33", "title": "Detailed balance", "statement": "If all species are thermal with the same temperature and energy is conserved (sum of energies left = right), the collision functional vanishes exactly, for fermions and bosons in any combination, for both three- and four-particle reactions.", "quantifier": "all energies, temperatures, statistics, side patterns conserving energy", "why_tests_cant": "existing test checks cancellation to 1e-14 in one setup", "anchors": ["interactions/four_particle/cpp/integral.cpp:integrand_full", "interactions/three_particle/cpp/integral.cpp:integrand_full"]}
{"id": "C34", "title": "Pauli-consistent signs of gain and loss", "statement": "For occupations between 0 and 1 the loss term is <= 0 and the gain term >= 0, and the full functional is >= 0 when the first particle's state is empty and, for fermions, <= 0 when it is full.", "quantifier": "all occupations in [0,1], all statistics", "why_tests_cant": "continuum", "anchors": ["interactions/four_particle/cpp/integral.cpp:F_A", "interactions/four_particle/cpp/integral.cpp:F_B", "interactions/four_particle/cpp/integral.cpp:F_1"]}
{"id": "C35", "title": "Kinematic cut-off means momentum can be conserved", "statement": "For non-negative momenta and fourth energy at least its mass, the four-particle cut-off test accepts exactly when vectors of those four lengths can sum to zero; the three-particle factor is positive only if vectors of those three lengths can sum to zero, and is then 1 on the degenerate boundary and 2 in the interior (for positive momenta).", "quantifier": "all non-negative momenta", "why_tests_cant": "continuum; equivalence with existence of vectors", "anchors": ["interactions/four_particle/cpp/integral.cpp:in_bounds", "interactions/three_particle/cpp/integral.cpp:in_bounds"]}
{"id": "C36", "title": "First angular kernel D1", "statement": "For non-negative momenta D1 is symmetric under every permutation, non-negative, at most the smallest momentum, zero outside the momentum-conservation region, and equal to the published piecewise-linear formula.", "quantifier": "all non-negative momenta, all permutations", "why_tests_cant": "continuum", "anchors": ["interactions/four_particle/cpp/Ds.cpp:D1"]}
{"id": "C37", "title": "Second angular kernel D2", "statement": "For non-negative momenta the absolute-value form of D2 equals the published piecewise-cubic formula, is symmetric in each pair, and vanishes outside the momentum-conservation region.", "quantifier": "all non-negative momenta", "why_tests_cant": "continuum", "anchors": ["interactions/four_particle/cpp/Ds.cpp:D2"]}
{"id": "C38", "title": "Third angular kernel D3", "statement": "For non-negative momenta D3 is symmetric under every permutation, vanishes outside the region, and its branches agree on their common boundaries (continuity).", "quantifier": "all non-negative momenta, all permutations", "why_tests_cant": "continuum", "anchors": ["interactions/four_particle/cpp/Ds.cpp:D3"]}
{"id": "C39", "title": "Zero-momentum kernels are limits of the general ones", "statement": "Db1 and Db2 are the limits of D1(p0,..)/p0 and D2(p0,..)/p0 as p0 -> 0+, so the collision kernel D/(p0*E0) tends to Db and has no jump at zero momentum.", "quantifier": "all non-negative other momenta", "why_tests_cant": "limit statement", "anchors": ["interactions/four_particle/cpp/Ds.cpp:Db1", "interactions/four_particle/cpp/Ds.cpp:Db2", "interactions/four_particle/cpp/Ds.cpp:Db"]}
{"id": "C40", "title": "Collision integrals do not depend on thread scheduling", "statement": "The vector returned by the parallel momentum loop must be the same for every assignment of loop iterations to threads and every order within a thread. This holds for decay, creation and three-particle reactions; it fails for four-particle scattering, where the upper integration limit is carried over between iterations of a thread.", "quantifier": "all thread counts, all schedules, all momentum lists", "why_tests_cant": "tests run one schedule", "anchors": ["interactions/four_particle/cpp/integral.cpp:integration", "interactions/three_particle/cpp/integral.cpp:integration_3"]}
{"id": "C41", "title": "Crossing preserves conserved charges", "statement": "Every reaction generated from an interaction by permuting and crossing contains each original leg exactly once and conserves every additive charge that the original reaction conserves (Majorana species carrying none).", "quantifier": "all interactions with any number of legs, all charge assignments", "why_tests_cant": "all permutations and crossings of arbitrary interactions", "anchors": ["interactions/__init__.py:CrossGeneratingInteraction.reactions_map", "interactions/__init__.py:CrossGeneratingInteraction.cross_particle"]}
{"id": "C42", "title": "Generated reactions are well formed", "statement": "Every generated reaction has at least one particle on each side, lists all incoming before all outgoing, starts with a particle (not an antiparticle), is kinematically possible when one side has a single particle, appears only once, and conversely every such crossing of a permutation appears.", "quantifier": "all interactions with at least two legs", "why_tests_cant": "combinatorial explosion in the number of legs", "anchors": ["interactions/__init__.py:CrossGeneratingInteraction.reactions_map"]}
{"id": "C43", "title": "Matrix element ordering is meaning-preserving", "statement": "Normalising the index order of a four-particle matrix element does not change its value as a function of the four momenta and masses, two 'stackable' elements add up to the merged one, and relabelling by a reaction's permutation describes the same amplitude.", "quantifier": "all index orders, couplings, four-momenta, masses", "why_tests_cant": "continuum of momenta, all permutations", "anchors": ["interactions/four_particle/__init__.py:FourParticleM"]}
{"id": "C44", "title": "Merging duplicate integrals loses no amplitude", "statement": "After deduplication no two integrals have the same first particle and the same species on both sides, each input integral is represented, and the summed matrix element of each group is unchanged for elements without a constant part; for four-particle elements with constant amplitude the merge drops the constant of the later ones.", "quantifier": "all lists of integrals", "why_tests_cant": "all lists, all matrix elements", "anchors": ["interactions/__init__.py:IntegralDeduplicator"]}
{"id": "C45", "title": "Explicit Interaction objects keep the supplied integrals", "statement": "Constructing Interaction(name, integrals=L) should yield an interaction holding the (deduplicated) L. The code ignores the argument and raises for every input.", "quantifier": "all argument lists", "why_tests_cant": "no test constructs it; holds for every input", "anchors": ["interactions/__init__.py:Interaction.__init__"]}
{"id": "C46", "title": "Two-body decay momentum", "statement": "cm_momentum is symmetric in the daughters and, above threshold, is the unique non-negative momentum at which the daughters' energies sum to the parent mass; at threshold it is zero.", "quantifier": "all masses with m1 >= m2+m3, m1>0", "why_tests_cant": "continuum", "anchors": ["common/kinematics.py:cm_momentum", "interactions/three_particle/cpp/integral.cpp:p1_bounds_1"]}
{"id": "C47", "title": "Collision arrays match the momentum grid", "statement": "Whatever the cut-offs, the pieces into which the grid is split for four-particle reactions always recombine to the length and order of the grid, and for three-particle creation they do so or the whole result is zero with the grid's length; every grid point strictly between the kinematic bounds gets the value of the integral at its momentum divided by aT.", "quantifier": "all grids, all cut-off momenta", "why_tests_cant": "off-by-one at boundaries for arbitrary grid sizes", "anchors": ["common/kinematics.py:four_particle_grid_cutoff_creation", "common/kinematics.py:four_particle_grid_cutoff_scattering", "common/kinematics.py:three_particle_grid_bounds_creation", "common/kinematics.py:grid_cutoff_3p"]}
{"id": "C48", "title": "Decoupling temperature estimate", "statement": "decoupling_temperature is at least the particle mass, is monotone in the relativistic estimate, the relativistic estimate is the temperature at which G_F^2 theta^2 T^5 = 1.66 sqrt(g) T^2/M_p, and the number of relativistic species used above the QCD scale should be 61.75; the code overwrites it with 10.75 for every mass above the QCD scale.", "quantifier": "all masses and mixing angles", "why_tests_cant": "branch logic over a continuum", "anchors": ["common/kinematics.py:decoupling_temperature", "common/kinematics.py:decoupling_temperature_relativistic"]}
{"id": "C49", "title": "A decayed species stays decayed with zero distribution", "statement": "Once the density of a massive non-fast-decaying species has dropped below the dilution threshold, its distribution is set to zero, its collision term is zero from then on, and the flag is never cleared.", "quantifier": "all later histories", "why_tests_cant": "latch over unbounded histories", "anchors": ["common/kinematics.py:has_decayed", "particles/__init__.py:DistributionParticle.calculate_collision_integral"]}
{"id": "C50", "title": "QCD transition conserves comoving entropy of relativistic species", "statement": "At the transition aT is rescaled so that dof*(aT)^3 is unchanged, quarks and gluons are removed, every other species is kept, hadrons are added, and the last history row is dropped.", "quantifier": "all particle contents with positive dof before and after", "why_tests_cant": "real cube roots, arbitrary species lists", "anchors": ["evolution.py:Universe.QCD_transition", "common/__init__.py:Params.entropic_dof_eq"]}
{"id": "C51", "title": "Neutron-proton rates are non-negative and complete", "statement": "baryonic_rates always returns six numbers; each is zero when its integration range is empty and non-negative for occupations in [0,1]; forward and backward integrands of each process balance (ratio exp(+-q/T)) in thermal equilibrium.", "quantifier": "all scale factors, grids, distributions in [0,1]", "why_tests_cant": "continuum", "anchors": ["kawano.py:baryonic_rates", "kawano.py:_rate1"]}
{"id": "C52", "title": "Thermodynamic identities of equilibrium species", "statement": "For radiation, intermediate and dust species entropy density equals (energy density + pressure)/T; radiation pressure is one third of energy density; fermionic radiation is 7/8 (energy) and 3/4 (number) of bosonic; all are non-negative for positive temperature; intermediate pressure never exceeds one third of the energy density.", "quantifier": "all temperatures, masses, dof, positive quadrature rules", "why_tests_cant": "continuum", "anchors": ["particles/RadiationParticle.py", "particles/IntermediateParticle.py", "particles/DustParticle.py"]}
{"id": "C53", "title": "Particle ordering is deterministic", "statement": "add_particles orders species by decreasing mass then decreasing name, independent of insertion order (for distinct mass/name pairs), keeping every species exactly once; filtering by names removes exactly the named species and keeps the order.", "quantifier": "all species lists", "why_tests_cant": "all permutations", "anchors": ["common/utils.py:particle_orderer", "common/utils.py:particle_filter", "evolution.py:Universe.add_particles"]}
{"id": "C54", "title": "Interaction filtering", "statement": "interaction_filter keeps exactly those integrals whose first particle (or, if requested, every particle) is not named and whose reaction type is not excluded, in the original order, in every interaction.", "quantifier": "all interaction lists and name sets", "why_tests_cant": "all lists", "anchors": ["common/utils.py:interaction_filter", "common/utils.py:reaction_type"]}
{"id": "C55", "title": "Helium estimate is latched and bounded", "statement": "The semi-analytic monitor records neutron decoupling, deuterium generation and the BBN estimate at most once each, never overwrites them, and the helium fraction is in (0,1) whenever decoupling precedes deuterium production and temperatures are positive.", "quantifier": "all step histories", "why_tests_cant": "latch over unbounded histories", "anchors": ["semianalytic.py:step_monitor"]}
{"id": "C56", "title": "Equilibrium occupation functions", "statement": "Fermi occupation is in (0,1), strictly decreasing in energy and satisfies f(-e)=1-f(e); Bose occupation is positive for e>mu and strictly decreasing there; 1+b over b = exp(e-mu).", "quantifier": "all energies and chemical potentials", "why_tests_cant": "continuum", "anchors": ["common/statistics.py:Fermi", "common/statistics.py:Bose"]}
{"id": "C57", "title": "Reaction kind classification agrees between Python and C++", "statement": "For every three- or four-particle reaction with sides +-1 and at least one particle on each side, exactly one of CREATION/SCATTERING/DECAY holds in Python and the C++ dispatch takes the corresponding branch; a two-to-two scattering is never treated as decay.", "quantifier": "all side assignments", "why_tests_cant": "small but must cover both languages' encodings", "anchors": ["common/utils.py:reaction_type", "interactions/four_particle/cpp/integral.cpp:get_reaction_type"]}
{"id": "C58", "title": "Fast-decaying species", "statement": "Computing the collision term of a fast-decaying species with at least one registered integral should return a term; the code raises for every such input because the reaction tuple is passed where an integral is expected.", "quantifier": "all species and integrals", "why_tests_cant": "holds for every input", "anchors": ["common/kinematics.py:Icoll_fast_decay", "common/utils.py:reaction_type"]}
{"id": "C59", "title": "Integrals of single kinds", "statement": "Evaluating a four-particle collision term of a non-Full kind on a grid with more than one momentum should return an array; the code raises because it takes the truth value of an array; for three-particle integrals the same construct is caught and works.", "quantifier": "all grids with more than one point", "why_tests_cant": "holds for every input", "anchors": ["interactions/four_particle/__init__.py:FourParticleIntegral.integrate", "interactions/three_particle/__init__.py:ThreeParticleIntegral.integrate", "common/kinematics.py:scaling"]}
{"id": "C60", "title": "Registered collision integrals per step", "statement": "In each step an integral is registered with its first particle exactly when the plasma is below the particle's decoupling temperature and the particle is out of equilibrium; registrations do not accumulate across steps.", "quantifier": "all numbers of steps, all temperature histories", "why_tests_cant": "accumulation over unbounded steps", "anchors": ["interactions/four_particle/__init__.py:FourParticleIntegral.initialize", "particles/__init__.py:DistributionParticle.update_distribution", "evolution.py:Universe.integrand"]}
{"id": "C61", "title": "Natural units are consistent", "statement": "The energy units form a chain of exact factors 1000 from eV to TeV for any base value of eV; every derived unit, physical constant, density, entropy and temperature term scales with the power of energy of its dimension when eV is rescaled; a whole run with rescaled inputs is the rescaled run. The second, 10^9 kelvin, the kilogram and g/cm^3 agree with the CODATA values within 1e-4.", "quantifier": "all base values, all particle contents, all numbers of steps, both stepping modes", "why_tests_cant": "relation between two runs of unbounded length", "anchors": ["common/__init__.py:UNITS.reset_units", "common/__init__.py:CONST", "common/__init__.py:Params.update", "evolution.py:Universe.evolve"]}
{"id": "C62", "title": "Identical-particle multiplicity", "statement": "The collision multiplier is 1, 2 or 3; it exceeds 1 only if the first species occurs more than once on the left side, in which case it equals that number of occurrences (when applicable).", "quantifier": "all four- and three-particle reactions", "why_tests_cant": "all species patterns", "anchors": ["common/kinematics.py:CollisionMultiplier4p", "common/kinematics.py:CollisionMultiplier3p"]}
{"id": "C63", "title": "The collision kernel is the averaged squared amplitude, and non-negative", "statement": "For every index order, side pattern, couplings, masses, energies and non-negative momenta the kernel D equals the average over momentum-conserving configurations of K1 (Qi.Qj)(Qk.Ql) + K2 mi mj (Qk.Ql) with the four-vector products of the actual particles; hence it is non-negative for physical energies and non-negative couplings and zero where momentum cannot be conserved.", "quantifier": "all momenta, energies, masses, couplings, index orders, sides", "why_tests_cant": "integral identity over a continuum", "anchors": ["interactions/four_particle/cpp/Ds.cpp:D", "interactions/four_particle/cpp/Ds.cpp:Db"]}
{"id": "C64", "title": "Four-particle integration limits lose no allowed configuration", "statement": "Whenever the four-particle integrand is non-zero at (p0,p1,p2), p1 lies within the limits the loop sets for p0 and p2 within those of the inner integral: for decays without condition, for scattering up to the caller's upper limit for p1, for creation of a massive particle up to its largest momentum. For open decays the limits are real numbers. Creation of a massless particle is skipped; conservation then leaves only collinear momenta.", "quantifier": "all masses, momenta, matrix elements and integral kinds", "why_tests_cant": "region of a continuum; a cut that removes part of the phase space gives plausible smaller numbers", "anchors": ["interactions/four_particle/cpp/integral.cpp:integration", "interactions/four_particle/cpp/integral.cpp:integrand_2nd_integration", "interactions/four_particle/cpp/integral.cpp:p2_max_scat", "interactions/four_particle/cpp/integral.cpp:p2_min_scat", "interactions/four_particle/cpp/integral.cpp:p2_max_dec"]}
{"id": "C65", "title": "Three-particle integration limits are exact", "statement": "For decays and creations with the first particle moving, the limits for p1 contain every momentum with non-zero integrand (with product momentum up to its maximum) and strictly inside the limits the integrand's kinematic factor is non-zero; for the first particle at rest the integrand is evaluated at the unique momentum compatible with energy conservation.", "quantifier": "all masses for which the process is open, all momenta", "why_tests_cant": "region of a continuum", "anchors": ["interactions/three_particle/cpp/integral.cpp:p1_bounds_1", "interactions/three_particle/cpp/integral.cpp:p1_bounds_2", "interactions/three_particle/cpp/integral.cpp:p1_bounds_3", "interactions/three_particle/cpp/integral.cpp:p1_bounds_4", "interactions/three_particle/cpp/integral.cpp:integration_3"]}
{"id": "C66", "title": "Creation cut-offs drop only forbidden momenta", "statement": "The momentum bounds outside which the collision integral of a created particle is replaced by zero contain every momentum that a decaying particle on its own grid can give it (two- and three-body decays), the two-body upper bound being reached.", "quantifier": "all masses above threshold, all parent momenta up to the grid maximum, all allowed daughter momenta", "why_tests_cant": "continuum of kinematic configurations", "anchors": ["common/kinematics.py:three_particle_bounds_creation", "common/kinematics.py:four_particle_bounds_creation", "common/kinematics.py:three_particle_grid_bounds_creation"]}
{"id": "C67", "title": "Meson used to choose the grid", "statement": "The grid resolution of a neutrino or meson uses the heaviest listed meson strictly lighter than the particle; for a mass equal to or below the lightest meson the index wraps around and the heaviest meson is used.", "quantifier": "all increasing meson tables, all masses", "why_tests_cant": "boundary behaviour over a continuum", "anchors": ["common/kinematics.py:grid_resolution_neutrino", "common/kinematics.py:grid_resolution_meson"]}
{"id": "C68", "title": "Temperature derivative in the nuclear-network table", "statement": "Each row of the table handed to the nuclear network has the twelve announced columns with the six weak rates last, and its dT/dt entry is the time derivative of T = aT/a along the expansion history, in linear and in logarithmic stepping mode.", "quantifier": "all parameter states, all slopes, both stepping modes", "why_tests_cant": "derivative identity over a continuum of states", "anchors": ["evolution.py:Universe.save", "kawano.py:heading"]}
{"id": "C69", "title": "The temperature equation conserves energy", "statement": "The slope of the comoving temperature computed from the particles' numerators and denominators is the unique one for which the total energy density obeys d(a^3 rho) + p d(a^3) = 0 when the non-equilibrium distributions change at the rate of their collision terms: for any mixture of radiation, massive equilibrium and non-equilibrium species in logarithmic mode, and for any equilibrium mixture in linear mode.", "quantifier": "all particle contents, masses, temperatures, grids, distributions", "why_tests_cant": "differential identity over all mixtures; a wrong term shifts the temperature by percents", "anchors": ["evolution.py:calculate_temperature_terms", "evolution.py:Universe.integrand", "particles/RadiationParticle.py:denominator", "particles/IntermediateParticle.py:numerator", "particles/IntermediateParticle.py:denominator", "particles/NonEqParticle.py:numerator"]}
{"id": "C70", "title": "Energy conservation with non-equilibrium species in linear mode", "statement": "With linear steps and non-equilibrium species, energy should be conserved as in C69; the numerator divides the collision term by x although it already is a rate per unit of x, so conservation holds only if x=1 or the total energy exchange vanishes.", "quantifier": "all particle contents and states", "why_tests_cant": "the factor is invisible in runs with logarithmic steps", "anchors": ["particles/NonEqParticle.py:numerator", "interactions/four_particle/__init__.py:FourParticleIntegral.integrate"]}
{"id": "C71", "title": "Comoving temperature of an equilibrium plasma never decreases", "statement": "For equilibrium content every numerator is non-negative and every denominator positive, so the slope of aT is non-negative; a run with Euler steps never decreases aT.", "quantifier": "all equilibrium contents, all numbers of steps", "why_tests_cant": "inductive over unbounded steps", "anchors": ["evolution.py:Universe.integrand", "particles/IntermediateParticle.py:numerator", "particles/IntermediateParticle.py:denominator"]}
{"id": "C72", "title": "The two quadratures of the massive temperature terms agree", "statement": "The Gauss-Laguerre and Gauss-Legendre versions of the integral Int(k) approximate the same momentum integral: the Laguerre integrand with weight exp(-eps) is the exact substitution y = aT sqrt(eps(eps+2 mu)), and the error of the Laguerre branch is the prefactor times the error of the rule.", "quantifier": "all masses, temperatures, powers, statistics", "why_tests_cant": "change of variables over a continuum", "anchors": ["particles/IntermediateParticle.py:Int"]}
{"id": "C73", "title": "Entropy and pressure of non-equilibrium species", "statement": "With non-negative quadrature weights and partly filled modes the entropy is non-negative, zero only for empty modes, and on thermal occupations equals the thermodynamic entropy per mode; the pressure is non-negative and at most a third of the energy density, exactly a third for massless species.", "quantifier": "all grids, distributions, statistics", "why_tests_cant": "inequalities over all distributions", "anchors": ["particles/NonEqParticle.py:entropy", "particles/NonEqParticle.py:pressure", "particles/NonEqParticle.py:energy_density"]}
{"id": "C74", "title": "H-theorem for the collision functional", "statement": "For every reaction the net rate returned by the statistics functional times the entropy gained per event is non-negative and vanishes exactly when the functional does; the functional vanishes exactly in chemical equilibrium.", "quantifier": "any number of particles, all statistics, sides and partly filled modes", "why_tests_cant": "second law for all distributions", "anchors": ["interactions/four_particle/cpp/integral.cpp:F_A", "interactions/four_particle/cpp/integral.cpp:F_B", "interactions/four_particle/cpp/integral.cpp:F_f", "interactions/four_particle/cpp/integral.cpp:F_1"]}
{"id": "C75", "title": "Closed radiation formulas are the momentum integrals", "statement": "For massless species energy density and pressure of the radiation regime are exactly the integrals over all momenta of the integrands of the intermediate regime; the number density, which uses 1.2 for zeta(3), is below the integral by less than 0.25 percent.", "quantifier": "all temperatures, degrees of freedom, statistics", "why_tests_cant": "improper integrals over a continuum", "anchors": ["particles/RadiationParticle.py:density", "particles/RadiationParticle.py:energy_density", "particles/RadiationParticle.py:pressure"]}
{"id": "C76", "title": "SI units are mutually consistent", "statement": "In the natural units of the program c = 1, so 299792458 metres are one second, the newton is kg m/s^2 and g/cm^3 is 1000 kg/m^3. In the code the metre is too small by 2 pi (h c instead of hbar c): all three relations fail; with the metre multiplied by 2 pi they hold within a percent.", "quantifier": "all base values of eV", "why_tests_cant": "relation between constants of different dimension for every base value", "anchors": ["common/__init__.py:UNITS.reset_units"]}
{"id": "C77", "title": "The recorded table satisfies the expansion equations", "statement": "For consecutive rows of one evolve call: x advances by the step, a = x/m, T = aT/a, the time by the Friedmann step for the density of the later row, N_eff is the excess over photons in units of a massless neutrino at T/1.401 (T of the earlier row), and aT advances by h times the textbook Adams-Bashforth combination of the newest recorded slopes (at most five, including the later row's), or by h times that slope when the method is off. The first row repeats the state evolve was called with.", "quantifier": "all physics, both step modes, both methods, every number of rows, any earlier history", "why_tests_cant": "relation between all rows of runs of any length", "anchors": ["evolution.py:Universe.make_step", "evolution.py:Universe.save_params", "common/__init__.py:Params.update", "common/integrators/__init__.py:adams_bashforth_correction"]}
{"id": "C78", "title": "Which temperature the density and N_eff columns belong to", "statement": "In an equilibrium plasma the density stored with a row is that of the temperature of the row before it; for radiation it exceeds the density at the row's own temperature by the fourth power of the ratio of the two temperatures. If that density is photons plus N two-component massless fermions at T_nu, the stored N_eff is N (1.401 T_nu/T)^4 with T of the earlier row.", "quantifier": "all equilibrium contents, both step modes, every number of rows", "why_tests_cant": "relation between columns over whole runs", "anchors": ["evolution.py:Universe.make_step", "evolution.py:Universe.update_particles", "common/__init__.py:Params.update"]}
{"id": "C79", "title": "A density passed to Params makes the universe unusable", "statement": "Params(rho=...) can be constructed, but evolve on a universe with it always raises AttributeError before the first row is stored; without a density the start of evolve stores exactly one row with the density and entropy of the particles and slope 0.", "quantifier": "all parameters, physics, final temperatures", "why_tests_cant": "every construction with the keyword", "anchors": ["common/__init__.py:Params.__init__", "common/__init__.py:Params.update", "evolution.py:Universe.evolve", "evolution.py:Universe.save_params"]}
{"id": "C80", "title": "Oscillations use the mixing angles in matter", "statement": "With matter effects the oscillation table used at momentum y and temperature T is that of the angles which diagonalise the two-flavour Hamiltonians with the matter potential 'MSW y^2 T^4/(dm^2 a^2)', with the opposite sign of the 13 potential for the inverted hierarchy; mixing is suppressed at high temperature. For the inverted hierarchy beyond the resonance the code's arctan takes the wrong branch and the table has electron and tau flavour exchanged.", "quantifier": "all temperatures, momenta, scale factors, splittings and potential strengths", "why_tests_cant": "the wrong branch appears only beyond a resonance that depends on momentum and temperature", "anchors": ["evolution.py:Universe.oscillation_parameters", "library/SM.py:oscillations_map", "common/__init__.py:CONST"]}
{"id": "C81", "title": "State of a particle after it joins a universe", "statement": "After set_params a particle has T and aT of the universe, a thermal distribution at its conformal mass (zero for a non-thermal species), and is in equilibrium exactly when it is thermal and above its decoupling temperature; a non-thermal species without a decoupling temperature gets the initial temperature, so its reactions take part exactly once the universe has cooled below it.", "quantifier": "all species, statistics, masses, parameters and reaction lists", "why_tests_cant": "universally quantified over masses and temperatures", "anchors": ["particles/__init__.py:DistributionParticle.set_params", "particles/__init__.py:DistributionParticle.init_distribution", "particles/__init__.py:DistributionParticle.update", "interactions/four_particle/__init__.py:FourParticleIntegral.initialize"]}
{"id": "C82", "title": "Fast-decaying species decay exponentially", "statement": "A decoupled thermal species with fast_decay has, after any completed sequence of steps, the thermal distribution of decoupling times exp(-(t - t_dec)/lifetime) with t the time of the last step, whatever reactions are registered; t_dec is the time of the update that took it out of equilibrium, or the second stored time if it never was in equilibrium.", "quantifier": "all sequences of steps, lifetimes, grids, reactions", "why_tests_cant": "induction over runs of any length", "anchors": ["particles/__init__.py:DistributionParticle.update_distribution", "particles/__init__.py:DistributionParticle.update"]}
{"id": "C83", "title": "Looking up a distribution is exact for thermal shapes", "statement": "distribution(p) of a species in equilibrium is the thermal occupation at the conformal mass; of a decoupled species whose stored values are thermal for the mass at decoupling it is that thermal occupation at every momentum of the grid range, on and between grid points.", "quantifier": "all momenta in the grid range, grids, masses, statistics, later times", "why_tests_cant": "continuum of momenta between grid points", "anchors": ["particles/__init__.py:DistributionParticle.distribution", "interactions/four_particle/cpp/integral.cpp:distribution_interpolation"]}
{"id": "C84", "title": "What the kinds of a collision integral mean", "statement": "For the kind passed to the integration routine: 0 (and any unknown value) is gain minus loss of the reaction, 1 the value for an empty first state, 2 the slope in the occupation of the first state (so 1 + f0 * 2 = 0), 6 the gain, 7 minus the loss per particle in the first state. The vacuum kinds 3, 4, 5 equal 0, 1, 2 exactly for decays into empty states; for creation reactions kind 4 equals kind 1 when the other products are absent, but kind 3 then lacks the blocking of the product.", "quantifier": "all reactions, occupations, statistics, both numbers of particles", "why_tests_cant": "all distributions and both particle numbers at once", "anchors": ["interactions/four_particle/cpp/integral.cpp:integrand_full", "interactions/three_particle/cpp/integral.cpp:integrand_full"]}
{"id": "C85", "title": "The four-particle integrand is the phase-space integrand", "statement": "For a physical configuration the integrand is dE1/dp1 * dE2/dp2 / (p0 E0) times the squared matrix element averaged over the momentum-conserving directions times the statistics factor; at p0 = 0 it is the limit of the kernel for p0 -> 0. Constant matrix elements K are instead used without the average and without 1/(p0 E0), and only that of the first matrix element.", "quantifier": "all masses, momenta, couplings, orders of the particles, distributions, kinds", "why_tests_cant": "continuum of configurations, real-analytic kernels", "anchors": ["interactions/four_particle/cpp/integral.cpp:integrand_full", "interactions/four_particle/cpp/integral.cpp:D", "interactions/four_particle/cpp/integral.cpp:Db"]}
{"id": "C86", "title": "Two-body decays happen at the textbook rate", "statement": "integrate() of a three-particle integral for a decay into empty states (kind F_f_vacuum_decay, converged quadrature) gives at every grid momentum, including 0, minus Gamma*M/E*f/H with Gamma = K k/(8 pi M^2) divided by the degrees of freedom counted by the code, k the momentum of the products at rest and E the physical energy; divided by x in linear mode.", "quantifier": "all masses with an open channel, grids starting at 0, distributions, scale factors, normalisations of a, schedules of the parallel loop", "why_tests_cant": "integral over a continuum for every mass, momentum and scale factor", "anchors": ["interactions/three_particle/__init__.py:ThreeParticleIntegral.integrate", "interactions/three_particle/cpp/integral.cpp:integration_3", "interactions/three_particle/cpp/integral.cpp:integrand_full"]}
{"id": "C87", "title": "What one species loses the others gain", "statement": "For the full kind, the number of changes of state per cell of phase space computed from the collision integrand of one particle of a reaction equals that computed from the integrand of any other particle, up to the sign given by the sides; hence energy and every additive charge conserved by the reaction is conserved configuration by configuration. Holds for four particles (scalar-product matrix elements) and for three.", "quantifier": "all reactions, orders of the particles, masses, momenta, couplings, non-negative distributions", "why_tests_cant": "relation between separately computed integrals over a continuum of configurations", "anchors": ["interactions/four_particle/cpp/integral.cpp:integrand_full", "interactions/three_particle/cpp/integral.cpp:integrand_full"]}
{"id": "C88", "title": "Four-particle collision terms are the textbook ones, whatever the unit of momentum", "statement": "FourParticleIntegral.integrate (converged quadrature, matrix elements without a constant K) returns the same for every value of params.aT, the unit in which it expresses masses, momenta and temperatures; its Full output is the double integral over physical momenta y/a with physical masses and the matrix elements as given, divided by 64 pi^3 g H (and by x in linear mode), so the 32 G_F^2 normalisation drops out.", "quantifier": "all reactions, kinds, grids, masses, distributions, couplings, schedules of the parallel loop, a, aT", "why_tests_cant": "relation between integrals over a continuum for all parameters at once", "anchors": ["interactions/four_particle/__init__.py:FourParticleIntegral.integrate", "interactions/four_particle/cpp/integral.cpp:integration"]}
{"id": "C89", "title": "Three-body decays happen at the Fermi rate", "statement": "For a particle of mass m decaying into three massless particles whose states are empty, FourParticleIntegral.integrate (kind Full, converged quadrature, linear or logarithmic time) returns, at every momentum y kept by the grid cut, the pair (-Gamma (m/E) f / H, -Gamma (m/E) / H) with the textbook width Gamma = (sum of K1) m^5 / (12288 pi^3 g) and E the physical energy of the particle (time dilation); the result does not depend on which decay product each matrix element pairs with the decaying particle, nor on K2, nor on the thread schedule.", "quantifier": "all matrix-element lists, index orders, couplings, masses, momenta (at rest and moving), grids, scale factors, schedules", "why_tests_cant": "The width is the result of a double integral of a piecewise kernel; a test compares a few numbers with quadrature error and cannot separate a wrong constant from discretisation error.", "anchors": ["interactions/four_particle/__init__.py:105-205", "interactions/four_particle/cpp/integral.cpp:120-348", "interactions/four_particle/cpp/integral.cpp:389-398", "interactions/four_particle/cpp/integral.cpp:542-698"]}
{"id": "C90", "title": "Every registered integral enters the collision term once, with the right part treated implicitly", "statement": "integrate of a three- or four-particle integral returns a pair of arrays over the own grid for the kinds Full and Full_vacuum_decay and one array otherwise, which is what calculate_collision_integral unpacks; the solver then receives at every grid point the sum of the slopes and the sum of the implicit parts (second array of pairs; the array itself for F_decay and F_f_vacuum_decay) over all registered integrals.", "quantifier": "all lists of registered integrals, kinds, grids, states, thread schedules", "why_tests_cant": "ties the shape of the result to the kind for every combination of kind, neglect mode and cut; a test sees one registered list", "anchors": ["particles/__init__.py:288-339", "interactions/three_particle/__init__.py:56-140", "interactions/four_particle/__init__.py:105-205"]}
{"id": "C91", "title": "All collision terms of a step are computed from one state", "statement": "calculate_collisions evaluates the integrals of every particle in the state reached after update and init_interactions, except that particles standing earlier in the list which are found decayed in this very step are already empty; nothing else changes. Without such a decay the order of the particles is irrelevant; with one it matters (refuted by a concrete universe).", "quantifier": "all universes, particle lists, integrals that do not read collision_integral, states", "why_tests_cant": "needs every interleaving of decays with the loop over particles", "anchors": ["evolution.py:229-238", "particles/__init__.py:285-339", "common/kinematics.py:376-385"]}
{"id": "C92", "title": "Every particle of a universe evolves by the single-species step", "statement": "In a completed run of update_particles, init_interactions, calculate_collisions, update_distributions, the history of each particle is a run of the single-species step with collision sums taken from the common state. Hence in every universe decoupling is irreversible, decayed species stay empty and registered integrals do not accumulate, whatever the other particles do.", "quantifier": "all universes, numbers of particles, reactions, run lengths, outcomes of the integrals", "why_tests_cant": "unbounded runs of arbitrarily many coupled particles", "anchors": ["evolution.py:207-258", "evolution.py:286-293", "particles/__init__.py:215-339"]}
{"id": "C93", "title": "A two-body decay and its inverse conserve particle numbers and energy", "statement": "For X -> a + b the collision arrays of X, a and b, computed separately by integration3, are the values on the grids of three functions I_X, I_a, I_b of the momentum with ∫p²I_a = ∫p²I_b = -∫_0^P p²I_X and ∫p²E_a I_a + ∫p²E_b I_b = -∫_0^P p²E_X I_X, P being the end of the momentum grid of X (the cut-off max_2 handed to the loops of a and b). The same holds for the arrays returned by ThreeParticleIntegral.integrate, in comoving momenta and weighted with degrees of freedom over multiplicity: the cuts of the grids of a and b lose nothing.", "quantifier": "all masses with M > m_a + m_b (m_a, m_b >= 0), all stored non-negative spectra (fermions below 1) and thermal spectra, both statistics, all grids, schedules and cut-offs; exact quadrature", "why_tests_cant": "an identity between three integrals over arbitrary functions; a test sees a few spectra through quadrature error", "anchors": ["interactions/three_particle/cpp/integral.cpp:132-374", "interactions/three_particle/cpp/integral.cpp:377-555", "interactions/three_particle/__init__.py:45-140"]}
{"id": "C94", "title": "Interpolated collision integrals on fine grids", "statement": "On a grid finer than FOUR_PARTICLE_GRID_RESOLUTION the four-particle integral is evaluated at selected momenta only. First and last momentum are selected, selected entries are exact, every other entry lies on the chord between the exact values at the two selected momenta around it, and the nodes are at most twice the resolution apart. On coarser grids nothing is interpolated. If the cut leaves several momenta all within the resolution there is a single node and ValueError is raised.", "quantifier": "all strictly increasing grids, cuts, resolutions, collision functions; decays, inverse decays and unclassified reactions at the level of integrate; exact quadrature", "why_tests_cant": "the selection depends on the position of every grid point relative to an unrelated linspace; the single-node case depends on kinematics", "anchors": ["common/kinematics.py:351-360", "interactions/four_particle/__init__.py:160-190"]}
{"id": "C95", "title": "The recommended grids are usable and as fine as asked", "statement": "grid_resolution_* return a positive number not above FOUR_PARTICLE_GRID_RESOLUTION for every mass (also where the energy spread is below threshold and numpy returns nan). The grid built from grid_params_* has a spacing just above that resolution. A meson or muon from a decay at rest stays on its grid for all scale factors up to MAX_SCALE_FACTOR. The heavy-neutrino grid has 341 samples for every mass and mixing and ends where the thermal occupation at decoupling is 1e-100. Neutrino integrals are interpolated (C94) exactly when a finer resolution was asked for.", "quantifier": "all masses, mixings, units, settings; the exception for tiny masses (0 samples, replaced by the default) is stated", "why_tests_cant": "continuum of masses with thresholds, nan branches and an index that wraps", "anchors": ["common/kinematics.py:180-279"]}
{"id": "C96", "title": "A reaction is skipped for all its participants or for none", "statement": "Neglect4pInteraction decides a scattering identically in the views of its four particles; a decay X -> a b c is skipped for X exactly when it is skipped for the products, provided X has not been declared decayed and is not the heavy neutrino above its mass. In that last case the loss of X is skipped while its products are created. Two-body decays have no such exception.", "quantifier": "all species states, temperatures, settings", "why_tests_cant": "the decisions are taken in separate integrals from different positions of the reaction", "anchors": ["common/kinematics.py:281-323"]}
{"id": "C97", "title": "The momentum cut of scattering and decay integrals does not depend on unrelated earlier work", "statement": "After an integral of the heavy neutrino has been evaluated, the cut of every later scattering or decay integral is determined by its latest evaluation only. Before one, it is determined by the variable HNL_ENERGY left in the process environment by earlier runs: the claim fails, entries above the default are evaluated or zeroed depending on what ran before. The cut of decays also lies below momenta that the products of the heavy neutrino reach.", "quantifier": "all sequences of integrals in a process, all grids", "why_tests_cant": "process-wide state carried across universes; tests run each universe in isolation", "anchors": ["common/kinematics.py:89-143", "common/kinematics.py:347-349", "interactions/four_particle/__init__.py:155-158"]}
{"id": "C98", "title": "The declared interactions conserve charge and lepton flavour", "statement": "Every interaction declared by neutrino_interactions, lepton_interactions, meson_interactions, sterile_leptons_interactions, sterile_quark_interactions, sterile_hadrons_interactions conserves each additive charge (electric charge, each lepton flavour) conserved at the elementary vertices, and so does every reaction generated from it. Four declarations (K -> 3 pi, K_L -> pi e nu, K_L -> pi mu nu, omega -> 3 pi) have a wrong antiparticle flag: every reaction generated from them violates electric charge by two units. The proton template has charge -1, so neutron decay does not conserve it either.", "quantifier": "all lists of particles, all charges in an abelian group, all lists of primary mesons, all mixings", "why_tests_cant": "one flag per leg in some sixty declarations, combined with crossing; a test must pick the charge and the declaration", "anchors": ["library/SM.py:44-453", "library/SM.py:456-999", "library/NuMSM.py:72-440"]}
{"id": "C99", "title": "Every participant of a declared reaction receives its integral", "statement": "The species that receive a collision integral from a declaration are exactly those with a leg that can be brought to the front as an incoming particle. For neutrino and lepton interactions, pion decays and the decays of the heavy neutrino into leptons or mesons the conjugate declarations together cover all participants. They do not for decays of the heavy neutrino into quarks (the active neutrino, or the lepton and up quark, receive nothing) nor for kaon, rho and omega decays (charged pions, muons and electrons receive nothing although the parent loses energy).", "quantifier": "all masses, all particles, all lists of primary mesons", "why_tests_cant": "the absence of an integral is silent; which species lead is a combinatorial consequence of the flags", "anchors": ["library/SM.py:456-999", "library/NuMSM.py:72-440", "interactions/__init__.py:39-191"]}
{"id": "C100", "title": "Meson decay chains are complete and counted once", "statement": "meson_interactions declares, for each meson occurring in any declared reaction, all channels of its decay table, and the lepton interactions if muons occur and were not declared elsewhere. Each decay is declared exactly once provided that no primary meson is repeated or descends from an earlier one; otherwise it is declared twice and the meson decays at double rate.", "quantifier": "all lists of primary mesons, any length and order", "why_tests_cant": "the presence checks depend on the whole list built so far; order-dependent duplicates need the right pair of mesons", "anchors": ["library/SM.py:661-987"]}
{"id": "C101", "title": "Declared decays have the textbook widths", "statement": "A particle with a declared decay into empty massless or massive products disappears at the textbook rate: pi+ -> l nu: G_F^2 f^2 |V_ud|^2 m_l^2 M (1-m_l^2/M^2)^2/(8 pi); pi0 -> gamma gamma: alpha^2 M^3/(32 pi^3 f^2); heavy neutrino into nu + neutral meson and l + charged meson with its mixing angle; muon: G_F^2 m^5/(192 pi^3); heavy neutrino into three neutrinos: G_F^2 M^5 sum theta^2/(192 pi^3) and into lepton pairs with the neutral-current and charged-current couplings. The total over all integrals kept by the filters of sterile_leptons_interactions is that of the declarations. The statement is false for charged vector mesons: their amplitude uses the mixing angle of the last neutrino of the list instead of that of the lepton.", "quantifier": "all masses, mixing angles, couplings, lists of neutrinos, leptons and mesons, grids, temperatures and occupation of the parent", "why_tests_cant": "the width results from crossing, merging of duplicates, filtering, multipliers and the phase-space integral together; numerical tests see one mass with quadrature error", "anchors": ["library/SM.py:512-524", "library/SM.py:602-635", "library/NuMSM.py:74-212", "library/NuMSM.py:295-440", "interactions/__init__.py:105-284"]}
{"id": "C102", "title": "Three-body decays conserve particles and energy", "statement": "For X -> a + b + c together with its inverse, with arbitrary (stored or thermal) spectra and matrix elements of the dot-product kinds: the arrays that FourParticleIntegral.integrate returns to the four species are samples of four functions of the comoving momentum; weighted with the degrees of freedom and multiplicities by which integrate divides, the number of X lost up to the end of its grid equals the number of a, of b and of c gained, and the comoving energy lost by X equals the energy gained by a, b and c together. The cut of the grids of the products discards only zeros.", "quantifier": "all spectra, masses with m1+m2+m3 <= m0, lists of matrix elements with K = 0, momentum grids, statistics, schedules", "why_tests_cant": "The four arrays are computed separately, from different orderings of the reaction, with different limits of integration and cut-offs; the balance is an identity between double integrals over all momenta, which a run with finitely many nodes shows only up to quadrature error.", "anchors": ["interactions/four_particle/cpp/integral.cpp:249-698", "interactions/four_particle/__init__.py:105-205", "common/kinematics.py:63-126"]}
{"id": "C103", "title": "All participants of a process feel it equally", "statement": "After the removals in sterile_leptons_interactions, every process between the heavy neutrino, neutrinos and leptons enters the equations of all its participants with the same total coefficient (sum of K1 over the integrals, times the collision multiplier), times the number of particles of the species on the side in question; otherwise particle number or energy is not conserved in the process.", "quantifier": "for all sets of species with distinct names, all mixing angles, all masses (open channels), all processes", "why_tests_cant": "The removals select integrals by name and side after crossing; the balance concerns all crossings of two declarations at once and fails only for some channels; a run shows no error.", "anchors": ["library/NuMSM.py:145-212", "library/NuMSM.py:74-143", "interactions/__init__.py:105-284", "interactions/four_particle/__init__.py"]}
{"id": "C104", "title": "Scatterings of two particles conserve particles and energy", "statement": "For a + b <-> c + d, with arbitrary (stored or thermal) spectra and matrix elements of the dot-product kinds: the arrays that FourParticleIntegral.integrate returns to the four species are samples of four functions of the comoving momentum. Weighted with the degrees of freedom and multiplicities by which integrate divides: the numbers gained by the two particles of one side are equal, always; if no event with one side inside its grids has the other side outside them (e.g. spectra without particles that could produce such events), the number lost on one side equals the number gained on the other and the comoving energy of the four species together does not change. Without confinement the difference is exactly the integral over the events that leave the grids.", "quantifier": "all spectra, masses, lists of matrix elements with K = 0, statistics, schedules; momentum grids within the cut-off of four_particle_grid_cutoff_scattering", "why_tests_cant": "The four arrays are computed separately from different orderings of the reaction, with different integration limits; the balance is an identity between triple integrals over all momenta, which a run with finitely many nodes shows only up to quadrature error.", "anchors": ["interactions/four_particle/cpp/integral.cpp:249-698", "interactions/four_particle/__init__.py:105-205", "common/kinematics.py:63-126"]}
{"id": "C105", "title": "Decays never decrease the entropy", "statement": "For a decay X -> a + b or X -> a + b + c together with its inverse, with stored or thermal spectra that leave no mode empty or (fermions) full: the collision integrals computed by the C++ integration for the participating species, each taken as the rate of change of its spectrum, do not decrease the total entropy of the species (sum over species of the integral over p^2 of the derivative of the entropy per mode times the collision integral, up to the end of the grid of X and over all momenta its products can have). The total vanishes only if every collision integral vanishes at almost all momenta. Three-body decays: for matrix elements whose kernel is not negative, in particular for K1, K2 >= 0. The same holds for the arrays returned by integrate, with the entropy of each species weighted by the degrees of freedom by which integrate divides, at any a, aT, and positive H.", "quantifier": "all spectra without empty or full modes (tables of any length, thermal spectra except massless bosons), masses, statistics, lists of matrix elements with K = 0 and non-negative kernel, grids, schedules", "why_tests_cant": "Each species computes its integral from its own view of the reaction with its own limits; only the sum over all of them has a sign. Whether it holds for all spectra is an inequality between integrals over all momenta, and a sample of spectra cannot show that equality happens only in equilibrium.", "anchors": ["interactions/three_particle/cpp/integral.cpp:248-555", "interactions/four_particle/cpp/integral.cpp:249-698", "interactions/three_particle/cpp/integral.cpp:41-118", "interactions/three_particle/__init__.py:45-140"]}
{"id": "C106", "title": "Standard Model processes are felt equally by all participants", "statement": "In the integrals generated from neutrino_interactions and lepton_interactions together, every process L <-> R (with any species on the two sides) enters the equation of each of its participants with the same total coefficient (sum of K1 over the integrals, times the collision multiplier), times the number of particles of that species on its side. The coefficient is the sum over the declarations of the number of ways to divide the four legs into L and R times half the declared coefficient; it is zero for decays forbidden by the masses. In particular muon and tau decays, annihilation and scattering transfer as much to one participant as they take from another.", "quantifier": "all lists of neutrinos and charged leptons with distinct names and any masses >= 0, all processes L, R, all participants, all values of the couplings", "why_tests_cant": "The integrals arise from crossing every declaration in all ways, merging equal ones and multiplying by a factor that depends on the reaction. Whether all participants end up with the same weight is a statement about the whole generated list, for arbitrary lists of species; a species left out or counted twice only shows as a slow violation of conservation laws.", "anchors": ["library/SM.py:460-600", "interactions/__init__.py:56-284", "common/kinematics.py:325-335"]}
{"id": "C107", "title": "Standard Model scatterings together conserve energy and particle number", "statement": "Take all 2 -> 2 integrals that the library generates from neutrino_interactions and lepton_interactions (all crossings of all declarations, merged), for any lists of neutrinos and charged leptons, and evaluate each with integrate on the grid of its own particle. If no event has one side of its reaction inside the grids and the other outside, then the sum over all integrals of degrees of freedom times the momentum integral of q(energy) times the returned array vanishes for every quantity q that is additive in the reactions; in particular for particle number and for comoving energy. All integrals from neutrino_interactions are of this kind. A spectrum whose stored values vanish from some grid point on has no particles beyond, so the condition can be met.", "quantifier": "all lists of light neutrinos and leptons with distinct names, all couplings, spectra, masses >= 0, scale factors, grids, schedules and additive quantities", "why_tests_cant": "tests/conservation_sum_rules checks the sums numerically for one spectrum and one set of particles, with quadrature errors. Conservation is a cancellation between integrals of different species computed from different crossings with different permutations of the matrix elements, and holds or fails for all spectra at once.", "anchors": ["tests/conservation_sum_rules/__main__.py", "interactions/__init__.py:56-284", "library/SM.py:460-600", "interactions/four_particle/__init__.py:105-205", "interactions/four_particle/cpp/integral.cpp:249-698"]}
{"id": "C108", "title": "Declared matrix elements are those of the Fermi theory", "statement": "The squared matrix elements which the library declares for weak reactions of four fermions are the sums over all spins of the squared amplitude (G_F/sqrt 2) [x Gamma^mu y][z Gamma'_mu w] of the four-fermion theory, with gamma matrices, spinors of particles and antiparticles and the currents of the electroweak theory: neutrino scattering, charged currents, heavy neutrino with leptons, neutrinos and quarks (for one colour), with the couplings g_L = -1/2 + s (+1 for equal flavours), g_R = s, and T_3 - Q s, -Q s for quarks. Every pair of neutrinos is declared exactly once, and so is every pair of a neutrino and a lepton. After crossing, the relabelled elements are again those of the theory for the crossed reaction. The annihilation nu + anti-nu -> l- + l+ is declared with the momenta of l- and l+ exchanged, which does not change the total of the generated integrals; the declared amplitude of neutron decay is not that of a vector and axial current.", "quantifier": "all momenta and masses, on and off shell, all couplings, flavours and lists of species, all crossings", "why_tests_cant": "The declarations are tables of numbers K1, K2 and permutations; a wrong factor or permutation yields a run without errors and plausible spectra. A test can compare with numbers copied from the same paper; the derivation from the interaction holds for all momenta.", "anchors": ["library/SM.py:17-27", "library/SM.py:460-524", "library/SM.py:542-558", "library/SM.py:989-999", "library/NuMSM.py:20-30", "library/NuMSM.py:74-143", "library/NuMSM.py:241-286", "interactions/__init__.py:180-230"]}
{"id": "C109", "title": "Standard Model scatterings never decrease the entropy", "statement": "Take all 2 -> 2 integrals that the library generates from neutrino_interactions and lepton_interactions, each evaluated with integrate on the grid of its own particle. (1) The total rate with which they feed an event of particles on shell is not negative, although single matrix elements (K2 = 4 g_L g_R for muon and tau neutrinos with g_L < 0) give negative contributions. (2) The kernel D of every pairing of the momenta is the average of the squared amplitude over one and the same set of configurations: four vectors of the given lengths with vanishing sum. (3) If no stored occupation number of a fermion exceeds one and no event has one side inside the grids and the other outside, then the sum over all integrals of degrees of freedom times the momentum integral of log((1 -+ f)/f) times the returned array is not negative; with f and 1 -+ f below eps replaced with eps the sum is at least -C eps (1 + |log eps|).", "quantifier": "all lists of light neutrinos and leptons with distinct names, all couplings, spectra, masses >= 0, scale factors, grids, schedules and eps in (0, 1]", "why_tests_cant": "Positivity is not a property of any single matrix element or integral: it appears only after all crossings of all declarations which share an event are added, and only because the coefficients of the terms fit each other. A run samples some spectra; that no spectrum loses entropy is an inequality for all of them.", "anchors": ["library/SM.py:460-600", "interactions/__init__.py:56-284", "interactions/four_particle/__init__.py:105-205", "interactions/four_particle/cpp/Ds.cpp", "interactions/four_particle/cpp/integral.cpp:249-698"]}
{"id": "C110", "title": "Decay products of the primary interactions decay", "statement": "interactions_decay_products returns, for all unstable species that come out of the given primary interactions, their decays down the chain: every meson that comes out (and every meson in any returned interaction) has all its decays declared, muons and taus likewise, each declared once; of each interaction exactly the decays and inverse decays are kept, with the kind of decays for the former and of creations for the latter, and these integrals can be computed.", "quantifier": "all particle tables with distinct names and open decays, all lists of mesons, leptons and neutrinos, all primary interactions, both values of muon_dec, all kinds", "why_tests_cant": "a test runs one choice of primary interactions and mesons; completeness and single counting concern all combinations of particles that can come out", "anchors": ["library/NuMSM.py:444-499", "library/SM.py:560-600", "library/SM.py:661-987", "common/utils.py:125-142"]}
{"id": "C111", "title": "All Standard Model reactions together conserve energy and never decrease the entropy", "statement": "Take all integrals that the library generates from neutrino_interactions and lepton_interactions: scatterings, decays of heavy leptons (mu -> e nu nu and the like) and the inverse decays felt by the products. Evaluate each with integrate on the grid of its own particle, with the bounds and cuts of the code. (1) Every generated integral that is not a scattering is one of the four integrals of one decay: one of the parent, one of each product; the four are generated from two declarations (the second with the families exchanged) and see the same squared matrix element. (2) The decays and inverse decays alone, for any spectra, on grids which hold the products: the sum over all integrals of degrees of freedom times the momentum integral of q(energy) times the returned array vanishes for every q additive in the reactions, energy in particular, and the entropy does not decrease. (3) The same for all integrals together, if no scattering has only one side inside the grids.", "quantifier": "all lists of light neutrinos and leptons with distinct names, all couplings, spectra, masses >= 0, scale factors, grids, schedules, additive quantities and eps in (0, 1]", "why_tests_cant": "The four arrays of a decay come from different declarations, loops with different bounds and different permutations of the matrix element; the losses of the parent equal the gains of the products only as integrals over all momenta. A run has quadrature errors of the size of the effect and one set of spectra.", "anchors": ["library/SM.py:512-524", "library/SM.py:542-600", "interactions/__init__.py:56-284", "interactions/four_particle/__init__.py:105-205", "common/kinematics.py:63-130", "interactions/four_particle/cpp/integral.cpp:249-698"]}
{"id": "C112", "title": "Elastic processes conserve the number of every species separately", "statement": "Of the integrals generated from neutrino_interactions, the sum-rule script of the project keeps those with the same species on both sides. The arrays returned by integrate for what is kept do not change the number of particles of any single species, nor the total energy, and do not decrease the entropy; what is dropped are exactly annihilations a + a -> b + b into another species, and for any neutrino and any other neutrino or charged lepton some integral of their elastic scattering is kept for both.", "quantifier": "all lists of neutrinos and charged leptons, all masses, spectra, grids and parameters such that no event is inside the grids of one side of its reaction only", "why_tests_cant": "the script plots a number for one set of spectra, on one grid, and leaves it to the eye whether it is zero", "anchors": ["tests/conservation_sum_rules/__main__.py:38-53", "tests/conservation_sum_rules/test.py:18-30", "library/SM.py:542-558"]}
{"id": "C113", "title": "A species in a thermal bath relaxes towards its own equilibrium", "statement": "If all other particles of a reaction are in equilibrium at a common temperature, then whatever the distribution f of the species itself, the two arrays returned by integrate (four-particle scatterings, decays and inverse decays, and three-particle decays and inverse decays, including zero momentum in the latter) satisfy C = B (f - f_eq) at every momentum of the grid, where f_eq is the Fermi-Dirac or Bose-Einstein distribution of the species with its mass at the temperature of the bath, and B <= 0 for non-negative squared matrix elements. In particular C vanishes in equilibrium; and an implicit Euler step of any size moves f monotonically towards f_eq without overshooting.", "quantifier": "all distributions, masses, statistics (massive if bosons), matrix elements, temperatures, grids, grid cuts, schedules of the threads and step sizes", "why_tests_cant": "The result combines the functionals, the energy of the last particle fixed inside the integrand, the limits of two nested quadratures carried between iterations of a thread, the cut of the grid and the split into A and B; a test at one temperature with quadrature errors cannot distinguish an equilibrium slightly off (wrong mass, units or statistics) from an inexact one.", "anchors": ["interactions/four_particle/__init__.py:105-205", "interactions/three_particle/__init__.py:56-140", "interactions/four_particle/cpp/integral.cpp:124-348", "interactions/four_particle/cpp/integral.cpp:542-698", "interactions/three_particle/cpp/integral.cpp:268-555", "common/integrators/__init__.py:51-66", "particles/__init__.py:341-386"]}
{"id": "C114", "title": "A particle at rest or moving decays into three products with mass at the textbook width", "statement": "For a particle decaying into three empty states of any masses (open channel), integrate of the four-particle integral (kind Full, converged quadrature, linear or logarithmic time) returns at every momentum kept by the grid cut -Gamma (m/E) f / H and -Gamma (m/E) / H, at rest as well as moving, where Gamma is the textbook width: one integral over the energy E of the product which shares a scalar product with the decaying particle, of p sqrt(lambda(s, m_k^2, m_l^2)) / s times the squared matrix element K1 (Q.Q)(Q.Q) + K2 m m (Q.Q), divided by 64 pi^3 m g. With K2 = 0 and one product with mass the result is the massless width times 1 - 8 x^2 + 8 x^6 - x^8 - 24 x^4 ln x, x the mass ratio; for the charged-current declaration of two leptons in the library this adds up to G_F^2 m^5 / (192 pi^3) (1 - 8 r + 8 r^3 - r^4 - 12 r^2 ln r), the width of the muon.", "quantifier": "all masses of an open channel, matrix-element lists, index orders, signs of K1 and K2, grids, scale factors, schedules; all library attributes for the muon", "why_tests_cant": "The kernel of a particle at rest is a different branch of the program from that of a moving one, with its own energy factors, and that both give the same width slowed by time dilation is visible only after two nested integrals; a test has no reference value for a width with mass corrections better than its quadrature error.", "anchors": ["interactions/four_particle/__init__.py:105-205", "interactions/four_particle/cpp/integral.cpp:120-348", "interactions/four_particle/cpp/integral.cpp:389-398", "interactions/four_particle/cpp/integral.cpp:542-698", "library/SM.py:512-525"]}
{"id": "C115", "title": "Nothing stale enters a collision term", "statement": "Four-particle integrals keep three things between calls: the grids stored by the first initialize, and the lists creaction and cMs built by the first integrate after an initialize. Whatever is kept when a run starts, every run of the universe gives exactly the states (or the exception) of the run in which each call of integrate builds everything from the state it is called in, for any number of steps, also when species decay during a step. Calling integrate a second time without init_interactions in between uses the masses, distributions and temperatures of the first call.", "quantifier": "all universes of four-particle integrals, numbers of steps, parameters of the steps, kept attributes at the start, orders of particles and integrals", "why_tests_cant": "a cache is right or wrong depending on the history of calls; a test runs one history", "anchors": ["interactions/four_particle/__init__.py:91-143", "interactions/four_particle/__init__.py:162-163", "evolution.py:207-238", "evolution.py:286-293", "particles/__init__.py:285-339"]}
{"id": "C116", "title": "Annihilation of massive species heats the plasma by the ratio of degrees of freedom", "statement": "Along every history a T = theta(x) which obeys the temperature equation of the program (numerator over denominator of calculate_temperature_terms, with the integrals over all momenta that both branches of Int approximate), the entropy a^3 (rho + p) / T of the species in equilibrium is constant and a T never decreases; theta has limits at early and late times with theta_late^3 g(massless) = theta_early^3 g(all in equilibrium). For photons, electrons and any decoupled species the ratio is (11/4)^(1/3), the number 1.401 of the test scripts and of the formula for N_eff; started at a temperature T_1 the entropy falls short of the full transfer by at most 0.24 sum g (M / T_1)^2 degrees of freedom, so that a run started above 19 electron masses gains a factor between 1.4007 and 1.40103. Such a history exists for every content.", "quantifier": "all contents of massless, massive (fermions and bosons) and decoupled species, masses, degrees of freedom, both step modes, any alternation of the intermediate and dust regimes, all starting points", "why_tests_cant": "the scripts print the deviation from 1.401 of one run, which mixes step size, quadrature and equation; that the equation itself conserves entropy for every content is a statement about all its solutions", "anchors": ["particles/IntermediateParticle.py:99-141", "particles/RadiationParticle.py:63-79", "particles/DustParticle.py:55-56", "evolution.py:256-301", "tests/cosmic_neutrino_temperature/__main__.py:1-60", "tests/photon_electron_universe/__main__.py:9-53", "common/__init__.py:176-181"]}
{"id": "C117", "title": "The steps of the universe converge to the solution of the temperature equation, to first order in dy", "statement": "For a plasma with slope d(aT)/dln x = f(x, aT), if the slope that make_step computes is within eps of f near the solution, every row of a run from x0 up to x = X differs from the solution through the initial state by at most K (dy + eps), with K independent of dy and of the number of steps, in the explicit Euler as well as in the default Adams-Bashforth mode; the run reaches its final temperature normally with x below X. For the temperature equation of equilibrium species (exact integrals) this is unconditional, and the rows of a run with electrons and photons end with a T between 1.4 and 1.402 times its starting value. The Adams-Bashforth mode is not better than first order: x grows by the factor 1 + dy per step but a T by dy times the slope, so with a constant slope q the error is at least q dy / 4 ln(x/x0).", "quantifier": "all physics with the assumed slope, starting states, final x, step sizes below a bound depending on the problem only, numbers of steps, both integration modes, left-over rows of an earlier run", "why_tests_cant": "convergence is a statement about the limit of small steps and all numbers of steps; a test runs one step size and cannot tell slow convergence, or convergence to something else, from the right limit", "anchors": ["evolution.py:181-197", "evolution.py:240-303", "common/integrators/__init__.py:69-110", "common/__init__.py:123-181", "particles/IntermediateParticle.py:99-141", "tests/cosmic_neutrino_temperature/__main__.py:1-60"]}
{"id": "C118", "title": "The column N_eff ends at the number of neutrino species", "statement": "In a run with photons, electrons and positrons and N decoupled massless neutrino species which keep their initial comoving temperature, started above 19 electron masses, in either integration mode, the N_eff which the universe records in its table after the annihilation of the electrons is N within 0.3 percent, plus 0.001, plus seven times the error of the recorded density in units of T^4, once the step and the integration error are small enough.", "quantifier": "all N, masses, starting states, final x, step sizes below a bound depending on the problem only, both modes, all physics with the assumed slope and densities", "why_tests_cant": "the number depends on the whole history of a T, on the state at which the density is evaluated (old a and T, new x and a T) and on the constant 1.401; a test compares one run with an expected number and cannot tell an error of a percent in the equation from the step size", "anchors": ["common/__init__.py:165-203", "evolution.py:181-197", "evolution.py:305-316", "evolution.py:374-375", "particles/RadiationParticle.py:27-39", "particles/IntermediateParticle.py:34-57", "tests/cosmic_neutrino_temperature/__main__.py:1-60"]}
{"id": "C119", "title": "The table in memory and evolution.txt hold the history of the run", "statement": "evolve on the growing array Universe.data (one array for all universes of the process) does exactly what it does on a list of rows: same exceptions, same universe, and the array shows the rows recorded before the run followed by those of the run, of which the multistep formula reads the last slopes. If a folder is given, evolution.txt at the end holds every row in order under the right headings in MeV and seconds; a run cut short after n iterations leaves a file with a beginning of the history, lacking fewer than export_freq rows once that many steps were made; the file does not depend on the internal unit of energy, except for the column fraction in logarithmic mode, which is written in internal units.", "quantifier": "all physics, both modes, all starting tables, numbers of steps, export frequencies, units", "why_tests_cant": "the array is resized with stale cells behind the visible part and read by slices from its end; whether the visible rows are right after any number of appends, resizes and runs is a statement about all histories", "anchors": ["evolution.py:18-46", "evolution.py:102-197", "evolution.py:305-320", "common/utils.py:218-302"]}
{"id": "C120", "title": "Refining the step, the distributions tend to the solution of the kinetic equation", "statement": "For a decoupled species with registered collision integrals, runs over the same interval of the logarithm of the scale factor with more and more steps give occupation numbers that tend to the solution of df/dln a = collision term. (False in the code: they tend to e^l times the initial occupation numbers, whatever the collision terms.)", "quantifier": "every massless decoupled species, grid, initial distribution and history, all bounded collision terms depending on step and state, all numbers of steps; error bound explicit", "why_tests_cant": "A test compares a few step sizes for one reaction and cannot tell slow convergence from convergence to another equation; the limit is about all steps and all collision terms.", "anchors": ["particles/__init__.py:255-283", "particles/__init__.py:288-339", "common/integrators/__init__.py:102-112", "evolution.py:230-240"]}
{"id": "C121", "title": "A run split into two calls of evolve is the same run", "statement": "Calling evolve(T1) and then evolve(T2) with T2 <= T1, as the scripts do to drop interactions in between, gives the universe which a single evolve(T2) gives. (In the code: true with explicit steps and init_time=False, except that the table holds the row of the stop twice; false in the default multistep mode, where the repeated row enters the formula as a step of its own; with the default init_time the clock jumps unless the elapsed time is that of pure radiation.)", "quantifier": "all physics, starting states and tables, pairs of temperatures, numbers of steps; both modes; the size of the error of the first resumed step for all slopes", "why_tests_cant": "a test compares one split with one uninterrupted run and sees a small difference that looks like step size; that the calls compose, and exactly by what they fail to, is about all splits", "anchors": ["evolution.py:102-159", "evolution.py:181-197", "evolution.py:305-316", "common/__init__.py:150-152", "common/integrators/__init__.py:81-89", "tests/standard_model_bbn/__main__.py:108-110"]}
{"id": "C122", "title": "Only thermal spectra balance a reaction", "statement": "The converse of detailed balance: a reaction whose collision integrand vanishes at all momenta has all its species thermal, with one temperature and chemical potentials in chemical equilibrium. For what the code looks up: within the grid of stored spectra this is exact (the stored values must be those of 1/(exp((E-mu)/T)+eta)); over all momenta only species flagged as being in equilibrium at one temperature balance, since every stored spectrum carries a Boltzmann tail.", "quantifier": "all masses, statistics and matrix elements with non-negative coefficients; all stored tables starting at zero momentum with no mode empty or full; 2->2 collisions, decays into two and three particles; elastic collisions within the grid", "why_tests_cant": "tests can check that given thermal spectra balance; that nothing else does needs all spectra and all momenta", "anchors": ["interactions/four_particle/cpp/integral.cpp:249-348", "interactions/three_particle/cpp/integral.cpp:268-374", "interactions/four_particle/cpp/integral.cpp:41-108", "interactions/four_particle/cpp/integral.cpp:204-246"]}
{"id": "C123", "title": "A species which has just left equilibrium stays where it is", "statement": "After the step at which species leave equilibrium (their spectra now stored values) and as long as nothing has disturbed them, reactions among them do not change them: for decays into three particles and the inverse the collision term A + f B, and for decays into two particles and the inverse every entry of the integral (at rest too), is exactly zero at every momentum for which the products reach no further than the grids; for 2->2 collisions it is bounded by the rate of loss times the occupations at the end of the grids of the products, and is a loss if these are fermions. Whether each of the species is still flagged as in equilibrium does not matter.", "quantifier": "all masses and statistics (massless bosons excepted), grids starting at zero, matrix elements with non-negative coefficients, momenta within the grid (p > 0 for four particles), any thread schedule; quadrature exact", "why_tests_cant": "tests/unit/non_equilibrium_test.py checks one set of grids and couplings against 1e-14; the bound holds for all and tells which part is due to the cutoff of the grid", "anchors": ["particles/__init__.py:215-253", "particles/__init__.py:388-395", "interactions/four_particle/cpp/integral.cpp:41-108", "interactions/four_particle/cpp/integral.cpp:249-348", "tests/unit/non_equilibrium_test.py:14-39", "tests/unit/non_equilibrium_test.py:108-164", "interactions/three_particle/cpp/integral.cpp:287-350"]}
{"id": "C124", "title": "Left alone a neutron decays once per lifetime", "statement": "The six rates of baryonic_rates are in units of the inverse neutron lifetime: in vacuum the decay rate is 1 to better than 1e-5 with the shipped masses and CONST.rate_normalization, whatever the scale factor and the unit of energy, and the other five rates are zero. Electrons and neutrinos can only block the decay and only speed up its inverse and the captures which use them. When the neutrinos free stream with a finite comoving density and the electrons die out, the six rates converge to those of the vacuum as the scale factor grows, with explicit error bounds at every scale factor.", "quantifier": "all mass differences above the electron mass, all scale factors, all measurable occupations in [0,1]; blocking for any positive quadrature rule, the rest for exact integrals", "why_tests_cant": "neutron_lifetime_test compares two quadratures of the same integral but neither with the normalisation constant nor with the rates built from it", "anchors": ["kawano.py:18-20", "kawano.py:60-149", "common/__init__.py:76-76", "library/SM.py:73-82", "tests/unit/integrators_test.py:150-166"]}
{"id": "C125", "title": "Densities do not jump when a species changes regime", "statement": "A species in equilibrium gets density, energy density and pressure from closed formulas when far above or far below its mass and from integrals in between. Radiation agrees with the integrals over all momenta up to terms of second order in M/T for energy density and pressure and of first order for the density; dust up to a relative 2T/M (and exponentially small terms); the intermediate regime up to the error of the quadrature and the momenta above 20 T. So nothing observable depends on where the regimes are switched.", "quantifier": "all masses, temperatures, statistics and degrees of freedom (M >= 25 T for dust); any quadrature rule with its error as parameter", "why_tests_cant": "regimes_test checks which regime is chosen at three points but never compares the values on the two sides of a switch", "anchors": ["particles/__init__.py:115-141", "particles/DustParticle.py:11-50", "particles/RadiationParticle.py:13-60", "particles/IntermediateParticle.py:16-94", "environment.py:44-45", "tests/unit/regimes_test.py:57-90"]}
{"id": "C126", "title": "Densities do not jump when a species leaves equilibrium", "statement": "At the step at which a species decouples, its density, energy density and pressure change from formulas at its temperature to sums over the grid of stored occupations. The values before and after agree up to the error of the quadrature on the grid and the momenta beyond its end, which contribute at most a stated multiple of exp(-R/aT); for massive species the cut of the intermediate regime at 20 T adds to this, and the number density of massless species rises by up to 0.25% because radiation uses 1.2 for zeta(3). From then on, as long as nothing disturbs it, its energy density obeys d rho/da = -3 (rho + P)/a.", "quantifier": "all species (massless and massive, both statistics), temperatures, scale factors and grids; the quadrature error is a parameter", "why_tests_cant": "smooth_decoupling_test checks one massless species against an absolute 1e-5 and only from one side (no absolute value), so that any fall of the density passes", "anchors": ["particles/__init__.py:215-253", "particles/NonEqParticle.py:137-177", "particles/RadiationParticle.py:13-60", "particles/IntermediateParticle.py:16-94", "tests/unit/regimes_test.py:141-156"]}
{"id": "C127", "title": "What the parent of a declared two-body decay loses its products gain", "statement": "Declaring a decay P -> X Y with CrossGeneratingInteraction and a ThreeParticleM (together with its conjugate where the species have antiparticles) creates integrals such that, with the spectra they return, each product gains one particle for every parent lost and the products together gain its energy (all degrees of freedom counted, per comoving volume, before discretisation), whichever of the three species is the heavy one.", "quantifier": "all declarations of three legs with any flags, in any order and number; all masses with an open channel, all spectra, couplings, grids and schedules", "why_tests_cant": "crossing_symmetry_test counts the integrals of one declaration and looks at their legs; whether their sum over the species conserves anything depends on the interplay of crossing, antiparticle flags, merging, degrees of freedom and CollisionMultiplier3p, for every momentum", "anchors": ["interactions/__init__.py:105-117", "interactions/__init__.py:148-231", "interactions/__init__.py:249-284", "interactions/three_particle/__init__.py:88-107", "common/kinematics.py:337-345", "library/NuMSM.py:341-440", "library/SM.py:602-659", "tests/unit/crossing_symmetry_test.py:29-105"]}
{"id": "C128", "title": "The table handed to the nuclear network holds the cold part of the run", "statement": "If init_kawano is called before Universe.evolve, the run gives the same result and history as without it, and kawano_data receives one row for each step which ends at or below T_kawano, with the time, scale-variable, temperature and densities which the history has for that step, and the six n-p rates computed from the electrons and neutrinos of the same universe; each row is also written to s4.dat, in the units of its heading, as it is made, and an export at the end closes the file and writes the same lines to kawano.txt.", "quantifier": "all runs with any start, number of steps, thresholds, step schemes and export flags; any number of universes in the process in any order of calls", "why_tests_cant": "standard_model_bbn is one run with one universe; which steps are tabulated, whether a run with the table follows the same trajectory, and what happens with a second run, a second universe or no output folder are statements about every sequence of calls", "anchors": ["evolution.py:73-79", "evolution.py:134-179", "evolution.py:318-351", "kawano.py:16-30", "kawano.py:128-169", "utils.py:270-302"]}
{"id": "C129", "title": "Quadrature rules from recursion coefficients are exact and interior", "statement": "For N >= 1 and exponents above -1, rec_jacobi and rec_jacobi01 return the recursion coefficients of the polynomials orthogonal on [-1,1] with (1-x)^a (1+x)^b and on [0,1] with (1-x)^a x^b, beta[0] being the integral of the weight. From recursion coefficients of any linear functional, gauss returns N nodes and weights exact up to degree 2N-1, and distinct nodes inside the interval with positive weights if the functional is positive there; radau returns a rule with the prescribed node, exact to degree 2N-2, lobatto one with the two prescribed nodes, exact to degree 2N-3; none of them changes its arguments.", "quantifier": "all N, all exponents above -1, all linear functionals on polynomials with positive recursion coefficients, all prescribed nodes, all polynomials up to the stated degrees", "why_tests_cant": "a test compares a few integrals for some N with known values in floating point; exactness for every polynomial of the degree, every number of points and every weight is an algebraic statement", "anchors": ["common/orthopoly.py:37-59", "common/orthopoly.py:62-89", "common/orthopoly.py:92-130", "common/orthopoly.py:133-173", "common/orthopoly.py:177-214"]}
{"id": "C130", "title": "Three-particle collision terms are the textbook ones, whatever the unit of momentum", "statement": "ThreeParticleIntegral.integrate (converged quadrature) returns the same for every value of params.aT, the unit in which it expresses masses, momenta and temperatures, for decays and creations alike, on every grid whose first point, and no other, is 0 (all grid classes of the library). The Full output of a decay is the integral over physical momenta y/a with physical masses times the squared matrix element, over 32 pi g H for a moving particle and over 8 pi m^2 g H for one at rest (and over x in linear mode).", "quantifier": "all reactions, kinds, masses, distributions, couplings, schedules of the parallel loop, a, aT, cuts of the grid for creations", "why_tests_cant": "the first grid point is computed by a formula of its own and multiplied by a constant of its own, whose dimensions differ from those of the rest: that the two fit together for every unit is a statement about integrals over a continuum", "anchors": ["interactions/three_particle/__init__.py:47-150", "interactions/three_particle/cpp/integral.cpp:287-555", "common/kinematics.py:46-61", "common/kinematics.py:146-155"]}
{"id": "C131", "title": "The collision term of a particle at rest is the limit of those of slow particles", "statement": "ThreeParticleIntegral.integrate (converged quadrature) of a decaying particle returns, on a grid starting at 0, the values of one function of the momentum which is continuous at 0: the first entry, computed by a formula and a constant of its own, is the limit of what the loop computes for momenta tending to 0.", "quantifier": "all masses above threshold, statistics, spectra (positive tables or thermal), couplings, a, aT, time variables, grids, schedules of the parallel loop", "why_tests_cant": "the entry at rest is a product where the others are integrals over a shrinking interval divided by a vanishing momentum; that they fit together is a limit, which no finite set of momenta shows", "anchors": ["interactions/three_particle/__init__.py:47-126", "interactions/three_particle/cpp/integral.cpp:290-345", "interactions/three_particle/cpp/integral.cpp:477-555"]}
{"id": "C132", "title": "Interpolated spectra have no jumps", "statement": "As a function of the momentum, distribution_interpolation of a table of positive values (below one for fermions) is continuous from the first point of the grid to infinity: the cells agree with the stored values at the points of the grid and the tail above the grid starts from the last one. A zero stored next to a positive value makes it jump: the positive value is then met at its own momentum only.", "quantifier": "all increasing grids, all tables of the same length, masses, temperatures, both statistics, all momenta not below the grid", "why_tests_cant": "a test reads the function at some momenta; continuity at every point of every grid is a limit", "anchors": ["interactions/three_particle/cpp/integral.cpp:41-109", "interactions/four_particle/cpp/integral.cpp:41-109", "common/__init__.py:412-440"]}
{"id": "C133", "title": "The collision term of a massive product at rest is the limit of slow products", "statement": "For the product of a decay (an integral 0 + 1 <- 2 with massive particle 0, mass_0 + mass_1 < mass_2) the first entry (momentum 0) of the array which ThreeParticleIntegral.integrate returns is the limit of the values it computes at small momenta, although the momentum 0 has another integrand, another constant and no cut at the end of the grid of the parent.", "quantifier": "all masses above threshold, statistics, stored and thermal spectra, couplings, schedules, a, aT, and all positions of the end of the grid relative to the momentum of a parent whose product is at rest", "why_tests_cant": "the entry at 0 is one formula and its neighbours are integrals over a window which shrinks to a point: that they fit together is a limit, and on any grid the first two points differ anyway", "anchors": ["interactions/three_particle/__init__.py:86-118", "interactions/three_particle/integral.cpp:290-311", "interactions/three_particle/integral.cpp:440-555", "common/kinematics.py:23-61"]}
{"id": "C134", "title": "mod_chebyshev turns modified moments into the orthogonal polynomials of the weight", "statement": "If mom holds exactly 2N moments of a weight (positive on squares of polynomials of degree below N) against the monic polynomials of the recursion alpham, betam, mod_chebyshev(N, mom, alpham, betam) returns the recursion coefficients of the polynomials orthogonal with respect to that weight and their squared norms, the coefficients beta are positive, and gauss of them is exact for all polynomials of degree 2N - 1. With more than 2N moments, or an odd number, the call raises ValueError.", "quantifier": "all N, all weights and known recursions, all eigenvalue solvers meeting the contract of eig_banded", "why_tests_cant": "the table sig contains only numbers; that its entries are mixed moments of polynomials is an invariant of the recursion, and exactness concerns all polynomials", "anchors": ["common/orthopoly.py:340-388", "common/orthopoly.py:37-59"]}
{"id": "C135", "title": "The sampling quadratures in C++ compute the rules they name and their cache is invisible", "statement": "integrate_sampled with the rule of Simpson is exact for cubics, with the trapezium and middle rules for affine integrands, with the left and right rules for constants, for any number of steps. trapezium returns the trapezium rule with n points whatever values of the integrand its cache already holds. adaptive_trapezium returns the sum of the rule with 15 points over a chain of intervals from a to b, each of which meets the tolerance or has the smallest size (b - a) / 2^(limit - 1), with the signed sum of the differences to 8 points as error; it is exact for affine integrands. nonadaptive_trapezium returns the rule with 19 * 2^i + 1 points, status 0 exactly if the last doubling met the tolerance within the limit; with a limit below 39 it assigns no result.", "quantifier": "all integrands, limits of integration, tolerances, numbers of steps, limits of subdivision, and all contents of the cache", "why_tests_cant": "the cache is shared by all branches of the recursion, so that its transparency is an invariant over all executions; the recursion depends on the integrand", "anchors": ["interactions/four_particle/cpp/simpson.cpp:4-55", "interactions/four_particle/cpp/trapezoidal.cpp:3-84"]}
{"id": "C136", "title": "The interactions declared by the library do not depend on the unit of energy", "statement": "If the unit of energy counts lam > 0 times as much, with masses and decay constants multiplied by lam and the constant of Fermi divided by lam^2, then the library declares the same interactions in the same order with the same couplings expressed in that unit: squared amplitudes of three particles multiplied by lam^2, K1 and K2 of four particles divided by lam^4, constant squared amplitudes of four particles unchanged. The reactions generated from a declaration, including those dropped at threshold, are the same.", "quantifier": "all units lam > 0, all constants, all particles and lists of particles, all lists of primary mesons", "why_tests_cant": "a missing power of the unit is invisible as long as UNITS.MeV has one value; the decay chains depend on which particles are already present", "anchors": ["library/SM.py:706-735", "library/SM.py:SMInteractions", "library/NuMSM.py:Interactions", "common/__init__.py:UNITS"]}
{"id": "C137", "title": "The kind of an integral of a fast decaying species tells whether the species is created or decays", "statement": "In the interactions of the heavy neutrino every integral of a species with fast_decay has kind F_decay exactly if the species is alone on the left of its reaction and F_creation exactly if one particle is alone on the right; integrals of other species keep the kind given by the caller. (True of the loop over mesons; false of the loop over leptons, which marks every such integral as a creation: the decay of the muon into a light heavy neutrino, and scatterings.)", "quantifier": "all declarations of three (mesons) or four (leptons) particles, all masses, all sets of fast decaying species, all kinds", "why_tests_cant": "which crossings exist depends on the masses through the thresholds; a wrong kind raises no error", "anchors": ["library/NuMSM.py:207-210", "library/NuMSM.py:331-337", "common/utils.py:125-142"]}
