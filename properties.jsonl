{"id": "C01", "title": "Timer visits the whole interval, in order, in equal steps", "statement": "Iterating a Timer with interval (start,end), step dt>0 and stride s>=1 sets the time parameter to start+s*i*dt for consecutive i (beginning at i=0 when include_start, else i=1), strictly increasing, and the last visited time is within s*dt/2 of end; when s*dt divides the interval the last time is exactly end and the number of steps is the quotient.", "quantifier": "all intervals 0<=start<end, all positive steps, all strides, both values of include_start", "why_tests_cant": "a test visits a handful of (start,end,step) triples; the half-even rounding of the number of steps matters for all ratios", "anchors": ["dream/time.py:Timer.start", "dream/time.py:Timer.interval", "dream/time.py:Timer.to_array"]}
{"id": "C02", "title": "Reported time labels identify the time step", "statement": "The (rounded) times handed to the user and used in file names are equal to the exact times, hence pairwise different, whenever the start time and the step are both multiples of 10^-d with d the number of decimals of the step; without the condition on the start time two different steps can receive the same label.", "quantifier": "all intervals and steps", "why_tests_cant": "tests use start=0; collisions depend on the joint decimal expansion of start and step", "anchors": ["dream/time.py:Timer.start", "dream/time.py:Timer._set_digit"]}
{"id": "C03", "title": "Validated options can never hold an invalid value", "statement": "After any sequence of accepted and rejected assignments the stored options satisfy their documented constraint: 0<=start<end for the timer interval, Mach >= 0, Reynolds > 0, Prandtl > 0, stream rates > 0, convergence criterion > 0; a rejected assignment raises and leaves the previous value in place.", "quantifier": "all finite histories of assignments of arbitrary numbers", "why_tests_cant": "tests try one bad value on a fresh object, not all histories", "anchors": ["dream/config.py:configuration.__set__", "dream/time.py:Timer.interval", "dream/compressible/solver.py:CompressibleFlowSolver.mach_number", "dream/compressible/solver.py:CompressibleFlowSolver.reynolds_number", "dream/compressible/solver.py:CompressibleFlowSolver.prandtl_number", "dream/io.py:VTKStream.rate", "dream/io.py:GridfunctionStream.rate", "dream/solver.py:NonlinearSolver.convergence_criterion"]}
{"id": "C04", "title": "Time levels always hold the most recent solutions", "statement": "After initial conditions are set and any number of time steps has been completed, level n holds the latest solution, level n-1 the one before, and so on, with the initial state filling the levels for which no step exists yet; for every variable and every number of levels.", "quantifier": "all numbers of steps, all sequences of solutions, all multistep depths", "why_tests_cant": "an ordering mistake in the shift only shows after several steps and for some depths", "anchors": ["dream/time.py:TimeSchemes.update_gridfunctions", "dream/time.py:TimeSchemes.set_initial_conditions", "dream/time.py:TimeSchemes.initialize_level_gridfunctions"]}
{"id": "C05", "title": "Time discretisations are consistent and their three forms agree", "statement": "For both schemes derivative = (u-level_normalized)/step_normalized, and the un-normalised pair is the same equation multiplied by the leading coefficient; implicit Euler differentiates every affine function of time exactly, BDF2 every quadratic, and neither is exact one degree higher.", "quantifier": "all time steps dt != 0, all values, all polynomials of the given degree", "why_tests_cant": "sampling a few polynomials does not establish the order", "anchors": ["dream/time.py:ImplicitEuler.get_time_derivative", "dream/time.py:ImplicitEuler.get_current_level", "dream/time.py:ImplicitEuler.get_time_step", "dream/time.py:BDF2.get_time_derivative", "dream/time.py:BDF2.get_current_level", "dream/time.py:BDF2.get_time_step"]}
{"id": "C06", "title": "The nonlinear iteration is bounded, never applies a NaN increment and reports convergence truthfully", "statement": "solve performs at most max_iterations linear solves; an increment whose error is NaN is never added to the solution and ends the loop; the converged flag is set iff the last error was below the criterion; every non-NaN increment is applied exactly once; on an affine problem with exact linear solver and damping w the error after k updates is (1-w)^k times the initial error.", "quantifier": "all sequences of linear-solver results and errors, all iteration limits", "why_tests_cant": "depends on the whole history of residuals, including NaN at an arbitrary iteration", "anchors": ["dream/solver.py:NonlinearSolver.solve", "dream/solver.py:NonlinearSolver.set_iteration_error", "dream/solver.py:DirectNonlinearSolver.solve_update_step", "dream/solver.py:NewtonsMethod.update_solution", "dream/solver.py:NonlinearSolver.reset_status"]}
{"id": "C07", "title": "Pseudo time stepping grows the step monotonically and never beyond the maximum", "statement": "Starting with step dt0 and increment factor f>=1, after any number of iterations the pseudo time step is non-decreasing, never exceeds max(dt0,max_time_step) and equals min(max, dt0*f^k) after k increments (if dt0 < max); it changes only at positive multiples of increment_at.", "quantifier": "all iteration counts, all positive dt0, factors, maxima and increment intervals", "why_tests_cant": "closed form over unbounded iteration counts", "anchors": ["dream/time.py:PseudoTimeSteppingConfig.solver_iteration_update"]}
{"id": "C08", "title": "Every output schedule records the final state exactly once and no step twice", "statement": "In a transient run of N>=1 steps a stream with rate r writes the initial state, then exactly the steps it with r | it (counted from 0) plus the last step; no step is written twice and the records are in increasing order. Holds for VTK, gridfunction and sensor streams.", "quantifier": "all N>=1 and r>=1", "why_tests_cant": "the interplay of N, r and the final save is an arithmetic statement over all N and r", "anchors": ["dream/io.py:VTKStream.save_in_time_routine", "dream/io.py:VTKStream.save_post_time_routine", "dream/io.py:GridfunctionStream.save_in_time_routine", "dream/io.py:GridfunctionStream.save_post_time_routine", "dream/io.py:SensorStream.save_in_time_routine", "dream/io.py:SensorStream.save_post_time_routine", "dream/time.py:TransientConfig.start_solution_routine"]}
{"id": "C09", "title": "Streams are closed whichever way the solution routine ends", "statement": "Once all output streams have been opened, they are all closed exactly once and after every other stream operation, whether the routine completes, the solver raises at any step, a save raises, or the consumer abandons the generator at any yield.", "quantifier": "all step counts and all crash points", "why_tests_cant": "the crash point is arbitrary", "anchors": ["dream/io.py:IOConfiguration.__enter__", "dream/io.py:IOConfiguration.__exit__", "dream/time.py:TransientConfig.start_solution_routine", "dream/time.py:StationaryConfig.start_solution_routine", "dream/time.py:PseudoTimeSteppingConfig.start_solution_routine"]}
{"id": "C10", "title": "A transient run can be replayed from its saved gridfunctions", "statement": "After a transient run with saving rate r, load_transient_routine finds a file for every time it visits and yields the saved state of exactly that time.", "quantifier": "all step counts and rates", "why_tests_cant": "depends on the alignment of two different loops for all rates (the claim fails for r >= 2)", "anchors": ["dream/io.py:GridfunctionStream.load_transient_routine", "dream/io.py:GridfunctionStream.save_in_time_routine", "dream/time.py:Timer.start"]}
{"id": "C11", "title": "Sensor tables are rectangular and labelled correctly", "statement": "In a transient run all header rows and all data rows of a sensor file have the same number of cells and the k-th data cell is the (point/region, field, component) the header announces; a header that would be inconsistent raises instead.", "quantifier": "all numbers of points, regions, fields and all field dimensions", "why_tests_cant": "header and row are built by different nested loops over arbitrary field shapes", "anchors": ["dream/io.py:Sensor.get_header", "dream/io.py:Sensor.get_components_name", "dream/io.py:RegionSensor.get_header", "dream/io.py:RegionSensor.measure", "dream/io.py:PointSensor.get_header", "dream/io.py:PointSensor.measure", "dream/io.py:SensorStream.open", "dream/io.py:SensorStream.save_in_time_routine"]}
{"id": "C12", "title": "Activating any subset of output streams lets the solution routine run", "statement": "For every subset of output streams that is switched on, the pre-, in- and post-time hooks of the solution routine complete.", "quantifier": "all subsets of streams and all routines", "why_tests_cant": "the interface mismatch shows only for some combinations of stream and routine (the claim fails for mesh and settings streams)", "anchors": ["dream/io.py:IOConfiguration.save_pre_time_routine", "dream/io.py:MeshStream.save_pre_time_routine", "dream/io.py:SettingsStream.save_pre_time_routine"]}
{"id": "C13", "title": "Changing a folder moves everything below it", "statement": "Assigning a relative path to a folder appends it to the root, and every configured folder that lies strictly below the old folder keeps its relative position below the new one; all others are unchanged; the assignment terminates.", "quantifier": "all path trees of any depth and any current assignment of folders", "why_tests_cant": "paths have unbounded depth; the relocation is a loop whose termination depends on the paths (it does not terminate if another folder equals the old one, and absolute assignments do not relocate)", "anchors": ["dream/io.py:path.__set__", "dream/io.py:IOFolders"]}
{"id": "C14", "title": "Switching streams on and off keeps exactly the requested set open", "statement": "After any history of boolean/string assignments the set of streams that get opened, saved and closed is exactly the set whose last assignment was true or the stream's name; reading a switched-off stream and configuring the returned object has no effect on the routine.", "quantifier": "all histories of assignments", "why_tests_cant": "histories are unbounded", "anchors": ["dream/io.py:stream.__set__", "dream/io.py:stream.__get__", "dream/io.py:IOConfiguration.open"]}
{"id": "C15", "title": "Field dictionaries behave as one map under names and symbols", "statement": "After any sequence of assignments by name, symbol or attribute and any deletions by name, reading a quantity by attribute or canonical name returns the last assigned value since the last deletion, and None/KeyError if there is none; attribute assignment of None changes nothing.", "quantifier": "all operation histories over the quantities of flowfields", "why_tests_cant": "aliasing between two names for the same entry under arbitrary interleavings", "anchors": ["dream/config.py:ngsdict", "dream/config.py:quantity", "dream/compressible/config.py:flowfields"]}
{"id": "C16", "title": "Exported settings restore the configuration", "statement": "Applying update to the exported tree of a configuration reproduces the same selection and values in a fresh configuration of the same class.", "quantifier": "all configuration trees of any depth with idempotent setters", "why_tests_cant": "nesting depth and option selection are unbounded (the claim fails for the full solver configuration because the log stream exports a name its setter rejects)", "anchors": ["dream/config.py:UniqueConfiguration.update", "dream/config.py:UniqueConfiguration.to_tree", "dream/config.py:interface.__set__", "dream/config.py:unique.__set__", "dream/io.py:stream.__set__"]}
{"id": "C17", "title": "Dotted update keys address nested options", "statement": "update with a dotted key a.b.c has the same effect as assigning option c of b of a, keys of different sub-configurations do not interfere, unknown keys change nothing, and the result does not depend on the order of keys addressing different options.", "quantifier": "all dictionaries of dotted keys of any depth", "why_tests_cant": "order and depth are unbounded (order independence fails when a sub-option precedes the selection of its parent)", "anchors": ["dream/config.py:UniqueConfiguration.update"]}
{"id": "C18", "title": "All sub-configurations refer to the solver they are attached to", "statement": "After any history of attaching configurations (by instance, by name or by dictionary) every configuration reachable from a solver refers to that solver as root and to its mesh.", "quantifier": "all histories of attachments, all tree shapes", "why_tests_cant": "pointer graph property over all histories; sharing one instance between two solvers violates it for the first", "anchors": ["dream/config.py:interface.__set__", "dream/config.py:unique.__set__", "dream/config.py:unique.update_subconfigurations_recursively"]}
{"id": "C19", "title": "Option names select exactly one implementation", "statement": "Each registered name or alias of an interface selects exactly one class; an unknown name raises and leaves the selection unchanged; selecting the name of the current implementation keeps the existing instance with its settings, selecting another replaces it by a fresh one.", "quantifier": "all registration sequences and all names", "why_tests_cant": "registration is open ended", "anchors": ["dream/config.py:InterfaceConfiguration.__init_subclass__", "dream/config.py:InterfaceTree", "dream/config.py:interface.__set__"]}
{"id": "C20", "title": "Parameters keep their identity", "statement": "Assigning a number or a parameter object to a parameter option changes the value of the one parameter object that symbolic forms already refer to; the object changes only on reset.", "quantifier": "all histories of assignments", "why_tests_cant": "aliasing over histories", "anchors": ["dream/config.py:parameter.__set__", "dream/config.py:parameter.reset"]}
{"id": "C21", "title": "Derived thermodynamic quantities do not depend on which fields are supplied", "statement": "If the supplied fields are any subset of one consistent ideal-gas state, each derived quantity (density, pressure, temperature, inner energy, specific inner energy, speed of sound, velocity, momentum, kinetic/total energies, enthalpies, Mach number) that can be computed equals the value in that state.", "quantifier": "all consistent states (rho,T>0, gamma>1) and all subsets of supplied fields", "why_tests_cant": "there are 2^n subsets and a continuum of states (the claim fails for the speed of sound computed from specific inner energy only)", "anchors": ["dream/compressible/eos.py:IdealGas.density", "dream/compressible/eos.py:IdealGas.pressure", "dream/compressible/eos.py:IdealGas.temperature", "dream/compressible/eos.py:IdealGas.inner_energy", "dream/compressible/eos.py:IdealGas.specific_inner_energy", "dream/compressible/eos.py:IdealGas.speed_of_sound", "dream/compressible/solver.py:CompressibleFlowSolver.velocity"]}
{"id": "C22", "title": "Quantities are either computed or refused", "statement": "A derived quantity is refused with ValueError exactly when no combination of supplied fields listed in its documentation is complete; it is never silently None and never fails in another way.", "quantifier": "all subsets of supplied fields", "why_tests_cant": "2^n subsets (the claim fails for the specific enthalpy, which reads a field it did not check)", "anchors": ["dream/config.py:equation", "dream/compressible/solver.py:CompressibleFlowSolver.specific_enthalpy", "dream/compressible/solver.py:CompressibleFlowSolver.pressure"]}
{"id": "C23", "title": "Gradient formulas are the derivatives of the field formulas", "statement": "Along every differentiable curve of consistent ideal-gas states, each gradient formula (density, pressure, temperature, energy, velocity, momentum, enthalpy, ...) evaluated with any available set of supplied gradients equals the derivative of the corresponding quantity.", "quantifier": "all differentiable families of states, all subsets of supplied fields", "why_tests_cant": "derivatives over a continuum", "anchors": ["dream/compressible/eos.py:IdealGas.density_gradient", "dream/compressible/eos.py:IdealGas.pressure_gradient", "dream/compressible/eos.py:IdealGas.temperature_gradient", "dream/compressible/solver.py:CompressibleFlowSolver.velocity_gradient", "dream/compressible/solver.py:CompressibleFlowSolver.energy_gradient"]}
{"id": "C24", "title": "Conservative fields round trip", "statement": "The fields recovered from the conservative variables of any admissible state (rho>0,p>0) are that state's fields and satisfy the ideal-gas law, and rebuilding the conservative vector from them gives the original.", "quantifier": "all admissible states in 2 and 3 dimensions", "why_tests_cant": "continuum of states", "anchors": ["dream/compressible/formulations/conservative.py:ConservativeMethod.get_conservative_fields", "dream/compressible/solver.py:CompressibleFlowSolver.energy"]}
{"id": "C25", "title": "Transformation matrices are mutually inverse", "statement": "For every state and every unit normal, the matrices mapping primitive/conservative and characteristic/primitive variables are inverse to each other and the conservative-characteristic ones are their products.", "quantifier": "all states rho,c > 0, all unit vectors, dimensions 2 and 3 where implemented", "why_tests_cant": "identities of rational functions on a continuum", "anchors": ["dream/compressible/eos.py:IdealGas.primitive_from_conservative", "dream/compressible/eos.py:IdealGas.conservative_from_primitive", "dream/compressible/eos.py:IdealGas.primitive_from_characteristic", "dream/compressible/eos.py:IdealGas.characteristic_from_primitive"]}
{"id": "C26", "title": "Flux Jacobians are the derivatives of the flux and are diagonalised by the characteristic transformation", "statement": "The directional conservative Jacobian is the derivative of the normal convective flux with respect to the conservative variables, and equals P diag(lambda) P^-1 with the documented characteristic velocities u_n-c,u_n,u_n,u_n+c.", "quantifier": "all admissible states and unit normals", "why_tests_cant": "derivative over a continuum", "anchors": ["dream/compressible/eos.py:IdealGas.conservative_convective_jacobian_x", "dream/compressible/eos.py:IdealGas.conservative_convective_jacobian_y", "dream/compressible/solver.py:CompressibleFlowSolver.get_conservative_convective_jacobian", "dream/compressible/solver.py:CompressibleFlowSolver.get_convective_flux", "dream/compressible/eos.py:IdealGas.characteristic_velocities"]}
{"id": "C27", "title": "Incoming and outgoing parts add up", "statement": "The incoming and outgoing Jacobians sum to the full one and their difference is its absolute value; the incoming and outgoing characteristic identities are complementary projections whose sum is the identity exactly if no characteristic velocity vanishes.", "quantifier": "all states and normals", "why_tests_cant": "continuum; the degenerate set of vanishing velocities is hit by no random test (there the identities do not sum to one)", "anchors": ["dream/compressible/solver.py:CompressibleFlowSolver.get_conservative_convective_jacobian", "dream/compressible/solver.py:CompressibleFlowSolver.get_characteristic_identity", "dream/compressible/eos.py:IdealGas.characteristic_velocities"]}
{"id": "C28", "title": "Riemann solvers give consistent, conservative and dissipative numerical fluxes", "statement": "For every Riemann solver the numerical flux with equal traces is the physical flux; the stabilisation has non-negative eigenvalues, bounds the outgoing Jacobian (Upwind = outgoing part, Roe = absolute value, LF/HLL/HLLEM dominate), and LF/Roe are unchanged under flipping the normal.", "quantifier": "all states, normals, theta_0 in [0,1]", "why_tests_cant": "continuum of states", "anchors": ["dream/compressible/riemann_solver.py:LaxFriedrich.get_convective_stabilisation_matrix", "dream/compressible/riemann_solver.py:Roe.get_convective_stabilisation_matrix", "dream/compressible/riemann_solver.py:HLL.get_convective_stabilisation_matrix", "dream/compressible/riemann_solver.py:HLLEM.get_convective_stabilisation_matrix", "dream/compressible/riemann_solver.py:Upwind.get_convective_stabilisation_matrix", "dream/compressible/formulations/conservative.py:HDG.get_convective_numerical_flux"]}
{"id": "C29", "title": "The farfield state has the requested Mach number in every scaling", "statement": "For each scaling and every accepted Mach number and heat capacity ratio, the farfield state is a consistent ideal-gas state with rho=1, |u|/c = Ma in the given direction, the documented reference speed equal to one, and the reference Reynolds number makes Re = rho |u| / (mu/Re_ref); the direction may be any non-zero vector and only its direction matters.", "quantifier": "all Ma, gamma, directions and scalings", "why_tests_cant": "continuum", "anchors": ["dream/compressible/scaling.py:Aerodynamic", "dream/compressible/scaling.py:Acoustic", "dream/compressible/scaling.py:Aeroacoustic", "dream/compressible/solver.py:CompressibleFlowSolver.get_farfield_state"]}
{"id": "C30", "title": "Sutherland viscosity is normalised, positive and increasing", "statement": "The Sutherland law equals one at the farfield temperature, is positive and strictly increasing in temperature, and depends only on the dimensional temperature ratio, not on the scaling.", "quantifier": "all positive temperatures and reference values", "why_tests_cant": "monotonicity over a continuum", "anchors": ["dream/compressible/viscosity.py:Sutherland.viscosity", "dream/compressible/viscosity.py:Constant.viscosity", "dream/compressible/viscosity.py:Inviscid.viscosity"]}
{"id": "C31", "title": "Viscous stress is symmetric and dissipative, heat flows from hot to cold", "statement": "The strain rate is symmetric and trace free in three dimensions, the stress is twice the viscosity over Reynolds times it, the dissipation is non-negative in 2D and 3D, and the heat flux is opposite to the temperature gradient.", "quantifier": "all velocity gradients, viscosities >=0, Re,Pr>0", "why_tests_cant": "sign statements over a continuum", "anchors": ["dream/compressible/solver.py:CompressibleFlowSolver.strain_rate_tensor", "dream/compressible/solver.py:CompressibleFlowSolver.deviatoric_stress_tensor", "dream/compressible/solver.py:CompressibleFlowSolver.heat_flux", "dream/compressible/solver.py:CompressibleFlowSolver.get_diffusive_flux"]}
{"id": "C32", "title": "Diffusive Jacobians are the derivatives of the diffusive flux", "statement": "The conservative and mixed diffusive Jacobians are the partial derivatives of the diffusive flux with respect to the conservative variables and the mixed variables.", "quantifier": "all states with rho>0", "why_tests_cant": "derivative over a continuum", "anchors": ["dream/compressible/formulations/conservative.py:StrainHeat.get_conservative_diffusive_jacobian_x", "dream/compressible/formulations/conservative.py:StrainHeat.get_conservative_diffusive_jacobian_y", "dream/compressible/formulations/conservative.py:StrainHeat.get_mixed_diffusive_jacobian_x", "dream/compressible/formulations/conservative.py:StrainHeat.get_mixed_diffusive_jacobian_y", "dream/compressible/solver.py:CompressibleFlowSolver.get_diffusive_flux"]}
{"id": "C33", "title": "Boundary conditions are satisfied by the states they describe", "statement": "The residual of each boundary formulation vanishes exactly for boundary states with the documented property (zero normal velocity for inviscid wall/symmetry, zero velocity and prescribed temperature for isothermal wall, prescribed pressure for outflow), and the farfield residual vanishes when interior, boundary and farfield states coincide.", "quantifier": "all states and normals", "why_tests_cant": "continuum (the adiabatic wall and the farfield identity variant at rest violate it)", "anchors": ["dream/compressible/formulations/conservative.py:HDG.add_inviscid_wall_formulation", "dream/compressible/formulations/conservative.py:HDG.add_isothermal_wall_formulation", "dream/compressible/formulations/conservative.py:HDG.add_outflow_formulation", "dream/compressible/formulations/conservative.py:HDG.add_farfield_formulation", "dream/compressible/formulations/conservative.py:HDG.add_adiabatic_wall_formulation"]}
{"id": "C34", "title": "Isentropic density lies on the isentrope of the reference state", "statement": "The isentropic density computed from pressure or from temperature has the same entropy p/rho^gamma as the reference, both formulas agree on states consistent with the reference isentrope, and it equals the reference density at the reference state.", "quantifier": "all positive pressures, temperatures and references", "why_tests_cant": "continuum", "anchors": ["dream/compressible/eos.py:IdealGas.isentropic_density"]}
{"id": "C35", "title": "Characteristic variables are the projection of the normal derivative", "statement": "Characteristic variables equal the inverse characteristic matrix applied to the normal derivative of the primitive variables, and amplitudes are characteristic velocities times these, for all supplied gradient sets.", "quantifier": "all gradients, states and unit normals", "why_tests_cant": "continuum", "anchors": ["dream/compressible/eos.py:IdealGas.characteristic_variables", "dream/compressible/eos.py:IdealGas.characteristic_amplitudes"]}
{"id": "C36", "title": "Assigning conditions to regions accumulates without interference", "statement": "After any history of assignments each region lists exactly the conditions assigned to patterns containing it, in order; assignments to unknown regions raise or are ignored as documented and never affect other regions; queries by type and domain boundaries agree with that list.", "quantifier": "all histories of assignments and all region sets", "why_tests_cant": "histories are unbounded", "anchors": ["dream/mesh.py:Conditions.__setitem__", "dream/mesh.py:Conditions.has_condition", "dream/mesh.py:Conditions.get_region", "dream/mesh.py:BoundaryConditions.get_domain_boundaries", "dream/mesh.py:BoundaryConditions.get_periodic_boundaries"]}
{"id": "C37", "title": "Grouping conditions by pattern loses nothing", "statement": "The grouping of conditions by region pattern contains every assigned condition with exactly the regions it was assigned to.", "quantifier": "all assignments of conditions to regions, all set iteration orders", "why_tests_cant": "depends on coincidences of region sets and on hash order (the claim fails if two conditions cover the same regions)", "anchors": ["dream/mesh.py:Conditions.to_pattern"]}
{"id": "C38", "title": "Every admissible condition is turned into its own formulation", "statement": "Each boundary or domain condition type offered to users is dispatched to the formulation of that type.", "quantifier": "all condition types and class hierarchies", "why_tests_cant": "the order of isinstance tests interacts with subclassing (the claim fails for PSpongeLayer and for four domain conditions)", "anchors": ["dream/compressible/formulations/conservative.py:HDG.add_domain_conditions", "dream/compressible/formulations/conservative.py:HDG.add_boundary_conditions"]}
{"id": "C39", "title": "Polynomial orders of p-sponge layers stay ordered", "statement": "After any history of order assignments 0 <= low_order <= high_order holds; rejected assignments change nothing.", "quantifier": "all histories of numbers", "why_tests_cant": "histories are unbounded", "anchors": ["dream/mesh.py:PSpongeLayer.high_order", "dream/mesh.py:PSpongeLayer.low_order"]}
{"id": "C40", "title": "Order ranges form a gapless descending chain", "statement": "The generated pairs of polynomial orders start at the highest order, each pair's low order is the next pair's high order, every drop is at most step, and the last pair is (lowest,lowest). Exactly this last layer has equal orders: its formulation damps towards the target state, the one of every other layer towards the unknowns of the lower order, and each is at rest only there.", "quantifier": "all highest >= lowest >= 0, all steps >= 1", "why_tests_cant": "unbounded chain length", "anchors": ["dream/mesh.py:PSpongeLayer.get_pairs_of_polynomial_orders", "dream/mesh.py:PSpongeLayer.is_equal_order", "dream/compressible/formulations/conservative.py:HDG.add_psponge_layer_formulation"]}
{"id": "C41", "title": "Sponge functions ramp monotonically from zero to the weight", "statement": "Outside the layer the normalised coordinate is constant 0 respectively 1, inside it is affine; polynomial and penta sponge functions are between 0 and the weight, monotone, with matching values at both ends, and penta has vanishing first and second derivatives at both ends. In radial layers the coordinate is the distance from the centre, cut off at the two radii.", "quantifier": "all coordinates, layers of any orientation, orders and weights", "why_tests_cant": "continuum", "anchors": ["dream/mesh.py:BufferCoord", "dream/mesh.py:SpongeFunction.polynomial", "dream/mesh.py:SpongeFunction.penta"]}
{"id": "C42", "title": "Grid mappings stretch by the requested factor and only inside the layer", "statement": "Each mapping leaves points in front of the layer in place, is strictly increasing, continuous at the interface, and stretches the layer to scale times its thickness once the fixpoint equation is solved; the fixpoint iteration converges to the non-trivial solution.", "quantifier": "all layers and scales > 1", "why_tests_cant": "continuum; convergence of an iteration", "anchors": ["dream/mesh.py:GridMapping.linear", "dream/mesh.py:GridMapping.exponential", "dream/mesh.py:GridMapping.tangential", "dream/mesh.py:GridMapping.length", "dream/mesh.py:GridMapping.polar_to_cartesian", "dream/bla.py:fixpoint_iteration"]}
{"id": "C43", "title": "The grid deformation in use is the one last configured", "statement": "After any history of assigning the x,y,z mappings the deformation used is the one given by the currently configured mappings, and applying the grid deformation of a solver works when one is configured.", "quantifier": "all histories", "why_tests_cant": "history dependent stale state (the claim fails for resetting a mapping to None, and applying the deformation always raises)", "anchors": ["dream/mesh.py:GridDeformation.x", "dream/mesh.py:GridDeformation.set_function", "dream/mesh.py:DomainConditions.get_grid_deformation_function", "dream/solver.py:SolverConfiguration.set_grid_deformation"]}
{"id": "C44", "title": "The O-mesh generator produces a conforming annulus", "statement": "For every admissible number of polar and radial elements all vertex numbers are in range, every interior edge is shared by exactly two oppositely oriented triangles, the boundary edges are exactly the inner and outer circle, and the outer circle is split into two halves of equal size.", "quantifier": "all n_polar, n_radial accepted by the argument check", "why_tests_cant": "unbounded mesh sizes", "anchors": ["dream/mesh.py:get_cylinder_omesh"]}
{"id": "C45", "title": "Basic scalar and matrix helpers mean what they say", "statement": "abs, max, min and interval built from IfPos equal the mathematical functions, interval stays inside its bounds, diagonal/trace/symmetric/skew constructors give the named matrices, as_matrix accepts exactly square numbers of entries.", "quantifier": "all reals, all vector lengths", "why_tests_cant": "continuum and unbounded lengths", "anchors": ["dream/bla.py:abs", "dream/bla.py:max", "dream/bla.py:min", "dream/bla.py:interval", "dream/bla.py:diagonal", "dream/bla.py:trace", "dream/bla.py:as_matrix", "dream/bla.py:symmetric_matrix_from_vector", "dream/bla.py:skewsymmetric_matrix_from_vector"]}
{"id": "C46", "title": "Region patterns round trip", "statement": "Splitting the pattern built from region names gives the names back, and selecting regions by a pattern returns exactly the existing regions named in it, in the order (and multiplicity) of the pattern.", "quantifier": "all non-empty lists of region names without the separator, all patterns", "why_tests_cant": "strings of unbounded length", "anchors": ["dream/mesh.py:get_pattern_from_sequence", "dream/mesh.py:get_regions_from_pattern"]}
{"id": "C47", "title": "Requested output fields are delivered", "statement": "get_fields returns the requested fields that exist plus the defaults unless switched off, and nothing else.", "quantifier": "all request dictionaries", "why_tests_cant": "all subsets of requests (switching off a default by its name instead of its symbol is ignored)", "anchors": ["dream/compressible/formulations/conservative.py:ConservativeFiniteElementMethod.get_fields"]}
{"id": "C48", "title": "Relaxation factors go to the characteristic they name", "statement": "The relaxation matrix has one entry per characteristic field, in the order of the characteristic variables; a scalar is used for all and named factors are used for the field they name.", "quantifier": "all dimensions and factor specifications", "why_tests_cant": "all permutations of the names (the claim fails for dictionaries in another order and for lists of length 4 in 2D)", "anchors": ["dream/compressible/config.py:CBC.relaxation_factor", "dream/compressible/config.py:CBC.get_relaxation_matrix"]}
{"id": "C49", "title": "Dimensional states scale by their reference values", "statement": "Every non-dimensional quantity with a known reference value is multiplied by it, all others are left out; the dimensional farfield state has the dimensional reference values and is again a consistent ideal-gas state.", "quantifier": "all states and reference values", "why_tests_cant": "continuum and all subsets of fields", "anchors": ["dream/compressible/solver.py:CompressibleFlowSolver.get_dimensionful_state", "dream/compressible/solver.py:CompressibleFlowSolver.get_farfield_state"]}
{"id": "C50", "title": "Fixpoint iteration returns an iterate and stops early only at tolerance", "statement": "The result is func applied k times to the initial value with k <= it, k minimal such that the last change is below tol, or k = it; if it stops early and func is a contraction with factor q<1 the result is within q*tol/(1-q) of the fixpoint.", "quantifier": "all functions, limits and tolerances", "why_tests_cant": "arbitrary functions", "anchors": ["dream/bla.py:fixpoint_iteration"]}
{"id": "C51", "title": "Each sensor writes to its own file", "statement": "Sensors with different names never share a file, and every opened file is closed.", "quantifier": "all sets of sensors", "why_tests_cant": "depends on coincidences of names (sensors of different kind with the same name share one file and leave one open)", "anchors": ["dream/io.py:SensorStream.open", "dream/io.py:SensorStream.close"]}
{"id": "C52", "title": "Log output handlers are never duplicated", "statement": "After any history of switching terminal and file logging on and off, the logger has exactly one handler per enabled destination and none for disabled ones.", "quantifier": "all histories", "why_tests_cant": "histories are unbounded", "anchors": ["dream/io.py:LogStream.to_terminal", "dream/io.py:LogStream.to_file"]}
{"id": "C53", "title": "Incompatible physics and discretisation choices are rejected", "statement": "A viscous flow without mixed method, or an inviscid flow with one, is rejected, and every compatible pair is accepted; a mesh with periodic identifications is accepted only with a periodic condition.", "quantifier": "all combinations of viscosity, mixed method and boundary names", "why_tests_cant": "combinatorial over open sets of region names", "anchors": ["dream/compressible/formulations/conservative.py:Inactive.add_mixed_finite_element_spaces", "dream/compressible/formulations/conservative.py:StrainHeat.add_mixed_finite_element_spaces", "dream/compressible/formulations/conservative.py:Gradient.add_mixed_finite_element_spaces", "dream/solver.py:SolverConfiguration.set_boundary_conditions"]}
{"id": "C54", "title": "Force coefficients are forces on the body", "statement": "The pressure coefficient is the pressure difference over the dynamic pressure of the reference; drag and lift coefficients are the component of the force of the fluid on the body in the given direction over the dynamic pressure, with the sign that makes pressure on a wall facing the flow a positive drag.", "quantifier": "all states, stresses, references, normals and directions", "why_tests_cant": "continuum (the claim fails: the sign is reversed)", "anchors": ["dream/compressible/solver.py:CompressibleFlowSolver.pressure_coefficient", "dream/compressible/solver.py:CompressibleFlowSolver.drag_coefficient", "dream/compressible/solver.py:CompressibleFlowSolver.lift_coefficient", "dream/compressible/solver.py:CompressibleFlowSolver.stress_tensor"]}
{"id": "C55", "title": "Every viscous discretisation can evaluate the viscous flux", "statement": "For each mixed method that accepts a viscous fluid, the mixed variables together with the state determine the viscous flux, whatever their values.", "quantifier": "all mixed methods, states and values of the mixed variables", "why_tests_cant": "continuum (the claim fails for the gradient method)", "anchors": ["dream/compressible/formulations/conservative.py:StrainHeat.get_mixed_fields", "dream/compressible/formulations/conservative.py:Gradient.get_mixed_fields", "dream/compressible/formulations/conservative.py:MixedMethod"]}
{"id": "C56", "title": "The diffusive numerical flux is consistent and dissipative", "statement": "For continuous states the diffusive numerical flux is the physical viscous flux in normal direction; its stabilisation dissipates every jump of momentum and energy and never diffuses mass.", "quantifier": "all states, jumps, mixed variables and normals", "why_tests_cant": "continuum", "anchors": ["dream/compressible/formulations/conservative.py:MixedMethod.get_diffusive_stabilisation_matrix", "dream/compressible/formulations/conservative.py:HDG.get_diffusive_numerical_flux"]}
{"id": "C57", "title": "The mixed form is solved by the strain rate and the temperature gradient", "statement": "For smooth velocities and temperatures the strain rate and the temperature gradient satisfy the mixed equations on every triangle for every test function, and they are the only solution.", "quantifier": "all differentiable fields and test functions", "why_tests_cant": "function spaces", "anchors": ["dream/compressible/formulations/conservative.py:StrainHeat.add_mixed_form"]}
{"id": "C58", "title": "Viscous terms of characteristic conditions keep what they should", "statement": "With viscous fluxes enabled the normal derivatives of the stress and heat-flux components that the target does not condition are kept unchanged, and uniform flow has no viscous terms.", "quantifier": "all derivatives, normals and targets", "why_tests_cant": "continuum (the claim fails: a flat index selects the wrong component)", "anchors": ["dream/compressible/formulations/conservative.py:StrainHeat.get_cbc_viscous_terms"]}
{"id": "C59", "title": "Time-level checkpoints can be reloaded at the recorded steps", "statement": "With time_level_rate r, the stored time levels can be loaded at a step if and only if r divides its index, or it is the last step and r does not divide it; at all other steps loading raises FileNotFoundError.", "quantifier": "all numbers of steps, rates and steps", "why_tests_cant": "unbounded number of steps and rates (the last levels are not available when the rate divides the number of steps)", "anchors": ["dream/io.py:GridfunctionStream.save_in_time_routine", "dream/io.py:GridfunctionStream.load_time_levels", "dream/io.py:GridfunctionStream.save_post_time_routine"]}
{"id": "C60", "title": "Region sensors measure exactly the existing regions named", "statement": "A region sensor given names joined by '|' measures over the union of the named regions that exist; given a sequence, over each named region that exists, separately and once; given nothing, over all regions of its kind. Its integrals cover exactly the elements of these regions, anything that is not a name or a sequence of names is refused, and closing and reopening the sensor does not change the regions.", "quantifier": "all meshes and all names or patterns given", "why_tests_cant": "open set of region names and patterns (the claim fails for boundary sensors without regions)", "anchors": ["dream/io.py:RegionSensor.set_regions", "dream/io.py:RegionSensor.measure", "dream/io.py:DomainSensor.open", "dream/io.py:BoundarySensor.open"]}
{"id": "C61", "title": "A transient run yields the textbook recursion", "statement": "For every time scheme, spatial discretisation, solver and timer the transient routine yields, for each step of the timer, its label together with the state obtained by applying the solver to the textbook difference equation of the scheme (backward Euler or two-step backward differences with the last two states, both equal to the initial state before the first step), started from the last state; it raises only if the timer does, a diverged or NaN step does not end the run, and for linear problems with an exact linear solver every yielded state satisfies the difference equation exactly; a state that satisfies the spatial equations is yielded unchanged at every step, and only such a state is.", "quantifier": "all problems, schemes, solvers (including ones returning NaN), numbers of steps and initial states", "why_tests_cant": "histories of unbounded length, arbitrary solvers", "anchors": ["dream/time.py:TransientConfig.start_solution_routine", "dream/time.py:ImplicitEuler.get_time_derivative", "dream/time.py:BDF2.get_time_derivative", "dream/solver.py:NonlinearSolver.solve"]}
{"id": "C62", "title": "Pseudo time stepping converges to steady states only", "statement": "Every residual evaluated by pseudo time stepping is the residual of the steady problem at the present state, so reported convergence means the convergence criterion is met by the steady residual; a steady state is left unchanged and reported as converged after one iteration.", "quantifier": "all problems, pseudo time step histories and solvers", "why_tests_cant": "histories of unbounded length (the claim fails for the two-step scheme, which can report convergence at a state that is not steady)", "anchors": ["dream/time.py:PseudoTimeSteppingConfig.solver_iteration_update", "dream/time.py:PseudoTimeSteppingConfig.start_solution_routine"]}
{"id": "C63", "title": "The time schemes are unconditionally stable", "statement": "For dissipative (possibly nonlinear) spatial terms and any positive step, the distance between two implicit Euler solutions never grows, and the distance between two two-step (BDF2) solutions never exceeds sqrt(2) times the initial one, after any number of steps; the same holds for complete transient runs of linear dissipative problems.", "quantifier": "all step sizes, numbers of steps, quadratures with non-negative weights and dissipative operators", "why_tests_cant": "unbounded number of steps, continuum of operators", "anchors": ["dream/time.py:ImplicitEuler", "dream/time.py:BDF2", "dream/time.py:TransientConfig.start_solution_routine"]}
{"id": "C64", "title": "Static condensation does not change the solver", "statement": "With static condensation the nonlinear solver computes the same increment as without, namely the solution of the full linear system, and reports the same error.", "quantifier": "all invertible block systems and residuals", "why_tests_cant": "all matrices of all sizes (the claim fails for the reported error, which ignores part of the residual, so the two settings stop at different iterations)", "anchors": ["dream/solver.py:DirectNonlinearSolver.solve_update_step", "dream/solver.py:DirectNonlinearSolver.initialize", "dream/solver.py:NonlinearSolver.set_iteration_error"]}
{"id": "C65", "title": "Every term of the equations is assembled exactly once", "statement": "Initialising a solver assembles the convection term, the diffusion and mixed terms exactly for viscous flow, the time term exactly for unsteady runs, and for every assigned condition exactly one term of its formulation on exactly its regions, and nothing else; combinations that are refused raise an error instead of dropping a term.", "quantifier": "all configurations, all sets of conditions and regions, all iteration orders", "why_tests_cant": "open set of conditions and region names (the claim fails for user-defined condition names, where two terms can share a label, and for several conditions on the same regions)", "anchors": ["dream/compressible/formulations/conservative.py:ConservativeFiniteElementMethod.add_symbolic_spatial_forms", "dream/compressible/formulations/conservative.py:HDG.add_boundary_conditions", "dream/compressible/formulations/conservative.py:HDG.add_domain_conditions", "dream/solver.py:SolverConfiguration.initialize_symbolic_forms"]}
{"id": "C66", "title": "Mass, momentum and energy are conserved discretely", "statement": "In every time step the change of the total mass, momentum and energy in the domain is exactly the numerical flux through the boundaries that have a condition plus what the sponge layers take out; interior facets, periodic boundaries and boundaries without condition contribute nothing. Over a whole implicit Euler run the changes add up, and if nothing passes the boundaries the totals are constant for both schemes; in particular the mass and energy of an inviscid gas between walls (with Roe, HLL, HLLEM or Lax-Friedrichs) never change.", "quantifier": "all meshes, orders, quadratures, fluxes, conditions, time steps and numbers of steps", "why_tests_cant": "unbounded number of steps, continuum of states", "anchors": ["dream/compressible/formulations/conservative.py:HDG.add_convection_form", "dream/compressible/formulations/conservative.py:HDG.add_diffusion_form", "dream/compressible/formulations/conservative.py:HDG.get_domain_boundary_mask", "dream/time.py:ImplicitEuler.get_time_derivative", "dream/time.py:BDF2.get_time_derivative"]}
{"id": "C67", "title": "Walls are impermeable", "statement": "At inviscid walls and symmetry planes the numerical flux carries neither mass nor energy and its momentum part is a pressure in normal direction, whatever the state next to the wall.", "quantifier": "all interior states, normals and Riemann solvers", "why_tests_cant": "continuum of states (the claim fails for the Upwind solver, which lets half of the normal momentum through)", "anchors": ["dream/compressible/formulations/conservative.py:HDG.add_inviscid_wall_formulation", "dream/compressible/formulations/conservative.py:HDG.get_convective_numerical_flux", "dream/compressible/riemann_solver.py:Upwind.get_convective_stabilisation_matrix"]}
{"id": "C68", "title": "Boundary conditions act exactly where they were assigned", "statement": "The transmission condition is replaced by boundary conditions on exactly those boundaries to which the user assigned at least one condition and no periodic one.", "quantifier": "all meshes, region names and histories of assignments", "why_tests_cant": "open set of names and histories", "anchors": ["dream/compressible/formulations/conservative.py:HDG.get_domain_boundary_mask", "dream/mesh.py:BoundaryConditions.get_domain_boundaries"]}
{"id": "C69", "title": "Uniform flow is preserved", "statement": "A uniform gas state, with boundary conditions on all boundaries that prescribe this state and sponge layers that have it as target, satisfies the discrete equations of every time step exactly, for every Riemann solver, viscosity law, scheme, step and mesh, with computed gradients that are exactly zero. Conversely, if a boundary was left without any condition no uniform state satisfies them. Started from it, the transient routine yields it unchanged at every step and pseudo time stepping reports convergence at once.", "quantifier": "all gas states, meshes satisfying the discrete divergence theorem, Riemann solvers, schemes, numbers of steps", "why_tests_cant": "continuum of states and unbounded number of steps", "anchors": ["dream/compressible/formulations/conservative.py:HDG.add_convection_form", "dream/compressible/formulations/conservative.py:HDG.get_convective_numerical_flux", "dream/compressible/formulations/conservative.py:HDG.add_farfield_formulation", "dream/compressible/formulations/conservative.py:HDG.add_outflow_formulation", "dream/compressible/formulations/conservative.py:HDG.add_sponge_layer_formulation", "dream/compressible/formulations/conservative.py:HDG.add_diffusion_form", "dream/compressible/formulations/conservative.py:StrainHeat.add_mixed_form"]}
{"id": "C70", "title": "Initial states are set region by region", "statement": "Every region gets the initial state that was assigned to it, whatever the order in which the conditions are visited; a region without initial condition starts from 0, an initial condition without fields is refused, and the facet unknown is the best approximation of the initial state seen from both sides (the state itself where it is continuous).", "quantifier": "all meshes, assignments and iteration orders", "why_tests_cant": "open set of regions, iteration order of a set (the claim fails for regions with several initial conditions, where the order of memory addresses decides)", "anchors": ["dream/compressible/formulations/conservative.py:ConservativeFiniteElementMethod.set_initial_conditions", "dream/compressible/formulations/conservative.py:HDG.set_initial_conditions", "dream/mesh.py:Initial.fields"]}
{"id": "C71", "title": "Every variable gets its own component", "statement": "However many variables a method defines, the trial function, test function and values found under a variable's name belong to that variable's space, and the values of all variables together are the solution vector, block by block in the order of definition. A method without variables is refused.", "quantifier": "all non-empty dictionaries of variables and spaces, all solution vectors", "why_tests_cant": "Tests use the two or three variables of one solver; a shift by one component appears only for other combinations.", "anchors": ["dream/solver.py:SolverConfiguration.initialize_finite_element_spaces", "dream/solver.py:SolverConfiguration.initialize_trial_and_test_functions", "dream/solver.py:SolverConfiguration.initialize_gridfunctions", "dream/compressible/formulations/conservative.py:HDG.add_finite_element_spaces"]}
{"id": "C72", "title": "P-sponge layers lower the polynomial order where they were assigned and only there", "statement": "In every region with a p-sponge layer the elements get the layer's high order, everywhere else the order of the method; a facet keeps the modes up to the largest order of the layers next to it, and all modes if there is no layer next to it. Layers of higher order than the method are refused.", "quantifier": "all assignments of layers to regions, all orders, all meshes, all iteration orders of the set of conditions", "why_tests_cant": "Depends on the iteration order of sets and on the numbering of unknowns for every mesh.", "anchors": ["dream/mesh.py:DomainConditions.reduce_psponge_layers_order_elementwise", "dream/mesh.py:DomainConditions.reduce_psponge_layers_order_facetwise"]}
{"id": "C73", "title": "The sponge function shown is the sponge function used", "statement": "The grid function returned for the sponge layers is the best approximation of the layers' functions: equal to the function of the layer where it is a polynomial of the layer's order, zero outside the layers.", "quantifier": "all assignments of layers, functions, orders and meshes", "why_tests_cant": "A statement about every function and mesh.", "anchors": ["dream/mesh.py:DomainConditions.get_buffer_function_", "dream/mesh.py:DomainConditions.get_sponge_layer_function", "dream/mesh.py:SpongeLayer"]}
{"id": "C74", "title": "A configuration is a mapping of its options", "statement": "Items and attributes of a configuration are the same thing: whatever is assigned, deleted, popped, updated or cleared, an option that was accepted reads back the accepted value until it is touched again, a deleted option is no longer a key and cannot be read, operations on one option leave the others alone, the keys are distinct declared options, and clear() restores exactly the options of a new object. get, pop and setdefault use their defaults for missing names.", "quantifier": "all classes of plain and parameter options, all setters and getter checks, all histories of operations", "why_tests_cant": "unbounded histories (the claim fails for get, pop and setdefault of undeclared names, which raise AttributeError, and for parameters, which cannot be assigned after deletion; misspelt options are accepted silently)", "anchors": ["dream/config.py:UniqueConfiguration.__setitem__", "dream/config.py:UniqueConfiguration.__getitem__", "dream/config.py:UniqueConfiguration.__delitem__", "dream/config.py:UniqueConfiguration.clear", "dream/config.py:configuration.__set__", "dream/config.py:configuration.__get__", "dream/config.py:configuration.__delete__", "dream/config.py:parameter.__set__"]}
{"id": "C75", "title": "Layers around a cylinder", "statement": "The cylinder mesh generator refuses negative thicknesses and sponges inside the farfield; otherwise it builds the requested number of nested rings: the boundary layer in equal rings up to its thickness, the transition region in rings growing with the requested exponent up to its radius, every ring meshed with its own thickness, inside the wake region, the farfield and the sponge.", "quantifier": "all radii, thicknesses, numbers of levels, growth exponents and factors", "why_tests_cant": "continuum of parameters (the claim fails for growth exponents other than 1, where the sizes are assigned in reverse order, and the order of transition region and farfield is not checked)", "anchors": ["dream/mesh.py:get_cylinder_mesh"]}
{"id": "C76", "title": "The choice of coordinate axes does not matter", "statement": "Turn (or reflect) the mesh, the free stream direction and the states of a plane flow: convective, viscous and numerical fluxes, the residuals of all boundary conditions, the equations of the mixed variables and the sponge terms turn with them, drag and lift stay the same, and the turned states solve the discrete equations of every time step exactly when the original states solve the original ones.", "quantifier": "all orthogonal matrices, gas states, normals, Riemann solvers, viscosity laws, boundary conditions, meshes, test functions and time steps", "why_tests_cant": "continuum of rotations and states (the claim fails for the viscous terms of the characteristic conditions)", "anchors": ["dream/compressible/formulations/conservative.py:HDG.get_convective_numerical_flux", "dream/compressible/formulations/conservative.py:HDG.get_diffusive_numerical_flux", "dream/compressible/formulations/conservative.py:HDG.add_convection_form", "dream/compressible/formulations/conservative.py:HDG.add_cbc_formulation", "dream/compressible/formulations/conservative.py:HDG.add_farfield_formulation", "dream/compressible/formulations/conservative.py:StrainHeat.add_mixed_form", "dream/compressible/formulations/conservative.py:StrainHeat.get_cbc_viscous_terms", "dream/compressible/solver.py:CompressibleFlowSolver.drag_coefficient"]}
{"id": "C77", "title": "The choice of the scaling does not matter", "statement": "The aerodynamic, acoustic and aeroacoustic scaling describe the same flow in different units: the free stream, all fluxes, numerical fluxes, boundary residuals, relaxation rates, sponge terms and mixed equations of one scaling are those of the other with velocities multiplied by one number, energies, pressures and temperatures by its square and times divided by it; viscosity, Mach number, force and pressure coefficients are the same, and a rescaled state solves the discrete equations of a time step exactly when the original state does. The dimensional free stream is the same too.", "quantifier": "all pairs of scalings and accepted configurations, gas states, normals, Riemann solvers, viscosity laws, boundary conditions, meshes, test functions and time steps", "why_tests_cant": "continuum of configurations and states (the last sentence fails for fixed reference values: they do not follow the scaling)", "anchors": ["dream/compressible/scaling.py:Scaling.velocity", "dream/compressible/scaling.py:Aerodynamic", "dream/compressible/scaling.py:Acoustic", "dream/compressible/scaling.py:Aeroacoustic", "dream/compressible/solver.py:CompressibleFlowSolver.get_farfield_state", "dream/compressible/solver.py:CompressibleFlowSolver.get_dimensionful_state", "dream/compressible/viscosity.py:Sutherland", "dream/compressible/config.py:GRCBC.get_relaxation_matrix", "dream/compressible/config.py:NSCBC.get_relaxation_matrix", "dream/compressible/formulations/conservative.py:HDG.get_convective_numerical_flux", "dream/compressible/formulations/conservative.py:HDG.get_diffusive_numerical_flux", "dream/compressible/formulations/conservative.py:HDG.add_cbc_formulation"]}
{"id": "C78", "title": "What was saved is what is loaded", "statement": "Whatever meshes, settings and gridfunctions are saved, under whatever folders and file names, and however folders and names are changed in between: loading gives what was saved last under the current folder and name, and raises if nothing was saved there. Saving one kind of document never changes another. States and time levels of different times, spaces and levels are kept in different files, so a run replayed from the disk is the run that was saved.", "quantifier": "all histories of saves and reconfigurations, all folders and names, all times, spaces and levels", "why_tests_cant": "unbounded histories and arbitrary names (the claim fails if root and settings folder agree and mesh and settings have the same name, for spaces with underscores in their names, and between runs whose names extend each other)", "anchors": ["dream/io.py:MeshStream.save_pre_time_routine", "dream/io.py:MeshStream.load_routine", "dream/io.py:SettingsStream.save_pre_time_routine", "dream/io.py:SettingsStream.save_to_pickle", "dream/io.py:SettingsStream.save_to_txt", "dream/io.py:SettingsStream.save_to_yaml", "dream/io.py:SettingsStream.load_from_pickle", "dream/io.py:GridfunctionStream.save_gridfunction", "dream/io.py:GridfunctionStream.load_gridfunction", "dream/io.py:GridfunctionStream.load_transient_routine", "dream/io.py:GridfunctionStream.load_time_levels"]}
{"id": "C79", "title": "Contact discontinuities", "statement": "Between gases with the same velocity and pressure but different densities, Roe's and the upwind flux transport exactly the gas from where the flow comes, and nothing if the contact moves along the facet; so a gas at rest with uniform pressure stays at rest on every mesh, whatever its density. Lax-Friedrichs, HLL and HLLEM (with its default threshold) mix the gases, by known amounts.", "quantifier": "all ideal gases, velocities, densities, normals, meshes, distributions of density, schemes, time steps", "why_tests_cant": "continuum of states, every mesh (the corresponding claim for shear layers fails: mass crosses the facet, quadratically in the jump of the velocity)", "anchors": ["dream/compressible/formulations/conservative.py:HDG.get_convective_numerical_flux", "dream/compressible/riemann_solver.py:Upwind.get_convective_stabilisation_matrix", "dream/compressible/riemann_solver.py:LaxFriedrich.get_convective_stabilisation_matrix", "dream/compressible/riemann_solver.py:Roe.get_convective_stabilisation_matrix", "dream/compressible/riemann_solver.py:HLL.get_convective_stabilisation_matrix", "dream/compressible/riemann_solver.py:HLLEM.get_convective_stabilisation_matrix", "dream/compressible/formulations/conservative.py:HDG.add_convection_form"]}
{"id": "C80", "title": "Exact solutions satisfy the discrete equations", "statement": "Insert an exact solution of the equations of motion into the discrete equations of a time step: the exact state in the elements and on the facets, with boundary conditions and sponge layers whose target it is, and (viscous flow) the exact strain rate and temperature gradient as mixed variables. Then all terms cancel except the truncation error of the difference quotient in time and the quadrature error of the divergence theorem for the exact flux: Riemann solver, stabilisation, facet unknowns and boundary conditions add nothing. Hence with exact integration steady solutions solve every step exactly, solutions affine in time (quadratic for BDF2) are reproduced exactly, and for every solution the defect tends to zero with the time step. The mixed equations are solved by the exact gradients.", "quantifier": "every exact solution of the Euler equations or of the Navier-Stokes equations with the configured viscosity and Prandtl number, every mesh, order, quadrature, Riemann solver, scheme, time step and matching boundary conditions", "why_tests_cant": "tests insert single manufactured solutions and look at convergence rates; consistency is a statement about all solutions and test functions", "anchors": ["dream/compressible/formulations/conservative.py:HDG.add_convection_form", "dream/compressible/formulations/conservative.py:HDG.add_diffusion_form", "dream/compressible/formulations/conservative.py:HDG.get_convective_numerical_flux", "dream/compressible/formulations/conservative.py:HDG.get_diffusive_numerical_flux", "dream/compressible/formulations/conservative.py:StrainHeat.add_mixed_form", "dream/time.py:BDF2.get_time_derivative", "dream/time.py:ImplicitEuler.get_time_derivative"]}
{"id": "C81", "title": "Runs can be split and restarted", "statement": "A transient run over several adjacent intervals, one solve after the other, yields the same times and states as one run over the whole interval. A new process that loads the saved unknowns and time levels of a time and solves over the rest of the interval yields exactly the rest of the run; so does one that loads only the time levels, if the nonlinear solver finds the solution from every starting point. The restarted run leaves the files of the first run as they were, except for those of the times it computes.", "quantifier": "all problems, schemes, nonlinear solvers, initial states, numbers and lengths of intervals, save rates, and restart times that were saved", "why_tests_cant": "every division of every run; every restart point (the claim fails for the files: the restarted run overwrites the initial state with the state it starts from. It also fails if only the unknowns are loaded, and BDF2 is inconsistent if the step is changed)", "anchors": ["dream/time.py:TransientConfig.start_solution_routine", "dream/time.py:Timer.start", "dream/io.py:GridfunctionStream.load_routine", "dream/io.py:GridfunctionStream.load_time_levels", "dream/io.py:GridfunctionStream.save_in_time_routine", "dream/io.py:GridfunctionStream.save_pre_time_routine", "dream/solver.py:SolverConfiguration.solve"]}
{"id": "C82", "title": "Changed settings take effect when they should", "statement": "A solver whose settings are changed, whose parts are replaced, which is initialised and run in any order behaves as if settings were plain values: parameters (time step, Reynolds number, \u2026), the interval and the options of the nonlinear solver act at once, also between two steps of a run; assembly options at the next run that reassembles; all other options at the next initialize. Nothing is stale. What needs initialize or a reassembly (a new scheme, a new nonlinear solver, a never initialised solver) raises until it is given, instead of running with old data.", "quantifier": "all sequences of assignments, replacements, initialisations and runs, with and without reassembling, with arbitrary assignments of parameters between steps", "why_tests_cant": "unbounded histories of user actions (the claim fails twice: a replaced timer is ignored by the equations until the next initialize, and after initialize a run without reassembling silently yields the initial state at all times)", "anchors": ["dream/solver.py:SolverConfiguration.initialize", "dream/time.py:TransientConfig.start_solution_routine", "dream/time.py:ImplicitSchemes.assemble", "dream/time.py:TimeSchemes.initialize", "dream/solver.py:DirectNonlinearSolver.initialize", "dream/solver.py:NonlinearMethod.initialize", "dream/config.py:parameter.__set__", "dream/config.py:unique.__set__", "dream/config.py:interface.__set__", "dream/time.py:Timer.start"]}
{"id": "C83", "title": "Space dimensions other than two", "statement": "The equations are the same in every space dimension: on meshes of any dimension the Lax-Friedrichs and HLL solvers give a consistent flux whose dissipation bounds all signal speeds, walls let neither mass nor energy through so that both are conserved in a container, uniform flow is preserved, and a plane solution repeated on layers is a solution in one more dimension. What exists in two dimensions only (the Riemann solvers Upwind, Roe and HLLEM, farfields, characteristic conditions), adiabatic walls and viscous flow in three dimensions are refused while the equations are set up, never computed wrongly; in two dimensions everything inviscid except adiabatic walls can be set up.", "quantifier": "all dimensions, all states, normals and test functions, all time steps and runs, all collections of boundary and domain conditions, both schemes", "why_tests_cant": "tests run single cases in two dimensions; the claims range over all dimensions, states, meshes and combinations of conditions", "anchors": ["dream/compressible/solver.py:CompressibleFlowSolver.get_convective_flux", "dream/compressible/formulations/conservative.py:HDG.get_convective_numerical_flux", "dream/compressible/riemann_solver.py:LaxFriedrich", "dream/compressible/riemann_solver.py:HLL", "dream/compressible/eos.py:IdealGas.conservative_from_characteristic", "dream/compressible/formulations/conservative.py:StrainHeat.add_mixed_form"]}
{"id": "C84", "title": "Meshes of triangles", "statement": "On every mesh of straight triangles, with piecewise polynomial unknowns and test functions of any orders (also varying from element to element) and integration rules that are exact up to the order, and with conditions on the whole boundary: the integral of every test function's gradient is the integral of its trace times the normal, facet functions cancel between neighbours and across periodic boundaries, and constants are test functions. So uniform flow, inviscid or viscous, is preserved; mass and energy of a gas in a container, integrated over the domain, never change; a gas in rigid rotation (a polynomial of degree two) and every other steady flow with polynomial fluxes are computed exactly; gases at rest at one pressure stay at rest; strain rates and temperature gradients of polynomial flows are computed exactly, and the mixed equations have exactly one solution for any flow; the equations hold in one system of units, or on one position and orientation of the mesh, exactly when they hold in all; and if a single side of the boundary has no condition, no uniform flow is a solution.", "quantifier": "all conforming triangulations of any size, with periodic boundaries, all orders and exact integration rules, Riemann solvers, schemes and time steps", "why_tests_cant": "tests use a few meshes and orders; the claims range over all of them", "anchors": ["dream/compressible/formulations/conservative.py:HDG.add_convection_form", "dream/compressible/formulations/conservative.py:HDG.add_diffusion_form", "dream/compressible/formulations/conservative.py:HDG.get_domain_boundary_mask", "dream/compressible/formulations/conservative.py:HDG.add_finite_element_spaces", "dream/compressible/formulations/conservative.py:StrainHeat.add_mixed_form", "dream/compressible/formulations/conservative.py:StrainHeat.add_mixed_finite_element_spaces"]}
{"id": "C85", "title": "Repeating a computation", "statement": "Initialising a solver and running it gives results that depend on its settings only, not on what was done with it before: whatever runs, failed runs and changes came first, a computation with the same settings yields the same states under the same time labels, or raises the same error, and the initial state is saved under the start of the interval.", "quantifier": "all pairs of histories that end with the same settings, all problems, schemes, nonlinear solvers, time steps and assignments of parameters between steps", "why_tests_cant": "unbounded histories of user actions (the claim fails for the time: the timer is never set back to the start, so the initial state is saved under 0 or under the end of the last run and initial states that depend on the time are evaluated there; and pseudo time stepping leaves its increased step behind, so a second run takes other steps)", "anchors": ["dream/time.py:TransientConfig.start_solution_routine", "dream/time.py:Timer.start", "dream/time.py:PseudoTimeSteppingConfig.solver_iteration_update", "dream/solver.py:SolverConfiguration.initialize", "dream/time.py:TimeSchemes.initialize"]}
{"id": "C86", "title": "Conservation without convergence", "statement": "On a closed domain (all boundaries periodic or without condition) without sponge layers, mass, momentum and energy are the same at every time step of a run, also if Newton's method is damped, stopped after a few iterations, never meets its criterion, or ends in NaN: only the linear systems have to be solved. If they are solved up to a tolerance, the totals drift by at most that tolerance per unit of time. The same holds for viscous flow and for pseudo time stepping.", "quantifier": "all meshes, fluxes, orders, both schemes, all steps, dampings, criteria and iteration limits, all states met on the way, runs of any length", "why_tests_cant": "unconverged intermediate states and arbitrarily long runs; a test that looks only at converged steps or at a tolerance of the size of the drift cannot tell", "anchors": ["dream/solver.py:NonlinearSolver.solve", "dream/solver.py:NewtonsMethod.update_solution", "dream/time.py:TransientConfig.start_solution_routine", "dream/time.py:PseudoTimeSteppingConfig.start_solution_routine", "dream/compressible/formulations/conservative.py:HDG.add_convection_form", "dream/compressible/formulations/conservative.py:HDG.add_diffusion_form"]}
{"id": "C87", "title": "Convergence in time", "statement": "As the time step is refined, the computed states converge to the solution of the equations that are discretised in space: with implicit Euler with order one and with BDF2 with order two, with constants that do not depend on the number of unknowns or the stiffness, for every dissipative problem with a smooth solution. Steps whose equations are solved only up to a residual add an error in proportion to the residual and the elapsed time.", "quantifier": "all dissipative problems of any size, all solutions with bounded derivatives, all steps and numbers of steps", "why_tests_cant": "a limit over infinitely many runs with constants uniform in the problem (the claim fails for BDF2: both of its old levels start from the initial state, and the error this makes in the first step never disappears, so it is of order one; started with two exact states it is of order two)", "anchors": ["dream/time.py:ImplicitEuler", "dream/time.py:BDF2", "dream/time.py:TimeSchemes.set_initial_conditions", "dream/time.py:TransientConfig.start_solution_routine"]}
{"id": "C88", "title": "Sensor tables read back", "statement": "The table written by a sensor during a run can be read back with load_as_dataframe: it has one row for each record that is due, indexed by its time, and one column for each location, field and component, and the entry in a row and column is the value of that component of that field at that location in the state at that time. If a second run appends to the file, its rows follow those of the first under the same columns.", "quantifier": "all sensors, numbers of locations and fields, shapes of fields, rates, time intervals, states and routines (transient and stationary)", "why_tests_cant": "all shapes of tables and lengths of runs, and all states (the claim fails for stationary computations: the rows have one cell less than the header, so loading raises; with an adapted header every column shows the value of its neighbour)", "anchors": ["dream/io.py:SensorStream.load_as_dataframe", "dream/io.py:SensorStream.get_header", "dream/io.py:SensorStream.open_csv_writers", "dream/io.py:SensorStream.save_pre_time_routine", "dream/io.py:SensorStream.save_in_time_routine", "dream/io.py:SensorStream.save_post_time_routine"]}
{"id": "C89", "title": "Density stays positive at lowest order", "statement": "With order zero, the implicit Euler scheme and the Lax-Friedrichs or HLL solver, in any space dimension, with or without viscosity: if the density is positive everywhere at the start it is positive in every element after every step, however long the steps are, whatever the velocities and pressures, with walls (inviscid or isothermal), symmetry planes, periodic boundaries, outflows through which nothing comes back and inflows of a gas, and with sponge layers. In a container no element ever holds more mass than all of the gas at the start. The BDF2 scheme does not have this property.", "quantifier": "all meshes of any dimension, all initial states and solutions of the discrete equations, all step sizes and numbers of steps, all combinations of the conditions", "why_tests_cant": "all states and step sizes; a run that happens to stay positive shows nothing about the next one", "anchors": ["dream/compressible/formulations/conservative.py:HDG.add_convection_form", "dream/compressible/formulations/conservative.py:HDG.add_finite_element_spaces", "dream/compressible/formulations/conservative.py:HDG.add_inviscid_wall_formulation", "dream/compressible/formulations/conservative.py:HDG.add_isothermal_wall_formulation", "dream/compressible/formulations/conservative.py:HDG.add_outflow_formulation", "dream/compressible/riemann_solver.py:LaxFriedrich", "dream/compressible/riemann_solver.py:HLL", "dream/time.py:ImplicitEuler", "dream/time.py:BDF2"]}
{"id": "C90", "title": "Local convergence of Newton's method", "statement": "If the nonlinear solve starts close to a solution in which the linearised system can be solved, it never ends in NaN and the distance to the solution shrinks by a fixed factor with each iteration, for every damping factor in (0, 1], and from a smaller neighbourhood for factors below 2; without damping the number of correct digits doubles with each iteration; and convergence is reported, for every criterion, if enough iterations are allowed. For time steps that are short enough each implicit step has exactly one solution near the last states, and the solve finds it. With a damping factor that is not between 0 and 2 no equation is solved this way, although such factors are accepted.", "quantifier": "all residual functions with a Lipschitz derivative and any number of unknowns, all starts in a neighbourhood, all dampings, criteria and iteration limits, both schemes, all short enough steps", "why_tests_cant": "limits over infinitely many iterations, all criteria and arbitrarily short steps", "anchors": ["dream/solver.py:NonlinearSolver.solve", "dream/solver.py:NewtonsMethod.update_solution", "dream/solver.py:NonlinearSolver.set_iteration_error", "dream/solver.py:DirectNonlinearSolver.solve_update_step", "dream/time.py:ImplicitEuler", "dream/time.py:BDF2"]}
{"id": "C91", "title": "Characteristic quantities are reported or refused", "statement": "A request for characteristic velocities, variables or amplitudes, for a transformation matrix, for a Jacobian or a part of it is answered exactly if all fields it needs are given, the requested part is one of the documented ones, and the dimension is implemented (two, except for the velocities). A missing field or an unknown part is a ValueError, a missing implementation a NotImplementedError; no value computed from a part of the fields is ever returned.", "quantifier": "all dimensions, all combinations of given and missing fields and gradients, all strings for the part, all directions", "why_tests_cant": "2^n combinations of missing fields for each of the sixteen functions, in every dimension", "anchors": ["dream/compressible/eos.py:IdealGas.characteristic_velocities", "dream/compressible/eos.py:IdealGas.characteristic_variables", "dream/compressible/eos.py:IdealGas.characteristic_amplitudes", "dream/compressible/eos.py:IdealGas.conservative_from_primitive", "dream/compressible/solver.py:CompressibleFlowSolver.get_characteristic_identity"]}
{"id": "C92", "title": "Everything registered for output is written", "statement": "After any history of assignments to the sensor stream a run measures exactly one sensor for each kind and name that was assigned, the one of the last assignment; anything that is not a string adds no sensor. The VTK stream refuses to start without fields; otherwise every file of its schedule holds the values of all registered fields under their names, in the state at its time, on exactly the elements of the chosen region (on all elements without one).", "quantifier": "all histories of assignments, all sets of fields, regions, meshes and states, runs of any length", "why_tests_cant": "all histories and all combinations of regions and fields", "anchors": ["dream/io.py:sensor", "dream/io.py:SensorStream.open", "dream/io.py:SensorStream.point", "dream/io.py:VTKStream.open", "dream/io.py:VTKStream.fields", "dream/io.py:VTKStream.save_in_time_routine"]}
{"id": "C93", "title": "A symmetry plane stands for the mirror image", "statement": "In a computation with the condition symmetry on a plane part of the boundary, each state together with its mirror image satisfies, at every step of the run, the discrete equations on the doubled domain, in which the plane is no boundary any more but an interface between elements; and conversely a symmetric solution on the doubled domain, restricted to one half, is a solution with the condition symmetry. So half of the domain can be computed instead of the whole.", "quantifier": "all meshes (in particular all triangulations with piecewise polynomials) with a plane boundary in any direction, all Riemann solvers, schemes, time steps and lengths of runs, all states", "why_tests_cant": "all states, meshes, orders and directions of the plane; a test compares two runs on one mesh up to a tolerance (the claim fails for the Upwind solver, which lets mass through the plane, and for viscous flow, where the condition fixes the facet values but leaves shear stress and heat flux at the plane free)", "anchors": ["dream/compressible/formulations/conservative.py:HDG.add_inviscid_wall_formulation", "dream/compressible/formulations/conservative.py:HDG.add_boundary_conditions", "dream/compressible/formulations/conservative.py:HDG.get_domain_boundary_mask", "dream/compressible/formulations/conservative.py:HDG.add_convection_form", "dream/compressible/config.py:Symmetry", "dream/compressible/riemann_solver.py:Upwind"]}
{"id": "C94", "title": "Short steps of the flow solver can be computed", "statement": "Near a uniform flow that the boundary conditions admit (along inviscid walls, at rest at isothermal walls, leaving at the prescribed pressure, with or without sponge layers and periodic boundaries) the discrete equations of a transient inviscid run with the Lax-Friedrichs or HLL solver have a solution, for both schemes and all time steps below a bound, up to any fixed final time; the deviation from the uniform flow is at most a constant times the initial deviation, independent of the number of steps; and no other solution is near the uniform flow.", "quantifier": "all space dimensions, all meshes and finite element spaces (in particular all conforming triangulations, with any orders), all uniform gas states, all nearby initial states, all short enough steps and numbers of steps", "why_tests_cant": "a continuum of initial states, arbitrarily short steps and therefore arbitrarily many of them; uniqueness is about all other solutions", "anchors": ["dream/compressible/formulations/conservative.py:HDG.add_convection_form", "dream/compressible/formulations/conservative.py:HDG.get_convective_numerical_flux", "dream/compressible/formulations/conservative.py:HDG.add_inviscid_wall_formulation", "dream/compressible/formulations/conservative.py:HDG.add_isothermal_wall_formulation", "dream/compressible/formulations/conservative.py:HDG.add_outflow_formulation", "dream/compressible/formulations/conservative.py:HDG.add_sponge_layer_formulation", "dream/compressible/formulations/conservative.py:HDG.add_finite_element_spaces", "dream/compressible/riemann_solver.py:LaxFriedrich", "dream/compressible/riemann_solver.py:HLL", "dream/time.py:ImplicitEuler", "dream/time.py:BDF2"]}
{"id": "C95", "title": "Newton's method computes runs of the flow solver", "statement": "Under the conditions of C94, the solver does not only have solutions to find but finds them: with a matrix of derivatives (one-sided ones where a signal speed has a kink), any damping factor in (0, 1], any positive tolerance and enough iterations allowed, the nonlinear solve of every time step of a transient run that starts near the uniform flow reports convergence and never NaN, up to any fixed final time, although each solve leaves an error with which the next step starts; every state yielded is a flow, within a constant times the initial deviation of the uniform one, and differs from the only nearby solution of the step by at most (1 - damping/2)^iterations times the distance at the start of the solve.", "quantifier": "all space dimensions, meshes, finite element spaces and bases of them (in particular conforming triangulations), all uniform gas states, damping factors, tolerances, both schemes, all short enough time steps, all numbers of steps and all nearby initial coefficient vectors", "why_tests_cant": "a continuum of initial states and steps, arbitrarily many steps with accumulating errors; a test observes convergence of the runs it makes", "anchors": ["dream/solver.py:NewtonsMethod", "dream/solver.py:NonlinearSolver.solve", "dream/solver.py:DirectLinearSolver", "dream/time.py:TransientConfig.start_solution_routine", "dream/time.py:ImplicitEuler", "dream/time.py:BDF2", "dream/compressible/formulations/conservative.py:HDG.add_convection_form", "dream/compressible/formulations/conservative.py:HDG.get_convective_numerical_flux", "dream/compressible/riemann_solver.py:LaxFriedrich", "dream/compressible/riemann_solver.py:HLL", "dream/bla.py:abs", "dream/bla.py:max"]}
{"id": "C96", "title": "Shorter time steps approximate the flow in continuous time", "statement": "Under the conditions of C94, for every initial state near the uniform flow the discrete equations before discretisation in time have exactly one solution nearby up to any fixed final time, and the states a transient run yields differ from it at the times of the steps by at most a constant times the time step (and times the initial deviation), for both schemes: refining the step makes the computed states converge to that evolution.", "quantifier": "all space dimensions, meshes and finite element spaces (in particular conforming triangulations of any order), all uniform gas states, nearby initial states, both schemes, all short enough time steps and numbers of steps", "why_tests_cant": "a limit over infinitely many steps, and a solution in continuous time that no run computes; a test compares two or three steps on one mesh", "anchors": ["dream/time.py:ImplicitEuler", "dream/time.py:BDF2", "dream/time.py:TransientConfig.start_solution_routine", "dream/compressible/formulations/conservative.py:HDG.add_convection_form", "dream/compressible/formulations/conservative.py:HDG.get_convective_numerical_flux", "dream/compressible/formulations/conservative.py:HDG.add_inviscid_wall_formulation", "dream/compressible/formulations/conservative.py:HDG.add_outflow_formulation", "dream/compressible/formulations/conservative.py:HDG.add_sponge_layer_formulation", "dream/compressible/riemann_solver.py:LaxFriedrich", "dream/compressible/riemann_solver.py:HLL"]}
{"id": "C97", "title": "Every Riemann solver determines the unknowns unless waves run along the facets", "statement": "In two dimensions the claims of C94 and C96 hold for all Riemann solvers that act on all waves crossing the interior facets: Lax-Friedrichs and HLL always, HLLEM with a positive threshold theta_0 (the default) or where the gas crosses the facet, Roe and Upwind where the gas crosses the facet and not at the speed of sound. Then short steps of a run near the uniform flow have exactly one solution nearby, with exactly one facet function, and converge to the evolution in continuous time; the claim of C95 holds too: Newton's method with the derivatives of the code's branches computes all steps of such runs and reports convergence. Where the gas flows along an interior facet or is at rest, Roe, Upwind and HLLEM with theta_0 = 0 leave the density on the facet undetermined: uniform flow solves the equations of every step together with infinitely many facet functions, and the matrix of the linear systems of every step is singular at the uniform flow.", "quantifier": "all five Riemann solvers, all meshes with straight facets and their finite element spaces (in particular conforming triangulations of any order), all uniform gas states, nearby initial states, both schemes, all short enough time steps and numbers of steps", "why_tests_cant": "a continuum of states and arbitrarily many steps; whether a matrix of a large system is singular is hidden by rounding and regularisation, and a test meets one direction of the flow", "anchors": ["dream/compressible/riemann_solver.py:Upwind", "dream/compressible/riemann_solver.py:Roe", "dream/compressible/riemann_solver.py:HLLEM", "dream/compressible/riemann_solver.py:HLL", "dream/compressible/riemann_solver.py:LaxFriedrich", "dream/compressible/formulations/conservative.py:HDG.get_convective_numerical_flux", "dream/compressible/formulations/conservative.py:HDG.add_convection_form", "dream/compressible/formulations/conservative.py:HDG.add_finite_element_spaces", "dream/time.py:ImplicitEuler", "dream/time.py:BDF2", "dream/solver.py:NewtonsMethod"]}
{"id": "C98", "title": "Casts and tests of scalars, vectors and matrices", "statement": "The tests is_scalar, is_vector and is_matrix exclude each other and depend on the shape only. Casts keep the entries and their order, give numbers the shape of a scalar, sequences that of a vector or (square number of entries, or explicit dimensions) a matrix, refuse everything else, and casting twice is casting once; whatever is accepted has the shape the cast names. outer has the product of the entries i and j in row i and column j; is_zero decides by value.", "quantifier": "all numbers, sequences and coefficient functions of all shapes", "why_tests_cant": "sequences of all lengths and functions of all shapes (the claim about shapes fails: every coefficient function is handed back unchanged, whatever its shape, and a sequence of one entry becomes a scalar; is_zero knows coefficient functions by name only)", "anchors": ["dream/bla.py:as_scalar", "dream/bla.py:as_vector", "dream/bla.py:as_matrix", "dream/bla.py:is_scalar", "dream/bla.py:is_vector", "dream/bla.py:is_matrix", "dream/bla.py:is_symmetric", "dream/bla.py:is_zero", "dream/bla.py:outer"]}
{"id": "C99", "title": "Closed flows are not amplified however long the steps, and damped flows return", "statement": "In a closed domain (periodic, or bounded by inviscid and isothermal walls that admit the flow, with or without sponge layers) a transient inviscid run near uniform flow is not amplified: there is one factor, which depends neither on the time step nor on the final time nor on the number of steps, such that the states differ from the uniform flow by at most this factor times the initial deviation, for both schemes and all time steps, short or long, and the run exists and is the only one nearby. If sponge layers damp everywhere, then the run exists for any number of steps, again with every time step, and its distance from the uniform flow decreases geometrically.", "quantifier": "all space dimensions with Lax-Friedrichs and HLL; in two dimensions all Riemann solvers that act on all waves crossing the interior facets (all but Upwind at walls; Lax-Friedrichs, HLL and HLLEM with positive threshold at isothermal walls); all meshes and finite element spaces whose boundary facets contain the traces of the elements (in particular conforming triangulations of any orders), all uniform gas states, nearby initial states, both schemes, all positive time steps and numbers of steps", "why_tests_cant": "all time steps without a bound and arbitrarily many steps; a test sees that one run with one step did not blow up", "anchors": ["dream/compressible/formulations/conservative.py:HDG.add_convection_form", "dream/compressible/formulations/conservative.py:HDG.get_convective_numerical_flux", "dream/compressible/formulations/conservative.py:HDG.add_inviscid_wall_formulation", "dream/compressible/formulations/conservative.py:HDG.add_isothermal_wall_formulation", "dream/compressible/formulations/conservative.py:HDG.add_sponge_layer_formulation", "dream/compressible/formulations/conservative.py:HDG.add_finite_element_spaces", "dream/compressible/riemann_solver.py:LaxFriedrich", "dream/compressible/riemann_solver.py:HLL", "dream/compressible/riemann_solver.py:HLLEM", "dream/compressible/riemann_solver.py:Roe", "dream/time.py:ImplicitEuler", "dream/time.py:BDF2"]}
{"id": "C100", "title": "Pseudo time stepping finds the steady flow from all nearby states", "statement": "In a closed domain in which sponge layers damp everywhere, pseudo time stepping with implicit Euler and Newton's method finds the uniform flow the layers relax to from every state near it, whatever the initial time step (if it is not below a given positive bound), the largest step and the rule that increases it: the routine ends without error after a number of iterations that is bounded for all of them, reports convergence and not NaN, and every iteration reduces the distance from the uniform flow by a fixed factor. No other state nearby is steady.", "quantifier": "all space dimensions with Lax-Friedrichs and HLL, in two dimensions all Riemann solvers that act on all waves crossing the interior facets; meshes, spaces, conditions and uniform states as in C99; all bases of the spaces, all damping factors in (0,1], all tolerances, all linear solvers that solve regular systems, all nearby initial states, all time steps above a positive bound and all rules that do not decrease them", "why_tests_cant": "all initial states in a neighbourhood and all step sizes without an upper bound, and convergence is a statement about all iterates; a test observes one sequence", "anchors": ["dream/time.py:PseudoTimeSteppingConfig.start_solution_routine", "dream/time.py:PseudoTimeSteppingConfig.solver_iteration_update", "dream/time.py:ImplicitEuler", "dream/solver.py:NewtonsMethod", "dream/compressible/formulations/conservative.py:HDG.add_convection_form", "dream/compressible/formulations/conservative.py:HDG.get_convective_numerical_flux", "dream/compressible/formulations/conservative.py:HDG.add_sponge_layer_formulation", "dream/compressible/formulations/conservative.py:HDG.add_inviscid_wall_formulation"]}
{"id": "C101", "title": "Interrupted runs can be resumed", "statement": "A transient run that saves its gridfunctions is interrupted: the process is killed, fails or abandons the generator, between two writes or while it writes a file, which is then missing or holds anything. A new process with any initial state that sets the step and the rest of the interval, loads the unknowns and the time levels of a step whose number both rates divide and that had been saved, and solves, yields exactly what the first process would have yielded from there on, and ends with the same unknowns, time levels and time; the new process may be interrupted and resumed in turn, any number of times. If all steps are saved, the files in the end are those of a run without interruptions, except those with the label 0, under which every process saves the state it starts from. If the process ended before the step was saved, loading raises an error.", "quantifier": "all points of interruption (every step, every file, every content of the file being written), any number of interruptions and any steps to resume from, all initial states of the new processes, all earlier files, both schemes, all problems and Newton solvers, all rates and numbers of steps with distinct labels", "why_tests_cant": "a crash point between any two writes of a run of any length, any damage to the file being written, and histories of any number of crashes", "anchors": ["dream/time.py:TransientConfig.start_solution_routine", "dream/io.py:GridfunctionStream.save_in_time_routine", "dream/io.py:GridfunctionStream.save_pre_time_routine", "dream/io.py:GridfunctionStream.save_post_time_routine", "dream/io.py:GridfunctionStream.load_routine", "dream/io.py:GridfunctionStream.load_time_levels"]}
{"id": "C102", "title": "Output does not influence the computation", "statement": "What a run computes and yields, whether and how it fails, and everything each output stream does, is the same whatever other streams are switched on; the labels and states yielded, and the unknowns, time levels and timer left behind, are the same whether gridfunctions are saved or not, at whatever rates, and whatever files are in the folder.", "quantifier": "all sets of output streams, all rates, all points at which the computation raises or the consumer stops, transient and pseudo time stepping; all problems, solvers and scripts of several runs that do not load files", "why_tests_cant": "all combinations of streams, rates and points of failure (the claim fails for the mesh and the settings stream, with which nothing is computed)", "anchors": ["dream/time.py:TransientConfig.start_solution_routine", "dream/time.py:PseudoTimeSteppingConfig.start_solution_routine", "dream/io.py:IOConfiguration.open", "dream/io.py:IOConfiguration.save_pre_time_routine", "dream/io.py:IOConfiguration.save_in_time_routine", "dream/io.py:IOConfiguration.save_post_time_routine", "dream/io.py:IOConfiguration.close"]}
{"id": "C103", "title": "The origin of time does not matter", "statement": "If the interval and everything prescribed in time are delayed by the same amount, a transient run computes the same states, ends with the same unknowns and time levels and fails alike. The reported labels are delayed by the same amount, if it is an even multiple of the last digit of the labels (a whole number of time units, say).", "quantifier": "all delays, intervals and steps (whether or not the step divides the interval), all problems with time dependent data, both schemes, all initial states and nonlinear solvers", "why_tests_cant": "all delays and all runs; rounding of labels is decided by parity of the last digit", "anchors": ["dream/time.py:Timer.start", "dream/time.py:Timer.interval", "dream/time.py:TransientConfig.start_solution_routine", "dream/time.py:TimeSchemes.solve_current_time_level"]}
{"id": "C104", "title": "Tables of sensors over several runs", "statement": "A user who solves over consecutive intervals gets in the end a table of each sensor that contains every row the table of one run over the whole interval would contain, in the same order, and besides them only rows of states the run went through, with their times.", "quantifier": "all transient scripts, states and times a script has reached, all contents of the file, numbers of intervals and steps, rates, schemes, problems, nonlinear solvers and sets of other streams; runs in one process and runs resumed from files", "why_tests_cant": "all ways to divide a run and all rates; rows go missing depending on whether the rate divides the numbers of steps", "anchors": ["dream/io.py:SensorStream.open_csv_writers", "dream/io.py:SensorStream.mode", "dream/io.py:SensorStream.save_pre_time_routine", "dream/io.py:SensorStream.save_in_time_routine", "dream/io.py:SensorStream.save_post_time_routine", "dream/time.py:TransientConfig.start_solution_routine", "dream/time.py:Timer.start"]}
{"id": "C105", "title": "Standing shocks stay where they are", "statement": "A flow in which the gas is uniform in every triangle and changes only across shocks that lie along sides of the mesh (supersonic ahead, the conditions of Rankine and Hugoniot across) satisfies the discrete equations of every time step exactly with Upwind, HLL and HLLEM, if the boundary conditions match the gas at the boundary and sponge layers have it as target; the gas on such a side is that ahead of the shock, and no other supersonic gas transmits what it receives. Behind a shock the gas is denser, hotter, slower and has a higher pressure, and every supersonic gas can be stopped by one. With Lax-Friedrichs and Roe (heat capacity ratio below 3) no gas on the side keeps a shock.", "quantifier": "all conforming triangulations, numbers and directions of shocks, gas states, heat capacity ratios, orders, quadrature rules exact for the orders, both schemes, all time steps and numbers of steps, thresholds of HLLEM", "why_tests_cant": "all strengths and directions of shocks and all meshes; a run that keeps one shock for some steps up to a tolerance does not show that it does not smear slowly", "anchors": ["dream/compressible/formulations/conservative.py:HDG.add_convection_form", "dream/compressible/formulations/conservative.py:HDG.get_convective_numerical_flux", "dream/compressible/riemann_solver.py:Upwind", "dream/compressible/riemann_solver.py:HLL", "dream/compressible/riemann_solver.py:HLLEM", "dream/compressible/riemann_solver.py:LaxFriedrich", "dream/compressible/riemann_solver.py:Roe", "dream/compressible/formulations/conservative.py:HDG.add_farfield_formulation"]}
{"id": "C106", "title": "The vortex example starts from an exact solution", "statement": "With the farfield state, the velocity magnitude of the scaling and the Mach number that the configuration reports, the initial condition of the vortex example is a consistent gas state everywhere and the state at time zero of an exact solution of the Euler equations: the same vortex moved along with the stream. Its disturbance of the velocity is a rotation about the centre with at most the requested Mach number, reached at the requested radius; its circulation vanishes far away; its entropy is that of the stream; the pressure is lowest in the centre, and the normalised pressure that is drawn lies between zero and one, one in the centre only.", "quantifier": "all scalings, Mach numbers, heat capacity ratios, directions of the stream, places, radii and strengths of the vortex for which the temperature in the centre is positive, all points and times", "why_tests_cant": "all points, times and parameters; a simulation compares one vortex with itself up to discretisation errors", "anchors": ["examples/compressible/zero_circulation_vortex_2d.py:psi", "examples/compressible/zero_circulation_vortex_2d.py:u_0", "examples/compressible/zero_circulation_vortex_2d.py:p_0", "examples/compressible/zero_circulation_vortex_2d.py:rho_0", "examples/compressible/zero_circulation_vortex_2d.py:p_00", "dream/compressible/solver.py:CompressibleFlowSolver.get_farfield_state", "dream/compressible/scaling.py:Aerodynamic.velocity_magnitude", "dream/compressible/scaling.py:Acoustic.velocity_magnitude", "dream/compressible/scaling.py:Aeroacoustic.velocity_magnitude"]}
{"id": "C107", "title": "The pressure coefficient at low Mach numbers", "statement": "On streamlines of a smooth steady inviscid flow that come from the farfield, the reported pressure coefficient is a fixed function of the Mach number and of the speed relative to the farfield (compressible Bernoulli equation), in every scaling; as the Mach number tends to zero it tends to one minus the square of that speed, on the cylinder of the cylinder example to the formula it is compared with, which is the pressure coefficient of the exact incompressible flow around a circular cylinder.", "quantifier": "all scalings, heat capacity ratios, Mach numbers, smooth steady flows, streamlines and points; all families of flows with Mach numbers tending to zero whose speeds converge; all radii, angles, speeds and pressures of the reference flow", "why_tests_cant": "a limit, and all flows; a simulation shows agreement for one Mach number, mesh and order", "anchors": ["examples/compressible/low_mach_inviscid_cylinder.py:cp", "examples/compressible/low_mach_inviscid_cylinder.py:Uinf", "examples/compressible/low_mach_inviscid_cylinder.py:fields", "dream/compressible/solver.py:CompressibleFlowSolver.pressure_coefficient", "dream/compressible/solver.py:CompressibleFlowSolver.get_farfield_state"]}
{"id": "C108", "title": "Pictures follow the solution", "statement": "After draw(fields), every time step of a run is followed by one refresh of each of these fields, in their order, showing the solution of that step; so is every iteration of pseudo time stepping, its result, and every file of a replay. A later draw, also from the user's loop, replaces the fields from the next refresh on. Nothing is refreshed if nothing was drawn. If a run is interrupted the pictures are the first ones of the undisturbed run; if the user leaves the loop at a step, this step has been computed but the last pictures show the step before.", "quantifier": "all sets of fields, numbers of steps and iterations, draws by the user's loop at any steps, active streams, inside and outside of notebooks, exceptions at any operation", "why_tests_cant": "all histories of draws and all interruptions; pictures are not visible to tests", "anchors": ["dream/io.py:IOConfiguration.draw", "dream/io.py:IOConfiguration.redraw", "dream/io.py:GridfunctionStream.load_transient_routine", "dream/time.py:TransientConfig.start_solution_routine", "dream/time.py:PseudoTimeSteppingConfig.start_solution_routine"]}
{"id": "C109", "title": "Fields follow the solution", "statement": "Fields obtained from the solver once (for pictures, vtk output or sensors) always show the current solution of the solver, whatever is changed, initialised and solved afterwards.", "quantifier": "all histories of changes of settings, replaced parts, initialisations and runs; all problems, schemes and nonlinear solvers", "why_tests_cant": "all histories; whether fields are stale depends on the order of calls", "anchors": ["dream/solver.py:SolverConfiguration.get_fields", "dream/compressible/formulations/conservative.py:ConservativeFiniteElementMethod.get_fields", "dream/solver.py:SolverConfiguration.initialize_gridfunctions", "dream/solver.py:SolverConfiguration.initialize"]}
{"id": "C110", "title": "Gas stays gas at lowest order", "statement": "With order zero, the implicit Euler scheme and the Lax-Friedrichs or HLL solver, without viscosity, in any space dimension: if density, pressure, temperature and speed of sound are positive in every element at the start they are positive in every element after every step, however long the steps are and whatever the velocities, with walls, symmetry planes, periodic boundaries, outflows through which nothing comes back and inflows of a gas, and with sponge layers towards a gas, unless a step produced nan in the speed of sound on a facet. The BDF2 scheme does not have this property.", "quantifier": "all dimensions, meshes, integration rules with positive weights, initial gases, heat capacity ratios, step lengths, numbers of steps, conditions on the boundary and sponge layers", "why_tests_cant": "all meshes, states and step lengths; a negative pressure shows up in single elements of single runs", "anchors": ["dream/compressible/formulations/conservative.py:HDG.add_convection_form", "dream/compressible/formulations/conservative.py:HDG.add_finite_element_spaces", "dream/compressible/formulations/conservative.py:HDG.add_sponge_layer_formulation", "dream/compressible/formulations/conservative.py:ConservativeMethod.get_conservative_fields", "dream/compressible/riemann_solver.py:LaxFriedrich", "dream/compressible/riemann_solver.py:HLL", "dream/time.py:ImplicitEuler", "dream/time.py:BDF2"]}
{"id": "C111", "title": "The timer in floating point arithmetic", "statement": "With numbers rounded after every operation as computers do, and an interval and step typed as decimal numbers, a timer visits as many times as it would in exact arithmetic, up to a few units of precision, and the label of each is the floating point number nearest to the exact time, the same that a user gets by typing it. So the labels are distinct and increasing, and the last is the end of the interval if the step divides it.", "quantifier": "all roundings with a small relative error (double precision among them), intervals, steps, strides and numbers of steps for which the precision suffices", "why_tests_cant": "all decimal steps and numbers of steps; whether 3*0.1 has the label 0.3 is one of infinitely many cases", "anchors": ["dream/time.py:Timer.start", "dream/time.py:Timer._set_digit", "dream/time.py:Timer.interval", "dream/time.py:Timer.step", "dream/time.py:Timer.to_array"]}
{"id": "C112", "title": "Sound leaves through the farfield", "statement": "A small disturbance of a uniform two dimensional flow that reaches a boundary with a FarField condition of this flow leaves: the state on the boundary takes the outgoing amplitudes (sound, entropy, shear) of the interior and no incoming ones. Sound leaving at a right angle, and at a subsonic outflow also eddies and hot spots, pass as if there were no boundary; at a supersonic outflow everything leaves, at a supersonic inflow nothing enters. Sound at an angle theta keeps the fraction (1+cos theta)/2 of its pressure. Such states exist for every disturbance. An outflow with prescribed pressure reflects all sound, so does an inviscid wall, whose pressure is that of the interior.", "quantifier": "all uniform flows of ideal gases whose velocity through the boundary is none of 0, c, -c; all disturbances, normals and angles; both versions of the condition; to first order in the amplitude", "why_tests_cant": "all flows, waves and angles in the limit of small amplitudes; a run shows one reflected wave with discretisation errors", "anchors": ["dream/compressible/formulations/conservative.py:HDG.add_farfield_formulation", "dream/compressible/formulations/conservative.py:HDG.add_outflow_formulation", "dream/compressible/formulations/conservative.py:HDG.add_inviscid_wall_formulation", "dream/compressible/solver.py:CompressibleFlowSolver.get_conservative_convective_jacobian", "dream/compressible/solver.py:CompressibleFlowSolver.get_conservative_convective_identity", "dream/compressible/config.py:FarField", "dream/compressible/config.py:Outflow"]}
{"id": "C113", "title": "Waves at characteristic boundaries", "statement": "In a run with a characteristic boundary condition (GRCBC or NSCBC) at a uniform two dimensional flow that is disturbed slightly, the state on the boundary takes the outgoing waves of the interior in every step, while each incoming wave moves from its values in the steps before towards that of the target with the rate given by the relaxation factor of this wave. With the target farfield nothing enters that was not there at the beginning, and outgoing waves pass as if there were no boundary. If the interior stays disturbed in the same way, incoming waves with a positive factor tend to those of the target, with implicit Euler by the factor 1/(1+dt*rate) in each step, which for GRCBC does not depend on the step length. With the target outflow the pressure on the boundary tends to the middle between that of the interior and the prescribed one. Such states exist for all disturbances and steps.", "quantifier": "all uniform flows of ideal gases with velocities through the boundary other than 0, c, -c; all disturbances of the interior in all steps, initial traces, nonnegative rates, step lengths, both schemes and conditions, targets farfield, outflow and mass inflow; to first order in the amplitude, without tangential and viscous terms", "why_tests_cant": "all flows, waves, factors and numbers of steps; a run shows the reflection of one wave with discretisation errors", "anchors": ["dream/compressible/formulations/conservative.py:HDG.add_cbc_formulation", "dream/compressible/config.py:CBC.relaxation_factor", "dream/compressible/config.py:GRCBC.get_relaxation_matrix", "dream/compressible/config.py:NSCBC.get_relaxation_matrix", "dream/time.py:ImplicitEuler.get_current_level", "dream/time.py:BDF2.get_current_level", "dream/time.py:BDF2.get_time_step"]}
{"id": "C114", "title": "Reported forces and the momentum of the gas", "statement": "In every time step the momentum of the gas in a direction changes by what it hands over to a body and what it loses elsewhere, through other boundaries and in sponge layers. The drag and lift that a boundary sensor writes for the body are this momentum over the dynamic pressure of the reference, in inviscid flow for a slip wall and in viscous flow, pressure and friction, for an isothermal wall; so in steady flow the drag can be read off far from the body.", "quantifier": "all meshes, spaces, schemes, steps, states, references, directions and Riemann solvers", "why_tests_cant": "all meshes and states; a computed drag cannot be compared with the momentum balance at all boundary points and states", "anchors": ["dream/compressible/solver.py:CompressibleFlowSolver.drag_coefficient", "dream/compressible/solver.py:CompressibleFlowSolver.lift_coefficient", "dream/compressible/solver.py:CompressibleFlowSolver.stress_tensor", "dream/compressible/formulations/conservative.py:HDG.add_inviscid_wall_formulation", "dream/compressible/formulations/conservative.py:HDG.add_isothermal_wall_formulation", "dream/io.py:BoundarySensor", "dream/io.py:RegionSensor.measure"]}
{"id": "C115", "title": "Symmetric problems have symmetric runs", "statement": "If mesh, finite element spaces, boundary conditions, sponge layers and initial state of a two dimensional problem, without viscosity or with viscosity and the strain-heat method, are the same after a reflection or rotation, then so is every state the run yields, for both time schemes and in pseudo time stepping, for all Riemann solvers and any damping, whether Newton's method converges, stops at its limit or ends with NaN. A body that is symmetric to the flow has no lift: the boundary sensor writes exactly zero.", "quantifier": "all meshes, spaces, symmetries of the plane, conditions (walls, outflow, both farfields), sponge profiles, initial states, steps and iterations; linear systems that have one solution", "why_tests_cant": "all symmetric meshes and histories; a computed flow is symmetric up to rounding, and asymmetries from wrong terms look like instabilities", "anchors": ["dream/time.py:TransientConfig.start_solution_routine", "dream/time.py:PseudoTimeSteppingConfig.start_solution_routine", "dream/solver.py:NonlinearSolver.solve", "dream/compressible/formulations/conservative.py:HDG.add_convection_form", "dream/compressible/formulations/conservative.py:HDG.add_diffusion_form", "dream/compressible/formulations/conservative.py:StrainHeat.add_mixed_form", "dream/compressible/formulations/conservative.py:HDG.add_farfield_formulation", "dream/compressible/formulations/conservative.py:HDG.add_inviscid_wall_formulation", "dream/compressible/formulations/conservative.py:HDG.add_isothermal_wall_formulation", "dream/compressible/formulations/conservative.py:HDG.add_outflow_formulation", "dream/compressible/formulations/conservative.py:HDG.add_sponge_layer_formulation", "dream/compressible/solver.py:CompressibleFlowSolver.lift_coefficient", "dream/io.py:BoundarySensor"]}
{"id": "C116", "title": "The pulse example starts from a round pulse in the stream", "statement": "With the farfield state that the configuration reports, the initial condition of the pulse example is a consistent gas state at every point, with the velocity, the temperature, the speed of sound and the local Mach number of the stream. Pressure and density depend on the distance from the origin only; a pulse of positive strength raises the pressure everywhere, by the given share in the origin and less the further away, and this is what is drawn at the beginning. The pulse is not sound alone: of the density raised exactly the share 1 - 1/gamma (two sevenths for air) does not belong to the pressure raised, and this part, alone in the stream, is carried along unchanged and sends out no sound.", "quantifier": "all accepted configurations, scalings, directions of the stream, strengths and radii of the pulse, and all points", "why_tests_cant": "all points and parameters; a simulation shows one pulse with discretisation errors", "anchors": ["examples/compressible/pressure_pulse_2d.py:p_0", "examples/compressible/pressure_pulse_2d.py:rho_0", "examples/compressible/pressure_pulse_2d.py:initial", "dream/compressible/solver.py:CompressibleFlowSolver.get_farfield_state", "dream/compressible/solver.py:CompressibleFlowSolver.get_local_mach_number"]}
{"id": "C117", "title": "Options for whole numbers", "statement": "The polynomial order, the limit of Newton iterations, the additional integration orders and the interval and factor with which pseudo time stepping enlarges its step are whole numbers. Whatever has been assigned before, each of them has the last finite number assigned to it, without the digits behind the point, or its default; refused values (nan, infinities, other objects, with ValueError, OverflowError and TypeError) and assignments to other options have no effect. Nothing else is checked: a limit of iterations below one is accepted and the solver then leaves the solution as it is without an error, so that a transient run yields the initial state at all times; an interval between -1 and 1 makes pseudo time stepping end with ZeroDivisionError.", "quantifier": "all histories of assignments of any values to any of the options, all solutions and linear solvers", "why_tests_cant": "all histories and numbers", "anchors": ["dream/solver.py:FiniteElementMethod.order", "dream/solver.py:NonlinearSolver.max_iterations", "dream/solver.py:NonlinearSolver.solve", "dream/solver.py:BonusIntegrationOrder", "dream/time.py:PseudoTimeSteppingConfig.increment_at", "dream/time.py:PseudoTimeSteppingConfig.increment_factor", "dream/time.py:PseudoTimeSteppingConfig.solver_iteration_update", "dream/config.py:configuration.__set__"]}
{"id": "C118", "title": "Damping changes the speed of Newton's method by a known factor", "statement": "On a linear equation with an exact linear solver every iteration multiplies the residual by one minus the damping factor and the error that is reported by the square of that. So the run of the nonlinear solver is known in advance: it ends converged after k+1 solves, where k is the first iteration whose error is below the criterion, or, if there is none, not converged after the greatest number of iterations. Factors between 0 and 2 always converge if enough iterations are allowed; with any other factor (which the option accepts without a warning) it never converges unless the first error is below the criterion, and the residual does not shrink. Without damping one solve finds the solution and a second one is needed to notice.", "quantifier": "all linear equations in any number of unknowns, starting points, damping factors, criteria and limits of iterations", "why_tests_cant": "all factors, equations and numbers of iterations", "anchors": ["dream/solver.py:NewtonsMethod.damping_factor", "dream/solver.py:NewtonsMethod.update_solution", "dream/solver.py:NonlinearSolver.set_iteration_error", "dream/solver.py:NonlinearSolver.solve", "dream/solver.py:DirectNonlinearSolver.solve_update_step"]}
{"id": "C119", "title": "The text of the settings file", "statement": "A string passed as documentation of the solver is kept as it is, a sequence of strings as its lines; a sequence with other elements is refused with TypeError and any other object with ValueError. Whatever was passed before, and whatever was refused afterwards, the documentation is the one accepted last; without one there is none. The text file with the settings has the acknowledgements with the date, the documentation under its header if there is one, and one line for every option under the header of the configuration. It can be read back: from the text alone date, documentation and all options with their printed values are known, even if the documentation has lines that look like headers or options, provided that printed values have no line breaks, for which it is not true.", "quantifier": "all histories of passed documentations, all texts, dates and configurations whose printed values are lines", "why_tests_cant": "all texts and histories", "anchors": ["dream/solver.py:SolverConfiguration.set_solver_documentation", "dream/io.py:SettingsStream.save_to_txt", "dream/_version.py:header", "dream/_version.py:acknowledgements", "dream/config.py:UniqueConfiguration.__repr__"]}
