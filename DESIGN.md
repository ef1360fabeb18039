# A machine-checked model of plederer/dream_solver

`/repo` is read as text; nothing of it is built or run.  This directory holds
`properties.jsonl` (the English properties), a Lean 4 model of the Python code
(`lean/Verif/Model`), small independent specifications (`lean/Verif/Spec`), the
property theorems (`lean/Verif/Props`), `MANIFEST.json` (property -> theorems) and
`seeded/LOG.jsonl` (experiments with wrong programs).

## How to read the Lean project

* `Verif/Model/*.lean` - one total function per Python function, with the branches
  in the same order and Python exceptions as values (`Except PyErr`).  Each
  definition cites file and lines.  Nothing here mentions a property.
* `Verif/Spec/*.lean` - what the properties mean, in terms that do not use the model
  (plain mathematics: lists, sets, real functions, derivatives).
* `Verif/Lemmas/*.lean` - helper lemmas.
* `Verif/Props/*.lean` - the theorems cited in MANIFEST.json, named `Cnn_...`, each
  followed by an `example` that instantiates the hypotheses on a concrete case.
* A property that the code violates has (a) a theorem `Cnn_..._fails...` proving the
  negation on a concrete witness in the model and (b) a theorem with suffix
  `_partial` proving the part that does hold.

## Conventions and trusted base

Trusted:

* Lean 4.33.0's kernel, and Mathlib as far as statements use its definitions.
* The axioms `propext`, `Classical.choice`, `Quot.sound`; `AXIOMS.md` lists for every
  theorem of `MANIFEST.json` which of them it depends on.  No `sorry`, no own axioms, no
  `native_decide`/`bv_decide`.  `decide +kernel` is used in a few places; it is evaluated
  by the kernel.
* That the model says what the Python says.  It was transcribed by hand; each definition
  cites the lines.  The statements about Python and the libraries below are part of this.

Numbers and expressions:

* Floating point numbers are real or rational numbers; rounding errors are outside the
  model, except for the timer (C111, `Model/Floats.lean`).  Where the code tests for NaN, or where a property is about input validation,
  values are modelled with NaN and infinities (`Model/Options.lean`).
* An `ngs.CF` is modelled by its value at a point: a number, vector or matrix.
  `IfPos(x,a,b)` is `if 0 < x then a else b`.  A `CF` is truthy, `None` is falsy.
  `ngs.CF(None)` raises.  Integer indexing of a matrix-valued `CF` is flat.  Subtracting
  `CF`s of different dimensions raises.
* `round` is Python's round-half-to-even; `//`, `%` are floor operations; `range`, `zip`,
  slices as in Python.  Printing a number in a file name identifies it.

Python:

* Exceptions are values (`PyErr`).  Abandoning a generator is `GeneratorExit` at the
  `yield`.  An object without references is deleted at once.  Sets of objects hashed by
  address are iterated in an arbitrary order (universally quantified).
* Dictionaries keep insertion order.  Lower-casing is modelled for ASCII.  Region names
  are literal, not regular expressions.  Single inheritance within an interface.
* A loop without bound has fuel; "never ends" means that no fuel suffices.

Libraries (NGSolve, Netgen, numpy, csv, pickle, logging):

* Their internals are not modelled.  Their effect is an event in a trace, an entry of an
  abstract store, or an arbitrary, universally quantified function (linear solver, spatial
  form, integrals of sensors).
* `Integrate(definedon=None)` integrates over the volume.  In `MaterialCF` the last
  matching pattern counts and uncovered regions evaluate to 0.
* Integrals are quadrature sums; `ds(skeleton=True)` visits the points of boundary facets
  once, `element_boundary=True` once per adjacent element (C66-C69).
* The operators of a statically condensed form have the documented block form and all
  unknowns are free (C64).
* The linear solver depends on the form only through the residual function (C61, C62).
* Hypotheses of theorems, not axioms: test spaces contain the constants (C66) and functions
  on a single facet (C69_missing), a discrete divergence theorem holds (C69), the wall
  condition holds pointwise at the quadrature points (C66_container), the unknowns of a
  facet space are numbered facet by facet (C72).
* The linear solver applied to a zero residual gives the increment 0 and the error 0
  (hypothesis `Newton.KeepsRoots` of C61_steady_kept, C69_transient).
* `fes1 * fes2` appends to a product of spaces; a power of a space is one component (C71).

## Testing the theorems against wrong programs

`seeded/LOG.jsonl` has one line per experiment: in a copy of the project one definition of
the model was changed as a realistic bug would change the program, the project was rebuilt,
and the declarations that failed were recorded (`blocked` are modules that import a failed
one and were not checked).  Where nothing failed although the claim had become false, the
theorem was tightened and the experiment repeated.

## Plan per property

| id | modelled | proof |
|----|----------|-------|
| C01 | `Timer.start` over rationals with half-even rounding | arithmetic on `round`; list induction |
| C02 | digit count of the step, label rounding | multiples of `10^-d` are fixed by rounding; collision witness for the negative part |
| C03 | the validating setters as a state machine | invariant by induction over histories |
| C04 | level dictionaries as lists of values, `zip`-loop of copies | induction on steps, refinement to "last k solutions" |
| C05 | both schemes' three formulas over a field | `ring`/`field_simp`; polynomials of arbitrary coefficients |
| C06 | the generator loop of `NonlinearSolver.solve` over an arbitrary oracle | induction on remaining iterations; geometric decay |
| C07 | `solver_iteration_update` | induction on iterations, closed form |
| C08 | save hooks of the three streams over the time loop | induction on the number of steps; set equality and `Nodup` |
| C09 | event trace of the three routines with a crash oracle | case analysis and induction over crash points |
| C10 | store written by the run, times visited by the loader | proved for rate 1; negation for every rate >= 2 that is hit |
| C11 | header and row builders as nested list comprehensions | length and index lemmas, induction on the lists |
| C12 | call protocol of the hooks (arity) | decision; negation for mesh and settings streams |
| C13 | paths as component lists, relocation loop with fuel | induction on depth; non-termination witness |
| C14 | stream switchboard | induction over histories |
| C15 | `ngsdict` as association list, symbol table | refinement to a function on canonical names by induction |
| C16 | schema-driven configuration trees, `to_tree`, `update` | induction on tree depth; negation for the solver schema |
| C17 | same `update` | equations for grouped keys; negation for ordering |
| C18 | heap of configuration objects with root pointers | reachability invariant by induction; sharing witness |
| C19 | registry as association list | induction over registrations |
| C20 | heap of parameter cells | induction over histories |
| C21 | all derivation branches over `Option`-valued fields | case split over branches; `field_simp`; negation for c from Ei |
| C22 | same, plus the error of `specific_enthalpy` | case split over presence |
| C23 | gradient formulas | `HasDerivAt` calculus |
| C24 | `get_conservative_fields` | algebra |
| C25 | 4x4 / 5x5 matrices | entrywise `field_simp; ring` |
| C26 | Jacobians, flux | `HasDerivAt` in every direction; matrix product |
| C27 | splitting | `max`/`min` algebra conjugated by an invertible matrix |
| C28 | five Riemann solvers | eigenvalue comparison in the characteristic basis |
| C29 | scalings, farfield state | algebra with square roots |
| C30 | Sutherland | real powers, monotonicity |
| C31 | strain, stress, heat flux | sums of squares |
| C32 | diffusive Jacobians | `HasDerivAt` |
| C33 | boundary residuals | algebra, equivalences |
| C34 | isentropic density | `Real.rpow` |
| C35 | characteristic variables | matrix-vector products |
| C36-C37 | `Conditions` as association lists, arbitrary set order | induction over histories; collision witness |
| C38 | class hierarchy and isinstance chain | decision over all classes, open-world for subclasses |
| C39-C40 | p-sponge orders, chain builder | induction |
| C41-C42 | buffer coordinate, sponge functions, mappings | real analysis; fixpoint by monotone convergence |
| C43 | `GridDeformation` state machine | negation plus partial invariant |
| C44 | O-mesh index arithmetic | arithmetic modulo n, counting |
| C45 | `bla` | case analysis |
| C46 | split/join on character lists | induction |
| C47-C49 | output field selection, relaxation, dimensional states | list lemmas |
| C50 | `fixpoint_iteration` | induction; contraction estimate |
| C51-C52 | csv table of sensors, logger handlers | induction over histories |
| C53 | compatibility checks | decision |
| C54 | drag, lift and pressure coefficients | algebra; negation for the sign |
| C55-C58 | mixed methods, diffusive numerical flux, viscous terms of characteristic conditions | decision; `HasDerivAt`; quadratic forms |
| C59 | keys of the time-level store | induction over the run |
| C60 | sensors' region selection | case analysis over all patterns |
| C61-C62 | whole transient and pseudo time runs over an arbitrary problem and linear solver | induction on the time loop; trace invariant |
| C63 | implicit Euler and BDF2 with dissipative terms | energy estimate, induction |
| C64 | block matrices of the condensed update | block elimination |
| C65 | dictionary of forms | fold invariant; key collisions |
| C66-C69 | HDG equations in quadrature | test with constants, sums over facets; telescoping over the run |
| C70 | initial conditions by region | grouping lemma for every set order |
| C71 | product spaces, blocks of the solution vector | list induction |
| C72-C73 | orders of elements and facets, projections of sponge functions | arithmetic modulo p+1; Pythagoras |
| C74 | options as items of a mapping, with Python's attribute lookup | frame lemma and induction over sessions |
| C75 | radii and sizes handed to the CAD kernel | index lemmas, strict monotonicity of powers |
| C76 | turned meshes, states and test functions (`Spec/Rotation.lean`) | normal form of orthogonal matrices, covariance of the eigenvector matrices, invariance of the integrals |
| C77 | states and test functions in other units (`Spec/Units.lean`) | scaling of the eigenvector matrices by diagonal matrices, rescaled test functions (`ComponentSpace`: one space per component, facet functions per region) |
| C78 | disk as a mapping from files to contents, histories of saves and reconfigurations (`Model/Files.lean`); documents and what they hold (`Spec/Files.lean`) | induction over histories with a step lemma per command; injectivity of the names of the gridfunction files by splitting at the first underscore |
| C79 | contact wave, speeds of mixing, gas at rest (`Spec/Contact.lean`); the model of C28 and C69 | the contact wave is a column of the eigenvector matrix; constant flux and the divergence theorem as in C69 |
| C80 | divergence, exact solutions of Euler and Navier-Stokes, quadrature defect (`Spec/Exact.lean`); the model of C68/C69 | consistency of the numerical fluxes (C28, C56) turns the forms into the integrals of the exact flux; the rest is the definition of the defect; truncation errors from C05; textbook flows as instances |
| C81 | scripts: set the timer, load, solve (`Model/Session.lean`), on top of the models of C08, C10, C59 and C61 | the state after a step is determined by two successive solutions; splitting by concatenating the time grids; restarting because the levels in the files are those of the run. Trusted: one variable is differentiated in time, its newest level shares its memory with the solution (`put (comp x) x = x`), files are not read while a run writes them |
| C82 | a transient solver with its objects: parameter objects, gridfunctions by `initialize`, forms, what the nonlinear solver and the scheme hold (`Model/Lifecycle.lean`); a solver without objects as specification (`Spec/Lifecycle.lean`) | simulation between the two for disciplined histories; other histories by invariants. Trusted: which options are read when (`O` by `initialize`, `A` by the assembly, the rest while solving) is read off the code; NGSolve parameters are read whenever a form is evaluated; validation of parameters (C03, C21) and streams are left out |
| C83 | the fluxes and residuals of `Model/Characteristic.lean` and `Model/Boundary.lean` in dimension `n`, what a user configures and whether each term can be written down (`Model/Dimensions.lean`); signal speeds as eigenvalues of the derivative of the flux, states with one more dimension (`Spec/Dimensions.lean`) | derivative of the flux along lines and its eigenvectors in the variables (ρ, u, p); the walls, containers and uniform flows of C66 and C69 for every `n`; extrusion by Fubini over layers. Trusted: building symbolic expressions is modelled at one point; viscous terms of characteristic conditions are not part of `Setup.build`; the quadrature assumptions are those of C69 |
| C84 | triangulations with neighbours and periodic sides, rules on the reference triangle and segment, piecewise polynomial spaces, what the integrals see of them (`Model/Triangulation.lean`); triangles, integrals over triangles and their sides (`Spec/Triangle.lean`) | the divergence theorem on triangles from Fubini and the fundamental theorem of calculus on the reference triangle (`Lemmas/Triangle.lean`), rules are exact for the traces and gradients of polynomials (`Lemmas/PolyTriangle.lean`), facet terms cancel by an involution on the sides; then C66, C69, C76, C77, C79, C80 apply. The mixed equations on polynomials: positive definite on the polynomial spaces because a polynomial that vanishes on a triangle is zero, so existence from uniqueness in finite dimension. Existence of exact rules by Lagrange interpolation. Trusted: NGSolve's rules are exact up to the order of the integrand, its facet spaces are polynomials per side |
| C85 | the label of the initial state in the life cycle model (`Model/Lifecycle.lean`), pseudo time stepping (`Model/Transient.lean`) | C82 reduces a run after `initialize` to the plain-value solver, which reads nothing but the settings; the time is overwritten before it is read. Failures: the time is an invariant of everything but runs and explicit assignments; the step left behind by pseudo time stepping in closed form (C07); concrete runs |
| C86 | Newton's method inside the transient and pseudo time stepping routines (`Model/Nonlinear.lean`, `Model/Transient.lean`) applied to the HDG forms (`Model/Hdg.lean`) | tested with a constant, the residual on a closed domain is the difference quotient of the total, an affine function of the unknowns; one linear solve, damped or not, keeps it zero (or below the tolerance), by induction over iterations and steps |
| C87 | the two schemes (`Model/Transient.lean`), specification of convergence in `Spec/Convergence.lean` | the exact solution satisfies the equations of a step up to a defect, bounded by Taylor's formula; energy estimates (as in C63) bound the error by the sum of the defects. Residuals of steps that are solved approximately (`Spec/Inexact.lean`) enter these estimates like defects. Failure: closed form of BDF2 on `u' = 1` |
| C88 | `load_as_dataframe` (`Model/Frame.lean`) on top of the sensor tables of C11 and the schedules of C08 | the table is the transpose of its columns; header and rows are those of C11, records those of C08. Failure: lengths of the rows in stationary mode |
| C89 | the HDG step of C66 tested with functions that are one on an element or facet (`Spec/Positivity.lean`), fluxes and residuals of the code | sum the mass balances over the elements and facets where the density is not positive: every flux grows with the density of its element and falls with that of its facet, so the sum would be negative. Induction over steps; container with C66. Failure: one periodic cell with a sponge layer and BDF2 |
| C90 | `nlLoop` with the update of `NewtonsMethod`; `RegularSolution` (solution, Lipschitz derivative, bounded inverse) and `SolvesSystems` (`Spec/Newton.lean`); implicit steps as in C61 | mean value inequality and the a priori bound for the inverse derivative near the solution: one step contracts; induction over the iterations; the reported error is quadratic in the distance, so it falls below any criterion. Short steps: the equations multiplied with the step are a perturbation of a regular equation; existence by the inverse function theorem for almost linear maps. Other dampings: induction for x = 0 |
| C91 | the characteristic functions of `Model/Characteristic.lean` with missing fields as `none` in any dimension; `Answers` states the three outcomes | case distinction over the given fields and the dimension |
| C92 | `sensor.__set__` and `SensorStream.open` over histories of assignments, `VTKStream.fields`, `open` and `writer.Do` (`Model/Collect.lean`), with the schedule of C08 | induction over the history (last assignment wins); induction over the marked elements |
| C93 | the HDG step of C66 on a mesh and on the mesh joined with its mirror image (`Spec/Mirror.lean`), residual of `add_inviscid_wall_formulation` | a test function on the doubled domain is split into its two halves, the mirrored one carried back as in C76; on the plane the residual is shown to vanish (tested with itself), so flux and mirrored flux cancel. Triangulations: the residual is a polynomial on each side. Failure: explicit states with Upwind (mass flux) and with viscosity (shear stress) |
| C94 | the HDG step of C66 in any dimension with the point functions of C83 (fluxes, numerical fluxes, walls, isothermal walls, outflow, sponge layers); finite element spaces as linear spaces of values at quadrature points (`Spec/ShortSteps.lean`), for triangulations those of C84 | at the uniform state the data are strictly differentiable although `|u·n|` is not; the equations of the facets are coercive there, so the implicit function theorem eliminates the facet values; one step is a fixed point of a contraction, runs follow with a discrete Gronwall estimate. Positive quadrature rules of every degree exist by Carathéodory's theorem |
| C95 | the equations of C94 for coefficient vectors in bases of the two spaces (`Spec/NewtonFlow.lean`: `blf.Apply`, the matrix of `AssembleLinearization`), Newton's method and the transient routine of C61 | the matrix is continuous at the uniform flow although the fluxes are not differentiable near it (the kink is multiplied with the jump, which vanishes there); Newton steps contract in a norm adapted to the step, uniformly in short steps (`Lemmas/SemiNewton.lean`, `Lemmas/SemiStep.lean`); runs follow with a discrete Gronwall estimate in which the errors of the solves enter |
| C96 | the equations of C94 with the rate of change in place of the difference quotient (`Spec/TimeLimit.lean`) | the reduction of C94 to an ordinary differential equation `a' = Ψ a` with a Lipschitz right-hand side near the equilibrium; existence up to any time after Ψ is made bounded by a radial retraction (Picard–Lindelöf), uniqueness by Gronwall; consistency errors of the steps by the mean value inequality, stability in the norm `‖e_k‖ + ½‖e_k − e_{k−1}‖` (`Lemmas/TimeLimit.lean`) |
| C97 | the stabilisation matrices of all Riemann solvers as functions of the facet value (`Lemmas/Stabilised.lean`), when a solver acts on all waves (`Spec/Stabilised.lean`) | the reduction of C94 for an arbitrary numerical flux (`FluxFits`); the matrices of the two sides of a facet are diagonal in the same basis and their sum is invertible, so testing the linearised facet equations with the sum applied to the facet function gives a sum of squares; the matrices are Lipschitz near the uniform state (`Lemmas/LocLip.lean`); for the failure a jump in density at constant velocity and pressure is an eigenvector with eigenvalue zero; for Newton's method the slopes of the code tend to the strict derivative of the data at the uniform flow, and the numerical fluxes have at most one kink at each state (`Lemmas/Bend.lean`), so that a matrix of one-sided derivatives exists |
| C98 | arguments with their shapes, casts and tests (`Model/Casts.lean`); the shape of the entries of NGSolve's `CF(tuple)` and the name of its zero function are assumptions | case analysis over the kinds of arguments, induction over lists for `outer` |
| C99 | the run of C94 without a bound on the step; closed conditions and what the energy estimate needs of the spaces (`Spec/Returns.lean`) | an energy in which the linearised fluxes are symmetric, the same for all directions (`Lemmas/Energy.lean`); partial integration and the equations on the facets give its rate, to which interior facets (`Lemmas/EnergyAnyDim.lean`, `Lemmas/EnergyPlanar.lean`) and walls contribute with one sign; both schemes are stable for dissipative equations (BDF2 by its G-norm), and near a zero of the right-hand side the nonlinear remainder is absorbed (`Lemmas/Dissipative.lean`) |
| C100 | pseudo time stepping (`pseudoRun`) applied to the equations of the flow solver for coefficient vectors; what it means to find a flow (`Spec/PseudoFlow.lean`) | the energy of C99 makes the linearised iterations contract a norm of element and facet unknowns, with one factor for all steps above a bound (`Props/PseudoFlow.lean`); the nonlinear remainder is absorbed near the uniform flow (`Lemmas/PseudoContract.lean`), and the iterations stop once the reported error is below the tolerance, by induction over the loop |
| C101 | the writes of the solution routine stage by stage, the files left at any point of it with any content of the file being written, and the processes that resume it (`Model/Interrupted.lean`) | writes after a step concern files with other labels, so what was saved survives; induction over the interruptions; files by comparing the writes |
| C102 | operations of the routines (`Model/Output.lean`) restricted to the computation and one stream; scripts (`Model/Session.lean`) with other settings of the gridfunction stream | a relation between runs that is kept by sequencing; induction over scripts |
| C103 | scripts with delayed data and interval | the rounds agree; rounding commutes with even shifts |
| C104 | `Model/Recorded`: the file of a sensor during a script, opened in mode `'w'` or `'a'` by every run; spec `tables`: the rows of consecutive runs | induction on the intervals with C81 and C08; lists. False in mode `'w'`, for other rates and for resumed runs: witnesses |
| C105 | `Model/Hdg`, `Model/Characteristic`, `Model/Triangulation`; spec `StandingShock` (conditions of Rankine and Hugoniot), `ShockFlow` (uniform gas in every triangle, shocks along sides) | the stabilisation vanishes for supersonic inflow (eigenvalues); divergence theorem triangle by triangle and cancellation across sides; the quadratic equation behind the jump conditions. Lax-Friedrichs, Roe: the transmission condition forces the mean, which contradicts the balance of mass or momentum |
| C106 | `Model/Examples` (initial fields of the vortex example), `Model/Physics`; spec `SolvesEuler` | derivatives of density, velocity and pressure along the axes and in time; equations of continuity, momentum and pressure imply the conservation form; `q e^(1-q) ≤ 1` for the speed; monotonicity of powers for the pressure; the line integral has a constant integrand |
| C107 | `Model/Examples` (sensor and formula of the cylinder example), `Model/Physics`; spec `SolvesIncompressible`, `cylinderVelocity`, `bernoulli`, `SameStream` | derivatives of the doublet; the conservation form implies the equations for density, velocity and pressure, so entropy and total enthalpy have derivative zero along streamlines; isentropic relations; slope of the power at one for the limit |
| C108 | `Model/Scenes` (draw, redraw, pictures of a trace), `Model/Output` (traces of the routines); spec `lastDrawn`, `pictureRound` | induction over the trace with the scenes and the number of updates as state; interrupted traces are prefixes; a run left at a yield is evaluated |
| C109 | `Model/Lifecycle` (fields are handles of the gridfunctions of an `initialize`) | invariants of histories: the handle in use does not change without `initialize`; afterwards no part of the solver refers to the old gridfunctions |
| C110 | as C89, all equations of the step | the states of a gas are a convex cone (Cauchy-Schwarz). The balance of an element writes a multiple of the new state as a sum of the old one, the target of the sponge layer and, for every facet, the speed times the facet state less its flux, which is in the closed cone because the speed is at least normal velocity plus speed of sound. Induction over steps |
| C111 | `Model/Floats.lean`: `Timer.start` with every operation followed by a rounding `fl`; `double` | standard model of rounding errors (`Spec.Rounds`): bounds for products, sums and the quotient; a number within half a unit of a decimal number rounds to it; refinement of `Timer.run` (C01, C02). `double` is shown to satisfy the model. Violated for steps like 1.1 |
| C112 | `Model/Boundary.lean`: `farfieldResidual`, `outflowResidual`, `inviscidWallResidual` | disturbances as derivatives of families of gases (`Spec/Sound.lean`); the condition in characteristic variables of the trace (from C33), its derivative at the uniform flow, where the frozen matrices do not contribute; existence by the inverse function theorem |
| C113 | `Model/Relax.lean`: `cbcCondition` (`cbcResidual` with the relaxation matrix of `GRCBC`/`NSCBC` and the step and levels of the scheme) | as C112, for runs: each incoming wave obeys the recursion of the time scheme for `a' = rate (target - a)`; decay of the recursions (geometric; energy of BDF2); existence by the implicit function theorem and recursion over the steps |
| C114 | `Model/Forces.lean`: `integrateOver`, `forceSensor` (boundary sensor of the two force coefficients), with `forceCoefficient`, the wall conditions and the step of C66 | the constant test functions give the balance (C66); the flux at a slip wall (C67) and at an isothermal wall (C28, C56) compared with the stress of the element (C54); sums over the boundary points |
| C115 | runs of `hdgProblem` (C61, C62) with `OuterCond`, moved by a `Motion` (`Spec/Symmetric.lean`), and `forceSensor`; with viscosity `hdgMixedProblem` and the mixed variables (`Spec/SymmetricViscous.lean`) | fluxes and conditions commute with the motion (C76), sums are reindexed; so the moved increment solves the linearised equations too and is the increment; induction over iterations and steps; the lift of mirrored points cancels |
| C116 | `Model/Pulse` (initial fields of the pulse example), `Model/Flow`; spec `IdealGas` | the farfield state in closed form (C29); density and pressure are raised by the same factor; monotonicity of the exponential for the order by distance; `f < f^γ` for `f > 1` for the entropy; the moved density spot solves the equations in primitive form (as C106) |
| C117 | `Model/Whole` (setters with `int`), `Model/Nonlinear`, `Model/Time`; spec `IsCut` (beside the theorems) | truncation has the three defining properties of the cut number, which is unique; induction over the history from its end; `range` of a number below one is empty |
| C118 | `Model/Nonlinear` (`nlLoop`, `setIterationError`, `newtonUpdate`, `Newton.solve`) on an affine function of vectors | residual after one update is `(1-d)` times the one before, by linearity; induction over the iterations; limit of the powers of `(1-d)²` |
| C119 | `Model/SettingsText` (`setDocumentation`, `header`, `acknowledgements`, `reprEntries`, `settingsText`); spec `Spec/TextLines` | lines of a joined text are the lines of its parts; the header of the configuration has no colon, so its last occurrence is the real one; induction over the history |

<!-- generated below -->

## Result per property

| id | property | status | theorems | remark |
|----|----------|--------|----------|--------|
| C01 | Timer visits the whole interval, in order, in equal steps | proved | `C01_timer_visits_interval`, `C01_timer_hits_end`, `C01_timer_zero_step`, `C01_history` | Rational arithmetic here, floating point in C111; the step count uses round-half-even as Python does. A zero step raises ZeroDivisionError. |
| C02 | Reported time labels identify the time step | partial | `C02_labels_exact_partial`, `C02_labels_distinct_partial`, `C02_exact_labels_nodup_partial`, `C02_digit_counts_decimals`, `C02_fails_labels_collide`, `C02_configured_partial` | The property holds only if the start time is also a multiple of 10^-digit; C02_fails_labels_collide is a concrete collision otherwise. |
| C03 | Validated options can never hold an invalid value | partial | `C03_mach`, `C03_positive`, `C03_interval`, `C03_rate`, `C03_rate_refused`, `C03_not_a_number`, `C03_rejected`, `C03_history_partial`, `C03_init`, `C03_fails_nan`, `C03_fails_rounding` | All histories of values other than nan whose finite numbers are floats; nan passes every check (C03_fails_nan) and exact numbers are checked before they are rounded (C03_fails_rounding). |
| C04 | Time levels always hold the most recent solutions | proved | `C04_levels_hold_recent_solutions`, `C04_bdf2` | Any number of time levels and variables, any number of steps. |
| C05 | Time discretisations are consistent and their three forms agree | proved | `C05_ie_forms_agree`, `C05_bdf2_forms_agree`, `C05_ie_exact_affine`, `C05_bdf2_exact_quadratic`, `C05_sharp`, `C05_consistent`, `C05_bdf2_first_step` | Both schemes; also shows that the first BDF2 step after constant start-up is an implicit Euler step of 2/3 dt. |
| C06 | The nonlinear iteration is bounded, never applies a NaN increment and reports convergence truthfully | proved | `C06_solve_outcome`, `C06_flags`, `C06_newton_affine_geometric`, `C06_newton_affine_converges` | For an arbitrary linear-solve oracle, including NaN errors. |
| C07 | Pseudo time stepping grows the step monotonically and never beyond the maximum | proved | `C07_pseudo_step_closed_form`, `C07_pseudo_step_monotone_bounded`, `C07_fractional_factor` | Closed form and monotonicity over any number of iterations. |
| C08 | Every output schedule records the final state exactly once and no step twice | proved | `C08_vtk`, `C08_sensor`, `C08_gridfunction`, `C08_schedule`, `C08_pseudo`, `C08_interrupted` | For an undisturbed run; under any interruption the records written are a prefix of the schedule (C08_interrupted). |
| C09 | Streams are closed whichever way the solution routine ends | partial | `C09_transient_partial`, `C09_pseudo_partial`, `C09_stationary_partial`, `C09_fails_open`, `C09_fails_close` | Proved for every interruption point once all streams are opened and when closing itself does not raise; C09_fails_open and C09_fails_close show that an exception while opening or closing leaves streams open. |
| C10 | A transient run can be replayed from its saved gridfunctions | partial | `C10_rate_one_partial`, `C10_fails_stride`, `C10_replay_iff`, `C10_every_rate`, `C10_subsample` | C10_every_rate says for every rate what replaying does: all states with rate 1, the last state with a rate equal to the number of steps, nothing from twice that on; with all other rates it fails (C10_fails_stride). C10_replay_iff also covers replaying with another rate. |
| C11 | Sensor tables are rectangular and labelled correctly | partial | `C11_kinds`, `C11_header_partial`, `C11_data`, `C11_rectangular_partial`, `C11_no_fields`, `C11_inconsistent_refused`, `C11_fails_nine`, `C11_fails_stationary` | Header and data agree, cell by cell, for scalars, vectors, square matrices and all longer shapes; 9x1 and 1x9 matrices are labelled as 3x3 (C11_fails_nine), stationary rows are one cell short (C11_fails_stationary), and a sensor without locations raises. |
| C12 | Activating any subset of output streams lets the solution routine run | partial | `C12_transient_partial`, `C12_fails_single`, `C12_fails_stationary_vtk`, `C12_fails_stationary`, `C12_pseudo_partial` | Proved for at least one step without mesh or settings streams; those raise TypeError, zero steps raise UnboundLocalError and the stationary routine raises AttributeError. |
| C13 | Changing a folder moves everything below it | partial | `C13_relative_partial`, `C13_absolute`, `C13_fails_never_ends`, `C13_ends_iff`, `C13_effect`, `C13_fails_reachable`, `C13_fails_same_place` | The claim holds if no other folder coincides with the old or new location; otherwise the assignment never ends (C13_fails_never_ends, reachable by three assignments) or leaves a folder behind (C13_fails_same_place). C13_ends_iff says exactly when it ends, C13_effect what it does then, for all folders. |
| C14 | Switching streams on and off keeps exactly the requested set open | proved | `C14_switchboard`, `C14_opened` | All histories of assignments to stream switches. |
| C15 | Field dictionaries behave as one map under names and symbols | proved | `C15_last_assigned`, `C15_other_entries`, `C15_iteration`, `C15_fails_symbol_lookup` | Reading by attribute or canonical name, for all histories; subscripting by symbol raises KeyError and setdefault overwrites (C15_fails_symbol_lookup). |
| C16 | Exported settings restore the configuration | partial | `C16_restore_partial`, `C16_export_stable`, `C16_fails_log`, `C16_fails_stream` | All histories of updates in class hierarchies without streams and with idempotent setters, any depth. With streams it is false: the log stream exports a name its setter rejects (C16_fails_log) and a stream that is off in the target stays off (C16_fails_stream). |
| C17 | Dotted update keys address nested options | proved | `C17_sequential`, `C17_order`, `C17_frame`, `C17_effect`, `C17_unknown`, `C17_below_value`, `C17_nested_dict`, `C17_fails_order` | All dictionaries of dotted keys in which a selection precedes the options of what is selected; the opposite order always raises TypeError (C17_fails_order), and a key below a plain value raises AttributeError (C17_below_value). |
| C18 | All sub-configurations refer to the solver they are attached to | partial | `Ptr.C18_history_partial`, `Ptr.C18_sensors`, `Ptr.C18_fails_sensor`, `Ptr.C18_fails_shared` | All histories that attach only instances which are not part of another configuration; a shared instance refers to the last solver (C18_fails_shared), a sensor refers to itself until its stream is opened (C18_fails_sensor, C18_sensors). |
| C19 | Option names select exactly one implementation | partial | `C19_upper`, `C19_derived`, `C19_define`, `C19_stable`, `C19_listed`, `C19_select`, `C19_new_objects`, `C19_history_partial`, `C19_fails_derived`, `C19_fails_inherited_alias`, `C19_lower_case`, `C19_fails_unnamed`, `C19_package` | Registration proved for all sequences of class statements; selection follows the last known name if no selectable class derives from another. Naming a base class keeps a derived implementation (C19_fails_derived); a derived class without its own aliases is refused but leaves its name registered (C19_fails_inherited_alias); classes without a name of their own all get the name of the common base class, so only the first is accepted (C19_fails_unnamed). |
| C20 | Parameters keep their identity | proved | `C20_identity`, `C20_assign`, `C20_history`, `C20_copied`, `C20_reset`, `C20_fails_unchecked` | All histories; setting the object itself skips the validation (C20_fails_unchecked). |
| C21 | Derived thermodynamic quantities do not depend on which fields are supplied | partial | `C21_density`, `C21_pressure`, `C21_temperature`, `C21_velocity`, `C21_momentum`, `C21_kinetic_energy`, `C21_specific_kinetic_energy`, `C21_specific_energy`, `C21_enthalpy`, `C21_inner_energy`, `C21_specific_inner_energy`, `C21_energy`, `C21_specific_enthalpy`, `C21_speed_of_sound_partial`, `C21_fails_speed_of_sound`, `C21_local_mach_number_partial` | Every getter agrees with the ideal gas laws for every subset of given fields, except speed_of_sound computed from the specific inner energy, which is off by a factor (C21_fails_speed_of_sound: the code returns sqrt((gamma-1)/gamma Ei), i.e. c/gamma). |
| C22 | Quantities are either computed or refused | partial | `C22_density`, `C22_pressure`, `C22_temperature`, `C22_inner_energy`, `C22_specific_inner_energy`, `C22_speed_of_sound`, `C22_velocity`, `C22_momentum`, `C22_kinetic_energy`, `C22_specific_kinetic_energy`, `C22_specific_energy`, `C22_enthalpy`, `C22_energy`, `C22_specific_enthalpy_partial`, `C22_fails_specific_enthalpy` | All getters either compute or raise ValueError, except specific_enthalpy (C22_fails_specific_enthalpy). |
| C23 | Gradient formulas are the derivatives of the field formulas | proved | `C23_density_gradient`, `C23_pressure_gradient`, `C23_temperature_gradient`, `C23_velocity_gradient`, `C23_momentum_gradient`, `C23_energy_gradient`, `C23_specific_energy_gradient`, `C23_inner_energy_gradient`, `C23_specific_inner_energy_gradient`, `C23_enthalpy_gradient`, `C23_kinetic_energy_gradient`, `C23_specific_kinetic_energy_gradient` |  |
| C24 | Conservative fields round trip | proved | `C24_fields`, `C24_admissible`, `C24_round_trip`, `C24_initial_round_trip`, `C24_gradient_fields` |  |
| C25 | Transformation matrices are mutually inverse | proved | `C25_primitive_conservative`, `C25_characteristic_primitive`, `C25_characteristic_conservative`, `C25_other_dimensions` | Two space dimensions, the only implemented case; C25_other_dimensions shows that all other dimensions are refused. |
| C26 | Flux Jacobians are the derivatives of the flux and are diagonalised by the characteristic transformation | proved | `C26_conservative_diagonalised`, `C26_primitive_diagonalised`, `C26_primitive_to_conservative`, `C26_flux`, `C26_flux_conservative`, `C26_jacobian_is_derivative` | Jacobians in two dimensions (the implemented case), flux in any dimension. |
| C27 | Incoming and outgoing parts add up | proved | `C27_conservative`, `C27_primitive`, `C27_identities`, `C27_identity_refuses` |  |
| C28 | Riemann solvers give consistent, conservative and dissipative numerical fluxes | proved | `C28_dissipative`, `C28_upwind_roe`, `C28_lax_friedrich_hll`, `C28_hllem_le_hll`, `C28_consistent`, `C28_flux`, `C28_flip_invariant`, `C28_upwind_flip`, `C28_lax_friedrich_conservative` | Two dimensions; Lax-Friedrichs and HLL in any dimension. |
| C29 | The farfield state has the requested Mach number in every scaling | proved | `C29_farfield`, `C29_direction_only`, `C29_documented`, `C29_fails_aeroacoustic_docstring`, `C29_refuses`, `C29_inviscid`, `C29_reynolds` | All scalings, configurations, dimensions and directions. The docstring formula of the aeroacoustic scaling disagrees with the code (C29_fails_aeroacoustic_docstring); the documented reference-speed convention holds. |
| C30 | Sutherland viscosity is normalised, positive and increasing | proved | `C30_sutherland`, `C30_scaling_independent`, `C30_normalised`, `C30_positive_increasing`, `C30_other_laws` |  |
| C31 | Viscous stress is symmetric and dissipative, heat flows from hot to cold | proved | `C31_strain`, `C31_stress`, `C31_dissipation`, `C31_stress_of_strain`, `C31_heat`, `C31_flux`, `C31_flux_of_strain` | Any dimension; dissipation for dimension at most three. |
| C32 | Diffusive Jacobians are the derivatives of the diffusive flux | partial | `C32_flux`, `C32_mixed`, `C32_conservative_partial`, `C32_fails_sutherland` | Holds for the mixed variables always and for the conservative variables with constant viscosity; fails for the Sutherland law, whose dependence on the state is neglected (C32_fails_sutherland). |
| C33 | Boundary conditions are satisfied by the states they describe | partial | `C33_inviscid_wall`, `C33_isothermal_wall`, `C33_outflow`, `C33_fails_adiabatic`, `C33_sponge`, `C33_farfield_jacobian`, `C33_farfield_identity_partial`, `C33_fails_farfield_identity`, `C33_cbc_target`, `C33_fails_temperature_inflow`, `C33_cbc_partial` | Walls, outflow, Jacobian farfield and sponge: exact characterisation. The identity-based farfield condition (the default) and the characteristic conditions need non-zero characteristic velocities: C33_fails_farfield_identity shows they are violated by every uniform flow parallel to the boundary. The adiabatic wall can never be built (C33_fails_adiabatic) and temperature_inflow ignores the prescribed temperature. |
| C34 | Isentropic density lies on the isentrope of the reference state | proved | `C34_agrees`, `C34_answers`, `C34_entropy` |  |
| C35 | Characteristic variables are the projection of the normal derivative | proved | `C35_variables`, `C35_normal_derivative`, `C35_amplitudes`, `C35_amplitudes_flux` |  |
| C36 | Assigning conditions to regions accumulates without interference | partial | `C36_init`, `C36_history_partial`, `C36_fails_duplicate`, `C36_by_name`, `C36_clear`, `C36_histories`, `C36_queries`, `C36_partition`, `C36_named` | C36_histories gives the exact result for every history of assignments (by object, by name, refused) and clears. As stated the property holds for histories whose patterns name no region twice; a pattern that repeats a region appends the condition twice (C36_fails_duplicate). |
| C37 | Grouping conditions by pattern loses nothing | partial | `C37_grouping_partial`, `C37_collisions`, `C37_fails_same_regions` | Proved in every set order if distinct conditions have distinct region sets; two conditions on the same regions collide and one is lost in every order (C37_fails_same_regions). |
| C38 | Every admissible condition is turned into its own formulation | partial | `C38_boundary`, `C38_domain_partial`, `C38_all_added`, `C38_fails_psponge`, `C38_fails_offered`, `C38_fails_initial_and_sponge` | Boundary conditions, initial conditions and sponge layers proved; p-sponge layers get the plain sponge formulation, four offered domain conditions raise TypeError, and a sponge layer sharing its regions with an initial condition may be dropped. |
| C39 | Polynomial orders of p-sponge layers stay ordered | proved | `C39_invariant`, `C39_accepts`, `C39_order_matters` | All histories of rational inputs; C39_order_matters shows that a valid pair can be refused when low_order is set first. |
| C40 | Order ranges form a gapless descending chain | proved | `C40_pairs`, `C40_one_target`, `C40_layers` | C40_pairs for the chain, C40_one_target and C40_layers for the formulation, pointwise and with the interpolation as an input. Through the solver the formulation is never reached, see C38. |
| C41 | Sponge functions ramp monotonically from zero to the weight | proved | `C41_radial`, `C41_short_centre`, `C41_coordinate`, `C41_monotone_coordinate`, `C41_sponge`, `C41_penta_smooth`, `C41_constant` |  |
| C42 | Grid mappings stretch by the requested factor and only inside the layer | proved | `C42_exponential_converges`, `C42_tangential_converges`, `C42_linear`, `C42_exponential`, `C42_tangential`, `C42_polar`, `C42_fails_polar_length`, `C42_thickness` | Real arithmetic. Linear, exponential and tangential mappings; the thickness is exact in the limit of the iteration and within the stated error when it stops at the tolerance. Cartesian components of polar mappings are proved away from the axes; their reported length is 0 (C42_fails_polar_length). |
| C43 | The grid deformation in use is the one last configured | partial | `C43_current_partial`, `C43_read_back`, `C43_fails_none`, `C43_fails_dim`, `C43_fails_apply`, `C43_init` | Proved for assignments of mappings with fixed dimension; assigning None or changing dim leaves a stale deformation, and applying the deformation of a solver always raises AttributeError. |
| C44 | The O-mesh generator produces a conforming annulus | proved | `C44_size`, `C44_conforming`, `C44_boundary`, `C44_refused`, `C44_circles`, `C44_halves`, `C44_orientation`, `C44_fails_inverted` | All integers n_polar, n_radial: either an exception or a conforming mesh. The argument checks do not prevent geometrically inverted elements (C44_fails_inverted). |
| C45 | Basic scalar and matrix helpers mean what they say | proved | `C45_abs_max_min`, `C45_interval`, `C45_diagonal`, `C45_diagonal_matrix`, `C45_trace`, `C45_as_matrix`, `C45_symmetric`, `C45_skew`, `C45_unit_vector` |  |
| C46 | Region patterns round trip | proved | `C46_round_trip`, `C46_pattern_of_parts`, `C46_regions`, `C46_fails_empty` |  |
| C47 | Requested output fields are delivered | partial | `C47_delivered_partial`, `C47_reported`, `C47_fails_off_by_name` | Fields requested are delivered or reported; switching off a default field by its symbol or name with False is ignored (C47_fails_off_by_name). |
| C48 | Relaxation factors go to the characteristic they name | partial | `C48_scalar`, `C48_list`, `C48_nscbc`, `C48_named_partial`, `C48_fails_named`, `C48_fails_list2d`, `C48_refuses` | Scalars and lists of five are proved; names in a dictionary are ignored (C48_fails_named) and lists of four in 2D lose their last factor (C48_fails_list2d). |
| C49 | Dimensional states scale by their reference values | partial | `C49_scaling`, `C49_defaults`, `C49_consistent_iff`, `C49_fails_default_consistent`, `C49_farfield_partial` | The scaling law is proved for every field; consistency of the dimensional state holds only if the reference values are consistent, which the defaults are not, and the farfield temperature is not the reference temperature in general. |
| C50 | Fixpoint iteration returns an iterate and stops early only at tolerance | proved | `C50_iterate`, `C50_contraction` |  |
| C51 | Each sensor writes to its own file | partial | `C51_own_files_partial`, `C51_own_rows_partial`, `C51_fails_same_name` | Sensors with distinct names; two sensors of different kind with the same name share one file and leave one open (C51_fails_same_name). |
| C52 | Log output handlers are never duplicated | partial | `C52_one_handler`, `C52_single_configuration_partial`, `C52_fails_two_configurations`, `C52_fails_unopenable`, `C52_fails_file_left_open` | One configuration, all histories whose log file can be opened; two configurations share the logger and double the output, an unopenable file leaves the option set without handler, and switching off leaves the file open. |
| C53 | Incompatible physics and discretisation choices are rejected | proved | `C53_initialize`, `C53_histories`, `C53_strain_heat_size` | All histories of boundary conditions, including repeated regions, refused assignments and clears (C53_histories). |
| C54 | Force coefficients are forces on the body | partial | `C54_pressure_coefficient`, `C54_pressure_coefficient_answers`, `C54_force_partial`, `C54_fails_sign` | Pressure coefficient proved; drag and lift have the opposite sign (C54_fails_sign). |
| C55 | Every viscous discretisation can evaluate the viscous flux | partial | `C55_check`, `C55_strain_heat_partial`, `C55_fails_gradient` | Acceptance check and strain-heat method proved; the gradient method can never evaluate the viscous flux (C55_fails_gradient). |
| C56 | The diffusive numerical flux is consistent and dissipative | proved | `C56_consistent`, `C56_dissipative`, `C56_damping` | Consistency in two dimensions (strain-heat is implemented there only), dissipation in any dimension. |
| C57 | The mixed form is solved by the strain rate and the temperature gradient | proved | `C57_strain`, `C57_heat`, `C57_strain_element`, `C57_heat_element`, `C57_element`, `C57_unique` | C57_strain and C57_heat are pointwise; C57_element integrates over an arbitrary triangle and its sides (Lebesgue integral, divergence theorem proved in Lemmas/Triangle.lean), C57_unique shows uniqueness. Exact integration. |
| C58 | Viscous terms of characteristic conditions keep what they should | partial | `C58_fails_outflow`, `C58_fails_inflow`, `C58_uniform_partial`, `C58_terms_partial` | Uniform flow proved; C58_fails_outflow and C58_fails_inflow show that the wrong component is used (flat index 2 of a 2x2 matrix). |
| C59 | Time-level checkpoints can be reloaded at the recorded steps | proved | `C59_time_levels`, `C59_final_levels_lost` | Exact characterisation; with the default rate the levels of the final step are not available (C59_final_levels_lost). |
| C60 | Region sensors measure exactly the existing regions named | partial | `C60_pattern`, `C60_sequence`, `C60_all`, `C60_reopen`, `C60_fails_missing`, `C60_covered_partial`, `C60_fails_boundary_default` | All cases but boundary sensors without regions, which integrate over the volume (C60_fails_boundary_default); a misspelt single region is handled differently as string and as sequence (C60_fails_missing). |
| C61 | A transient run yields the textbook recursion | proved | `C61_steady_kept`, `C61_steady_necessary`, `C61_textbook_recursion`, `C61_timer_error`, `C61_all_labels_yielded`, `C61_linear_exact` | Any spatial form, mass form and linear solver; the residual is that of the assembled form at the current time levels. |
| C62 | Pseudo time stepping converges to steady states only | partial | `C62_steady_residual_partial`, `C62_converged_is_steady_partial`, `C62_steady_state_kept`, `C62_fails_bdf2` | Implicit Euler proved for every history; with BDF2 convergence can be reported at a state that is not steady (C62_fails_bdf2). |
| C63 | The time schemes are unconditionally stable | proved | `C63_ie_contractive`, `C63_bdf2_stable`, `C63_runs_stable` | Real arithmetic; any finite element space and quadrature with non-negative weights. |
| C64 | Static condensation does not change the solver | partial | `C64_increment`, `C64_same_increment_partial`, `C64_error`, `C64_fails_error` | The increments agree; the reported errors do not (C64_fails_error). |
| C65 | Every term of the equations is assembled exactly once | partial | `C65_terms_partial`, `C65_terms`, `C65_condition_once_partial`, `C65_stationary_cbc`, `C65_fails_names` | Proved for all configurations with the built-in condition classes and at most one condition per set of regions; user-defined condition names can collide (C65_fails_names). |
| C66 | Mass, momentum and energy are conserved discretely | proved | `C66_balance`, `C66_run`, `C66_closed`, `C66_container` | The container theorem takes the wall condition to hold pointwise at the quadrature points; Upwind is excluded (C67_fails_upwind). |
| C67 | Walls are impermeable | partial | `C67_wall_partial`, `C67_fails_upwind` | All Riemann solvers but Upwind, for which the claim is false (C67_fails_upwind). |
| C68 | Boundary conditions act exactly where they were assigned | proved | `C68_mask` |  |
| C69 | Uniform flow is preserved | proved | `C69_uniform`, `C69_run`, `C69_missing`, `C69_gradients`, `C69_viscous`, `C69_transient`, `C69_pseudo`, `C69_transient_viscous` | Two dimensions; viscous fluxes with the strain-heat method; quadrature and spaces enter through the discrete divergence theorem. |
| C70 | Initial states are set region by region | partial | `C70_states_partial`, `C70_unset`, `C70_fails_overlap`, `C70_facet` | All assignments in which a region has at most one initial condition; with several the result depends on memory addresses (C70_fails_overlap). |
| C71 | Every variable gets its own component | proved | `C71_trial_test`, `C71_values`, `C71_empty`, `C71_flow` | Spaces that are themselves products of spaces are not used by the code and excluded. |
| C72 | P-sponge layers lower the polynomial order where they were assigned and only there | partial | `C72_elements`, `C72_space_refused`, `C72_refused`, `C72_facets_partial`, `C72_fails_lowest_first` | Elements proved for at most one layer per region; facets proved if the unknowns are numbered facet by facet. With all constants first, as in NGSolve, wrong unknowns are removed (C72_fails_lowest_first). |
| C73 | The sponge function shown is the sponge function used | proved | `C73_best`, `C73_layers`, `C73_space` | In quadrature; the finite element space enters as a linear space of functions. |
| C74 | A configuration is a mapping of its options | partial | `Mapping.C74_others`, `Mapping.C74_read`, `Mapping.C74_deleted`, `Mapping.C74_reassign`, `Mapping.C74_order`, `Mapping.C74_clear`, `Mapping.C74_keys`, `Mapping.C74_pop_partial`, `Mapping.C74_undeclared`, `Mapping.C74_fails_get` | All histories for declared plain and parameter options; get, pop and setdefault raise AttributeError for undeclared names (C74_fails_get), a deleted parameter cannot be assigned again (C74_reassign), misspelt options are accepted silently (C74_undeclared). Sub-configurations are C16-C19. |
| C75 | Layers around a cylinder | partial | `C75_accepted`, `C75_nested`, `C75_sizes_partial`, `C75_fails_sizes`, `C75_boundary_layer`, `C75_outer`, `C75_wake`, `C75_fails_unchecked` | Radii, nesting and boundary layer proved; the mesh sizes of the transition rings are reversed (C75_fails_sizes; right only for growth 1, C75_sizes_partial), and the order of transition region and farfield is not checked (C75_fails_unchecked). The CAD kernel and the mesh generator are not modelled. |
| C76 | The choice of coordinate axes does not matter | partial | `C76_convective`, `C76_numerical`, `C76_farfield`, `C76_wall`, `C76_isothermal`, `C76_outflow`, `C76_cbc_partial`, `C76_sponge`, `C76_diffusive`, `C76_mixed`, `C76_step`, `C76_euler`, `C76_navier_stokes`, `C76_freestream`, `C76_forces`, `C76_fails_cbc_viscous` | All orthogonal matrices of the plane (convective flux and free stream in any dimension); meshes and spaces enter through quadrature points, normals and test functions. The viscous terms of the characteristic conditions do depend on the axes (C76_fails_cbc_viscous). |
| C77 | The choice of the scaling does not matter | partial | `C77_convective`, `C77_numerical`, `C77_farfield`, `C77_wall`, `C77_isothermal`, `C77_outflow`, `C77_cbc`, `C77_relaxation`, `C77_sponge`, `C77_units`, `C77_freestream`, `C77_viscosity`, `C77_diffusive`, `C77_cbc_viscous`, `C77_mixed`, `C77_step`, `C77_euler`, `C77_navier_stokes`, `C77_coefficients`, `C77_mach`, `C77_dimensionful_partial`, `C77_fails_dimensionful` | All pairs of scalings; plane flows, strain-heat method. Strength of sponge layers, wall temperatures and outflow pressures given by the user are converted by the user. The dimensional state of the free stream depends on the scaling unless the reference values are changed with it (C77_fails_dimensionful). |
| C78 | What was saved is what is loaded | partial | `C78_mesh_partial`, `C78_settings_partial`, `C78_gridfunction`, `C78_documents`, `C78_separate_folders`, `C78_defaults`, `C78_fails_same_name`, `C78_fails`, `C78_names`, `C78_states`, `C78_replay`, `C78_levels`, `C78_fails_underscore`, `C78_fails_prefix` | Proved for gridfunctions, text and YAML documents without provisos, for mesh and settings as long as their folders or names differ (C78_fails_same_name otherwise). File names without separators; pickling and unpickling is trusted. |
| C79 | Contact discontinuities | proved | `C79_contact`, `C79_transport`, `C79_lax_friedrich`, `C79_stationary`, `C79_fails_smear`, `C79_rest`, `C79_rest_run`, `C79_fails_rest`, `C79_fails_shear` | Two dimensions. The theorems named C79_fails_… show what the more diffusive solvers do, and that shear layers are not kept exactly by any solver. |
| C80 | Exact solutions satisfy the discrete equations | proved | `C80_euler`, `C80_steady`, `C80_polynomial`, `C80_limit`, `C80_mixed`, `C80_navier_stokes`, `C80_steady_viscous`, `C80_parallel_flow`, `C80_density_wave`, `C80_rotating_flow`, `C80_couette` | Two dimensions, the strain-heat method; states are what the integrals see at the quadrature points. Characteristic conditions only where the exact solution has no tangential variation and no viscous terms (as in C69). Exact solutions (parallel flow, rigid rotation, Couette flow, density wave) show that the hypotheses are met. |
| C81 | Runs can be split and restarted | partial | `C81_split`, `C81_first_file`, `C81_last_file`, `C81_other_files_partial`, `C81_restart`, `C81_fails_overwrite`, `C81_restart_levels`, `C81_state_only`, `C81_fails_state_only`, `C81_fails_step_change` | Splitting and restarting are proved for times in rational arithmetic whose labels are distinct. The theorems C81_fails_… show what does not hold: the file of time 0 is overwritten by a restart, loading only the unknowns has no effect on the next run, and BDF2 is inconsistent after a change of the step. The rest of the files (written first: C81_first_file) is left alone (C81_other_files_partial). |
| C82 | Changed settings take effect when they should | partial | `C82_refines_partial`, `C82_in_force_partial`, `C82_options_wait`, `C82_assembly_waits`, `C82_needs_initialize`, `C82_new_scheme_refused`, `C82_new_solver_refused`, `C82_new_method_refused`, `C82_fails_new_timer`, `C82_fails_reinitialize` | Histories in which every run comes after an initialize that follows the last new scheme or timer, and reassembles if needed, are proved to behave like the specification; so are waiting options and the refusals. C82_fails_new_timer and C82_fails_reinitialize show the two silent failures outside this discipline. Transient solver; streams and validation of parameters are left out. |
| C83 | Space dimensions other than two | proved | `C83_signal_speeds`, `C83_numerical_flux`, `C83_wall`, `C83_container`, `C83_uniform`, `C83_refused`, `C83_supported`, `C83_plane`, `C83_viscous_refused`, `C83_embedding`, `C83_extrusion` | Any dimension for the convective terms with Lax-Friedrichs or HLL, walls, outflows, isothermal walls and sponge layers. Setting up the equations is modelled at a point (in the code it is symbolic, so whether it raises does not depend on the point); the inviscid cases are decided exactly (C83_supported, C83_plane), viscous flow in three dimensions is always refused. Quadrature enters through the divergence theorem for the test functions, as in C69. |
| C84 | Meshes of triangles | proved | `C84_gauss`, `C84_gauss_mixed`, `C84_constants`, `C84_total`, `C84_uniform`, `C84_uniform_viscous`, `C84_container`, `C84_defect`, `C84_steady`, `C84_rest`, `C84_side_rules`, `C84_volume_rules`, `C84_missing`, `C84_rotating`, `C84_mixed_solvable`, `C84_mixed_exact`, `C84_moved_mesh`, `C84_moved_space`, `C84_moved`, `C84_components`, `C84_units` | Two dimensions, triangles with straight sides; curved elements and quadrilaterals are not covered. Rules exact for every degree exist (C84_volume_rules, C84_side_rules); that NGSolve chooses such rules is an assumption. The states are what the integrals see at the quadrature points. |
| C85 | Repeating a computation | partial | `C85_repeat_partial`, `C85_fails_rerun_label`, `C85_fails_start_label`, `C85_fails_pseudo_step`, `C85_fails_initial`, `C85_fails_pseudo` | The states and labels of a run of the transient solver after initialize are proved to depend on the settings only, if the initial state does not depend on the time (C85_repeat_partial). The theorems C85_fails_… show what does not hold: the label of the initial state is 0 or the end of the last run, initial states that depend on the time are evaluated there, and pseudo time stepping starts the next run with the step it ended with. |
| C86 | Conservation without convergence | proved | `C86_conserved`, `C86_drift`, `C86_viscous`, `C86_pseudo`, `C86_triangulation` | Closed domains only: with walls or other conditions the totals change while Newton iterates, see C66 for converged steps. That the linear systems are solved (up to a tolerance, in every equation) is a hypothesis on the linear solver, stated as a directional derivative (Spec/Drift.lean); the example on a ring of two cells with a nonlinear flux meets it. Rounding is not modelled. |
| C87 | Convergence in time | partial | `C87_implicit_euler`, `C87_bdf2_started_partial`, `C87_bdf2_order_one_partial`, `C87_runs_partial`, `C87_runs_converge_partial`, `C87_fails_bdf2_order_two`, `C87_inexact_euler`, `C87_inexact_bdf2`, `C87_inexact_converges` | Implicit Euler is proved to be of order one with an explicit constant, BDF2 of order two when its two levels are exact (C87_bdf2_started_partial) and of order one as the solver starts it (C87_bdf2_order_one_partial); C87_fails_bdf2_order_two shows that it is no better. Dissipative problems as in C63; complete runs for linear problems. Steps whose equations hold up to a residual add at most the residual times the elapsed time (C87_inexact_euler, C87_inexact_converges; four times that for BDF2, C87_inexact_bdf2); what residual the convergence criterion of the Newton iteration guarantees is not part of this. Convergence of the space discretisation is not treated (C80 for exact solutions). |
| C88 | Sensor tables read back | partial | `C88_read_back_partial`, `C88_appended_partial`, `C88_fails_stationary`, `C88_fails_shift` | Transient runs and appended runs are proved to be read back exactly, for fields whose components can be named (2x2, 3x3 or large matrices, see C11). C88_fails_stationary and C88_fails_shift show what happens in stationary computations. pandas.read_csv is modelled on lines split into cells (equal length of header lines, padding of short lines, error for long lines); printing and parsing of numbers is taken to be faithful. |
| C89 | Density stays positive at lowest order | proved | `C89_step`, `C89_run`, `C89_container`, `C89_triangulation`, `C89_fails_bdf2` | For solutions of the discrete equations, whose existence is not claimed; the facet densities must not be zero (the velocities there are quotients). Pressure and temperature: see C110. Fluxes and conditions are those of the code (LowestOrder); C89_triangulation removes the assumptions on the mesh for triangles, with integration rules of positive weights. C89_fails_bdf2: with BDF2 a sponge layer makes the density negative in the second step. |
| C90 | Local convergence of Newton's method | proved | `C90_linear`, `C90_quadratic`, `C90_reported`, `C90_other_dampings`, `C90_small_steps`, `C90_overrelaxed` | The derivative and the solution of the linear systems are NGSolve's (SolvesSystems): systems with a unique solution are solved exactly, in exact arithmetic. The reported error is bounded by increment and residual with some constant c (1 for direct solvers without static condensation, direct_solves; with static condensation another one). C90_small_steps assumes that the equations of the unknowns without time derivative determine them to first order. C90_overrelaxed covers the factors from 1 to 2. C90_other_dampings is the negative part. |
| C91 | Characteristic quantities are reported or refused | proved | `C91_transformations`, `C91_jacobians`, `C91_velocities`, `C91_variables`, `C91_amplitudes`, `C91_directional`, `C91_identities` | In one and three dimensions primitive_from_characteristic and characteristic_from_primitive return a NotImplementedError object instead of raising it; the model treats this as raised, since the object fails in the first multiplication. |
| C92 | Everything registered for output is written | proved | `C92_sensors`, `C92_vtk`, `C92_vtk_run` | VTKOutput itself (NGSolve) is trusted to evaluate the functions on the marked elements. Two sensors of different kinds with the same name are both measured but share a file (C51). |
| C93 | A symmetry plane stands for the mirror image | partial | `C93_step_partial`, `C93_fluxes`, `C93_run_partial`, `C93_restrict_partial`, `C93_fails_upwind`, `C93_traction`, `C93_fails_viscous`, `C93_fails_upwind_instance`, `C93_fails_viscous_instance`, `C93_triangulation_partial`, `C93_triangulation_restrict_partial` | Inviscid flow in two dimensions with every Riemann solver but Upwind is proved (C93_run_partial; on triangulations C93_triangulation_partial), the converse with Lax-Friedrichs and HLL (C93_restrict_partial), whose stabilisation can be solved for the facet values. C93_fails_upwind and C93_fails_viscous give the violations, with instances. The doubled domain is described by its quadrature points and test functions (Spec/Mirror.lean), the interface carrying one facet function seen from both sides. |
| C94 | Short steps of the flow solver can be computed | proved | `C94_runs`, `C94_step`, `C94_triangulation`, `C94_rules` | Existence, stability and uniqueness of short runs near uniform flow, in any dimension (C94_runs, C94_step), and on triangulations with piecewise polynomials of any orders (C94_triangulation), with quadrature rules of positive weights, which exist (C94_rules). The signal speeds are not differentiable; the proof needs derivatives at the uniform state only. Real arithmetic; that Newton's method finds the solution is C90. |
| C95 | Newton's method computes runs of the flow solver | proved | `C95_runs`, `C95_transient`, `C95_matrix`, `C95_triangulation` | For coefficient vectors in any bases of the spaces of C94 (C95_runs), for the transient routine with its timer (C95_transient) and on triangulations (C95_triangulation). The matrix is any that consists of (one-sided) derivatives; the one that differentiates the IfPos branches of the code is one of them (C95_matrix). Linear systems with exactly one solution are assumed to be solved exactly, with a reported error bounded by increment and residual (SolvesSteps). Real arithmetic; bounds on step and distance exist but are not computed. |
| C96 | Shorter time steps approximate the flow in continuous time | proved | `C96_converges`, `C96_triangulation` | For the states that solve the equations of the steps exactly (C94); what Newton's method adds is bounded in C95. First order for BDF2 too, since it starts from the initial state twice (C05). In continuous time only the discretisation in space is kept; convergence of that is not part of the claim. |
| C97 | Every Riemann solver determines the unknowns unless waves run along the facets | proved | `C97_newton_runs`, `C97_newton_transient`, `C97_matrix`, `C97_fails_newton`, `C97_newton_triangulation`, `C97_fails_newton_triangulation`, `C97_runs`, `C97_converges`, `C97_facets`, `C97_fails_facets`, `C97_triangulation`, `C97_fails_triangulation` | C97_runs, C97_converges and C97_facets under the condition Riemann.Damps on interior facets, C97_triangulation for triangulations; C97_newton_runs, C97_newton_transient, C97_matrix and C97_newton_triangulation for Newton's method; the counterparts C97_fails_facets, C97_fails_triangulation, C97_fails_newton and C97_fails_newton_triangulation. Boundary conditions as in C94. Real arithmetic. |
| C98 | Casts and tests of scalars, vectors and matrices | partial | `C98_tests`, `C98_casts`, `C98_idempotent`, `C98_fails_shapes`, `C98_shapes_partial`, `C98_zero`, `C98_outer` | C98_shapes_partial: coefficient functions pass through every cast unchanged and a one-entry sequence becomes a scalar (C98_fails_shapes). The name of NGSolve's zero function is an input of the model. |
| C99 | Closed flows are not amplified however long the steps, and damped flows return | proved | `C99_long_runs`, `C99_returns`, `C99_long_runs_solvers`, `C99_returns_solvers`, `C99_triangulation_long`, `C99_triangulation_returns` | C99_long_runs and C99_returns in any dimension, C99_long_runs_solvers and C99_returns_solvers in two dimensions, C99_triangulation_long and C99_triangulation_returns for triangulations. The deviation for which the claim about long runs holds depends on the final time, the factor does not. Outflows are excluded. The rate of return depends on the time step and on the scheme. Real arithmetic. |
| C100 | Pseudo time stepping finds the steady flow from all nearby states | proved | `C100_pseudo`, `C100_pseudo_solvers`, `C100_triangulation` | C100_pseudo in any dimension, C100_pseudo_solvers in two dimensions, C100_triangulation for triangulations, with existence of the matrix, the discrete flows and the linear solver. Implicit Euler only: with BDF2 pseudo stepping may report convergence at a state that is not steady (C62). The bound on the number of iterations depends on the lower bound of the steps and on the tolerance. Real arithmetic. |
| C101 | Interrupted runs can be resumed | proved | `C101_resume`, `C101_files`, `C101_completed`, `C101_too_early` | C101_resume for any number of interruptions and all rates, C101_files for streams that save all steps, C101_completed (nothing else is written), C101_too_early (the condition on the stage is necessary). The labels have to be distinct (C02). A crash is modelled at the granularity of files; a file that was completely written is assumed to survive. Only the gridfunction stream. |
| C102 | Output does not influence the computation | partial | `C102_transient_partial`, `C102_pseudo_partial`, `C102_fails_single`, `C102_states` | C102_transient_partial and C102_pseudo_partial for the operations, C102_states for the states. The mesh and the settings stream are excluded: with them nothing is computed (C102_fails_single). Streams that raise do influence the computation. |
| C103 | The origin of time does not matter | proved | `C103_states`, `C103_labels` | C103_states for all delays, C103_labels for the labels. Time steps, digits and times are exact rationals; in floating point (C111) the times of a delayed run may be rounded differently, the labels not. |
| C104 | Tables of sensors over several runs | partial | `C104_whole`, `C104_split`, `C104_complete_partial`, `C104_true`, `C104_rate_one`, `C104_fails_default`, `C104_fails_resumed`, `C104_fails_rate` | C104_split gives the table of any number of runs that are told to append (mode 'a' after the first run) exactly; C104_complete_partial and C104_true derive the claim from it if the rate divides the numbers of steps of all runs but the last, C104_whole describes one run, C104_rate_one counts the rows. Without these conditions the claim is false of the code: by default (mode 'w') each run empties the file (C104_fails_default), otherwise the rows due in the middle may be missing because each run counts its steps from zero (C104_fails_rate), and a run resumed in a new process records its first state with time 0 (C104_fails_resumed). |
| C105 | Standing shocks stay where they are | proved | `C105_inflow`, `C105_facet`, `C105_determined`, `C105_step`, `C105_run`, `C105_compressive`, `C105_exists`, `C105_fails_lax_friedrich`, `C105_fails_roe` | C105_facet and C105_inflow at one side, C105_determined for the facet value, C105_step and C105_run on triangulations with any number of shocks, C105_compressive and C105_exists for the shocks themselves. C105_fails_lax_friedrich and C105_fails_roe: with these fluxes no facet value works; for Roe facet values that are sonic or flow along the side are excluded, because there the flux does not determine the facet value. That the discrete equations have no other solution near a shock is not claimed. Two dimensions. |
| C106 | The vortex example starts from an exact solution | proved | `C106_carried`, `C106_strength`, `C106_pressure`, `C106_circulation` | C106_carried, C106_strength, C106_pressure, C106_circulation. The example is the only user of these formulas; its numbers meet the hypotheses. CF.Diff is the derivative of the coefficient function; NGSolve's evaluation of the derivative of the square root in the very centre (0/0) is not modelled. That the discrete equations at this solution contain only truncation and quadrature errors is C80; its boundary conditions have the farfield as target, which the vortex reaches only approximately. |
| C107 | The pressure coefficient at low Mach numbers | proved | `C107_potential`, `C107_surface`, `C107_far`, `C107_bernoulli`, `C107_low_mach`, `C107_streamline`, `C107_from_far` | C107_potential, C107_surface and C107_far for the reference flow, C107_streamline and C107_from_far for the entropy and the total enthalpy, C107_bernoulli for the recorded values and C107_low_mach for the limit. That the compressible flows around the cylinder exist and that their speeds converge to those of the incompressible flow is an assumption of C107_low_mach (classical low Mach number analysis is not in Mathlib). |
| C108 | Pictures follow the solution | proved | `C108_transient`, `C108_each_field`, `C108_pseudo`, `C108_nothing_drawn`, `C108_replay`, `C108_interrupted`, `C108_abandoned` | C108_transient, C108_each_field, C108_pseudo, C108_replay, C108_nothing_drawn, C108_interrupted, C108_abandoned. What Draw and Redraw of NGSolve put on the screen is not modelled, only which of them are called, with which fields, and in which state of the solver. A redraw that raises counts as complete. |
| C109 | Fields follow the solution | partial | `C109_follow_partial`, `C109_fails_stale`, `C109_after_run` | C109_follow_partial: true until the solver is initialised again (C109_after_run: what a run yields last is what cfg.gfu contains). initialize makes new gridfunctions, but fields made before refer to the old ones: they show the last state before the second initialize for ever (C109_fails_stale), so pictures, vtk files and sensors that were set up before it record a frozen solution. |
| C110 | Gas stays gas at lowest order | proved | `C110_step`, `C110_run`, `C110_fields`, `C110_triangulation`, `C110_fails_bdf2` | C110_step, C110_run, C110_fields, C110_triangulation. For solutions of the discrete equations, whose existence is not claimed. LowestOrder.Sound assumes that the square root of the speed of sound on the facets is taken of a number that is not negative; otherwise the code gets nan there. That the facet densities are positive is not assumed but shown. Without viscosity only. C110_fails_bdf2: with BDF2 a sponge layer leaves no gas after the second step. |
| C111 | The timer in floating point arithmetic | partial | `C111_digits_partial`, `C111_refines_partial`, `C111_labels_partial`, `C111_increasing_partial`, `C111_double`, `C111_fails_above_one` | C111_refines_partial, C111_labels_partial, C111_increasing_partial for every rounding with relative error u, C111_double for IEEE double precision (exponent range not limited). The interval must not end near the middle between two visited times, where the number of steps depends on the rounding. The number of decimals is that of the typed step for steps below 0.45 (C111_digits_partial) and for steps that are floats. C111_fails_above_one: the step 1.1 is taken to have sixteen decimals, labels are not rounded, and the third is 3.3000000000000003. |
| C112 | Sound leaves through the farfield | proved | `C112_trace`, `C112_leaves`, `C112_outflow`, `C112_supersonic`, `C112_oblique`, `C112_pressure_outlet`, `C112_exists`, `C112_wall` | C112_trace, C112_leaves, C112_outflow, C112_supersonic, C112_oblique for families of traces that depend differentiably on the amplitude, C112_exists (inverse function theorem): such families exist; C112_pressure_outlet and C112_wall for the reflecting conditions. Two dimensions, pointwise on the boundary: that the interior responds to the trace as the linearised equations do is not claimed. Velocities 0 and +-c through the boundary are excluded, see C33 for them. |
| C113 | Waves at characteristic boundaries | proved | `C113_step`, `C113_leaves`, `C113_relaxes`, `C113_rate`, `C113_grcbc`, `C113_exists`, `C113_outlet` | C113_step, C113_leaves, C113_relaxes, C113_rate, C113_grcbc, C113_outlet for families of traces that depend differentiably on the amplitude (CbcRun), C113_exists (implicit function theorem): such families exist for all steps. The target temperature_inflow (see C33_fails_temperature_inflow), tangential relaxation of waves that change along the boundary and viscous terms are not included. Pointwise on the boundary, as C112. |
| C114 | Reported forces and the momentum of the gas | partial | `C114_wall`, `C114_exact_iff`, `C114_viscous`, `C114_balance`, `C114_written`, `C114_sensor_partial`, `C114_steady_partial`, `C114_fails_through`, `C114_exists` | C114_balance and C114_written in general. C114_sensor_partial, C114_steady_partial: the table is exact, up to the sign (C54_fails_sign), for isothermal walls whose condition the gas in the elements meets (C114_viscous) and for inviscid walls through which no gas moves in the elements, and only there (C114_exact_iff): the wall condition binds the trace only, the sensor evaluates the element. C114_wall gives the difference exactly, C114_fails_through its consequence for the sensor. Upwind lets mass through walls (C67_fails_upwind) and is excluded. Two dimensions, strain-heat method; the sensor is taken to integrate with the quadrature of the equations. |
| C115 | Symmetric problems have symmetric runs | proved | `C115_symmetric`, `C115_pseudo`, `C115_no_lift`, `C115_viscous`, `C115_viscous_pseudo`, `C115_viscous_no_lift` | C115_symmetric, C115_pseudo, C115_no_lift without viscosity; C115_viscous, C115_viscous_pseudo, C115_viscous_no_lift with the strain-heat method, for both laws of viscosity. Assumed of the linear solver: increments that are used (no NaN) were computed at gases and are the only solution of the linearised equations, by any rule of differentiation that looks at the residual near the state only (HasDerivAt and one-sided derivatives are such rules). Two dimensions, without characteristic conditions (their viscous terms depend on the axes, C76_fails_cbc_viscous); arithmetic is exact. |
| C116 | The pulse example starts from a round pulse in the stream | proved | `C116_state`, `C116_round`, `C116_share`, `C116_spot` | C116_state, C116_round, C116_share, C116_spot. The numbers of the example meet the hypotheses. C116_share gives the exact share of the disturbance that is not sound in the initial state, C116_spot that this part alone is an exact solution carried by the stream; how it interacts with the sound of a strong pulse is not treated. A symmetric mesh with this state is a case of C115. |
| C117 | Options for whole numbers | proved | `C117_accepted`, `C117_history`, `C117_unchecked`, `C117_frozen` | C117_accepted, C117_history, C117_unchecked, C117_frozen. Strings, which int() would parse, are not modelled. What a negative order does in NGSolve is not modelled. |
| C118 | Damping changes the speed of Newton's method by a known factor | proved | `C118_damped`, `C118_factors`, `C118_undamped` | C118_damped, C118_factors, C118_undamped. Exact arithmetic; the inverse is exact; the factor applies to the same vector the error is computed from. NaN as an option value is not in the reals and is covered by C03 and C117. |
| C119 | The text of the settings file | proved | `C119_documentation`, `C119_text`, `C119_read`, `C119_breaks` | C119_documentation, C119_text, C119_read, C119_breaks. C119_breaks shows that the proviso about line breaks in printed values is needed. Blanks at the ends of the lines of the acknowledgements are left out. How Python prints values is not modelled. |

## Modelled functions

Functions of `/repo/dream` cited by a definition of the model, by file, with the model modules in brackets.

* `dream/_version.py`: [SettingsText] header, acknowledgements
* `dream/bla.py`: [Bla] abs, max, min, interval, trace, diagonal, unit_vector, symmetric_matrix_from_vector, skewsymmetric_matrix_from_vector; [Casts] outer, as_scalar, is_scalar, as_vector, is_vector, is_matrix, is_zero; [Bla, Casts] as_matrix, is_symmetric; [Layers] fixpoint_iteration
* `dream/compressible/config.py`: [Compat, Condensation] CompressibleFiniteElement.set_boundary_conditions; [Conditions] FarField.fields, FarField.identity_jacobian, Outflow.fields, CBC.fields, CBC.tangential_relaxation, CBC.is_viscous_fluxes, IsothermalWall.fields; [Boundary, Conditions] CBC.target, CBC.get_relaxation_matrix, GRCBC.get_relaxation_matrix, NSCBC.get_relaxation_matrix; [Boundary, Conditions, Relax] CBC.relaxation_factor; [Conditions, Relax] NSCBC.length
* `dream/compressible/eos.py`: [Flow] IdealGas.density, IdealGas.pressure, IdealGas.temperature, IdealGas.inner_energy, IdealGas.specific_inner_energy, IdealGas.density_gradient, IdealGas.pressure_gradient, IdealGas.temperature_gradient; [Flow, Relax] IdealGas.speed_of_sound; [Characteristic] IdealGas.characteristic_velocities, IdealGas.characteristic_variables, IdealGas.characteristic_amplitudes, IdealGas.conservative_from_primitive, IdealGas.primitive_from_conservative, IdealGas.primitive_from_characteristic, IdealGas.characteristic_from_primitive, IdealGas.primitive_convective_jacobian_x, IdealGas.primitive_convective_jacobian_y, IdealGas.conservative_from_characteristic, IdealGas.characteristic_from_conservative, IdealGas.conservative_convective_jacobian_x, IdealGas.conservative_convective_jacobian_y; [Physics] IdealGas.isentropic_density
* `dream/compressible/formulations/conservative.py`: [Forms] MixedMethod.add_mixed_form, ConservativeFiniteElementMethod.add_symbolic_spatial_forms, ConservativeFiniteElementMethod.add_symbolic_temporal_forms; [Physics] MixedMethod.get_diffusive_stabilisation_matrix; [Boundary, Registry, Spaces] Inactive.add_mixed_finite_element_spaces, Gradient.add_mixed_finite_element_spaces; [Boundary, Registry, Spaces, Triangulation] StrainHeat.add_mixed_finite_element_spaces; [Boundary, Forms, Hdg, Mixed, Registry] StrainHeat.add_mixed_form; [Boundary, Mixed, Registry] StrainHeat.get_cbc_viscous_terms; [Boundary, Dimensions, Mixed, Physics, Registry] StrainHeat.get_mixed_fields; [Boundary, Physics, Registry] StrainHeat.get_conservative_diffusive_jacobian_x, StrainHeat.get_conservative_diffusive_jacobian_y, StrainHeat.get_conservative_diffusive_jacobian, StrainHeat.get_mixed_diffusive_jacobian_x, StrainHeat.get_mixed_diffusive_jacobian_y, StrainHeat.get_mixed_diffusive_jacobian, Gradient.get_mixed_fields; [Boundary, Forms, Registry] Gradient.add_mixed_form; [Registry] ConservativeMethod.TnT, ConservativeMethod.gfu, ConservativeMethod.get_temporal_integrators, HDG.get_temporal_integrators; [Forms, Registry] ConservativeMethod.add_symbolic_temporal_forms; [Dimensions, Flow, Registry] ConservativeMethod.get_conservative_fields; [Flow, Registry] ConservativeMethod.get_conservative_gradient_fields; [Flow, Initial, Registry] ConservativeMethod.set_initial_conditions; [Hdg, Registry] HDG.mixed_method, HDG.get_domain_boundary_mask; [Hdg, Registry, Spaces, Triangulation] HDG.add_finite_element_spaces; [Dimensions, Hdg, Registry, Triangulation] HDG.add_convection_form; [Dimensions, Forms, Hdg, Registry] HDG.add_diffusion_form; [Conditions, Forms, Registry] HDG.add_boundary_conditions, HDG.add_domain_conditions; [Boundary, Dimensions, Forms, Hdg, Registry] HDG.add_farfield_formulation, HDG.add_outflow_formulation, HDG.add_inviscid_wall_formulation, HDG.add_isothermal_wall_formulation; [Boundary, Dimensions, Forms, Hdg, Registry, Relax] HDG.add_cbc_formulation; [Boundary, Dimensions, Forms, Registry] HDG.add_adiabatic_wall_formulation, HDG.add_sponge_layer_formulation; [Forms, PSponge, Registry] HDG.add_psponge_layer_formulation; [Characteristic, Registry] HDG.get_convective_numerical_flux; [Physics, Registry] HDG.get_diffusive_numerical_flux; [Initial, Registry] HDG.set_initial_conditions; [Spaces] ConservativeFiniteElementMethod.add_finite_element_spaces; [FieldDict, Lifecycle] ConservativeFiniteElementMethod.get_fields; [Initial] ConservativeFiniteElementMethod.set_initial_conditions
* `dream/compressible/riemann_solver.py`: [Characteristic, Registry] Upwind.get_convective_stabilisation_matrix, LaxFriedrich.get_convective_stabilisation_matrix, Roe.get_convective_stabilisation_matrix, HLL.get_convective_stabilisation_matrix; [Characteristic] HLLEM.get_convective_stabilisation_matrix
* `dream/compressible/scaling.py`: [Physics] Scaling.dimensionful_values, Scaling.density, Scaling.velocity, Aeroacoustic.reference_reynolds_number, Aeroacoustic.velocity_magnitude, Aeroacoustic.speed_of_sound; [Physics, Registry] Aerodynamic.reference_reynolds_number, Aerodynamic._check_Mach_number, Aerodynamic.velocity_magnitude, Aerodynamic.speed_of_sound, Acoustic.reference_reynolds_number, Acoustic.velocity_magnitude, Acoustic.speed_of_sound
* `dream/compressible/solver.py`: [Physics] CompressibleFlowSolver.__init__, CompressibleFlowSolver.fem, CompressibleFlowSolver.reynolds_number, CompressibleFlowSolver.prandtl_number, CompressibleFlowSolver.equation_of_state, CompressibleFlowSolver.dynamic_viscosity, CompressibleFlowSolver.scaling, CompressibleFlowSolver.riemann_solver, CompressibleFlowSolver.get_farfield_state, CompressibleFlowSolver.get_dimensionful_state, CompressibleFlowSolver.get_diffusive_flux, CompressibleFlowSolver.get_local_reynolds_number, CompressibleFlowSolver.strain_rate_tensor, CompressibleFlowSolver.deviatoric_stress_tensor, CompressibleFlowSolver.viscosity, CompressibleFlowSolver.heat_flux, CompressibleFlowSolver.pressure_coefficient, CompressibleFlowSolver.stress_tensor, CompressibleFlowSolver.drag_coefficient, CompressibleFlowSolver.lift_coefficient; [Options, Physics] CompressibleFlowSolver.mach_number, CompressibleFlowSolver.reynolds_number, CompressibleFlowSolver.prandtl_number; [Characteristic] CompressibleFlowSolver.get_convective_flux, CompressibleFlowSolver.get_primitive_convective_jacobian, CompressibleFlowSolver.get_primitive_convective_identity, CompressibleFlowSolver.get_conservative_convective_jacobian, CompressibleFlowSolver.get_conservative_convective_identity, CompressibleFlowSolver.get_characteristic_identity, CompressibleFlowSolver.transform_primitive_to_conservative, CompressibleFlowSolver.transform_characteristic_to_primitive, CompressibleFlowSolver.transform_characteristic_to_conservative; [Flow] CompressibleFlowSolver.get_local_mach_number, CompressibleFlowSolver.density, CompressibleFlowSolver.velocity, CompressibleFlowSolver.momentum, CompressibleFlowSolver.pressure, CompressibleFlowSolver.temperature, CompressibleFlowSolver.inner_energy, CompressibleFlowSolver.specific_inner_energy, CompressibleFlowSolver.kinetic_energy, CompressibleFlowSolver.specific_kinetic_energy, CompressibleFlowSolver.energy, CompressibleFlowSolver.specific_energy, CompressibleFlowSolver.enthalpy, CompressibleFlowSolver.specific_enthalpy, CompressibleFlowSolver.speed_of_sound, CompressibleFlowSolver.density_gradient, CompressibleFlowSolver.velocity_gradient, CompressibleFlowSolver.momentum_gradient, CompressibleFlowSolver.pressure_gradient, CompressibleFlowSolver.temperature_gradient, CompressibleFlowSolver.energy_gradient, CompressibleFlowSolver.specific_energy_gradient, CompressibleFlowSolver.inner_energy_gradient, CompressibleFlowSolver.specific_inner_energy_gradient, CompressibleFlowSolver.kinetic_energy_gradient, CompressibleFlowSolver.specific_kinetic_energy_gradient, CompressibleFlowSolver.enthalpy_gradient
* `dream/compressible/viscosity.py`: [Physics] DynamicViscosity.is_inviscid; [Registry] Inviscid.viscosity, Constant.viscosity
* `dream/config.py`: [Flow] equation, quantity.__set_name__, quantity.__init__, quantity.__delete__; [FieldDict, Flow] quantity.__get__, quantity.__set__; [FieldDict] ngsdict.__init_subclass__, ngsdict.__getitem__, ngsdict.__delitem__; [Boundary, FieldDict] ngsdict.__setitem__; [Lifecycle, Mapping] configuration.__get__; [Collect, Config, Layers, Mapping, Options, Whole] configuration.__set__; [Mapping] configuration.__delete__, configuration.reset, UniqueConfiguration.__setitem__, UniqueConfiguration.__getitem__, UniqueConfiguration.__delitem__, UniqueConfiguration.__iter__, UniqueConfiguration.__len__, UniqueConfiguration.__contains__; [Lifecycle, Mapping, Options, Parameter] parameter.__set__; [Mapping, Parameter] parameter.reset; [Lifecycle, RootPointers] unique.__set__, unique.update_subconfigurations_recursively; [Lifecycle] unique.reset; [Lifecycle, Registry, RootPointers] interface.__set__; [Registry] InterfaceTree.__init__, InterfaceTree.__getitem__, InterfaceTree.__contains__, InterfaceTree.__setitem__, InterfaceTree.__delitem__, InterfaceTree.__iter__, InterfaceTree.__len__, InterfaceConfiguration.__init_subclass__; [Collect] UniqueConfiguration.get_configurations; [Config, Mapping] UniqueConfiguration.update; [Config] UniqueConfiguration.to_tree; [Collect, Layers, Mapping, Parameter, RootPointers] UniqueConfiguration.clear; [Layers, Mapping] UniqueConfiguration.__init_subclass__; [Collect, Mapping, RootPointers] UniqueConfiguration.__init__; [SettingsText] UniqueConfiguration.__repr__
* `dream/io.py`: [Folders] path.__set__, IOFolders.root, IOFolders.states, IOFolders.vtk, IOFolders.settings, IOFolders.sensors; [Config, Log, RootPointers, Streams] stream.__set__; [Config, Log, Streams] stream.__get__; [Collect, RootPointers] sensor.__set__, SensorStream.open; [Files] Stream.filename, MeshStream.path, MeshStream.load_routine, SettingsStream.pickle, SettingsStream.txt, SettingsStream.yaml, SettingsStream.path, SettingsStream.save_to_pickle, SettingsStream.save_to_yaml, SettingsStream.load_from_pickle, GridfunctionStream.path, GridfunctionStream.load_gridfunction; [Files, Output] MeshStream.save_pre_time_routine, SettingsStream.save_pre_time_routine; [Files, SettingsText] SettingsStream.save_to_txt; [Options] VTKStream.rate, GridfunctionStream.rate, GridfunctionStream.time_level_rate, Sensor.rate; [Collect] VTKStream.fields, VTKStream.open, SensorStream.point, SensorStream.domain, SensorStream.domain_L2, SensorStream.boundary, SensorStream.boundary_L2; [Output] VTKStream.save_pre_time_routine, VTKStream.save_in_time_routine, VTKStream.save_post_time_routine, GridfunctionStream.save_pre_time_routine, IOConfiguration.open, IOConfiguration.save_pre_time_routine, IOConfiguration.save_in_time_routine, IOConfiguration.save_post_time_routine, IOConfiguration.close, IOConfiguration.__enter__, IOConfiguration.__exit__; [Files, Interrupted, Output, Session] GridfunctionStream.load_routine, GridfunctionStream.load_time_levels; [Files, Interrupted, Output, Scenes] GridfunctionStream.load_transient_routine; [Files, Output, Session] GridfunctionStream.save_in_time_routine; [Files, Interrupted, Output] GridfunctionStream.save_gridfunction; [Output, Session] GridfunctionStream.save_post_time_routine; [Log] LogStream.__init__, LogStream.level, LogStream.to_terminal, LogStream.to_file, LogStream.path, LogStream.__del__; [Recorded] SensorStream.mode; [Frame, Recorded, Sensors] SensorStream.open_csv_writers; [Frame, Sensors] SensorStream.get_header; [Frame, Output, Recorded, Sensors] SensorStream.save_pre_time_routine, SensorStream.save_in_time_routine, SensorStream.save_post_time_routine; [Frame] SensorStream.load_as_dataframe; [Sensors] SensorStream.measure, SensorStream.close, Sensor.fields, Sensor.open, Sensor.measure, Sensor.get_header, Sensor.get_components_name, RegionSensor.regions, RegionSensor.get_header, RegionSensor.set_regions, DomainSensor.open, DomainL2Sensor.open, DomainL2Sensor.measure, DomainL2Sensor.get_components_name, BoundaryL2Sensor.measure, BoundaryL2Sensor.get_components_name, PointSensor.points, PointSensor.open, PointSensor.measure, PointSensor.get_header; [Forces, Sensors] RegionSensor.measure, BoundarySensor.open, BoundaryL2Sensor.open; [Log, Output, Streams] IOConfiguration.log; [Output, Streams] IOConfiguration.ngsmesh, IOConfiguration.gfu, IOConfiguration.settings, IOConfiguration.vtk, IOConfiguration.sensor; [Scenes] IOConfiguration.draw, IOConfiguration.redraw
* `dream/mesh.py`: [Conditions] get_pattern_from_sequence, get_regions_from_pattern, Condition.__hash__, Condition.__eq__, Condition.__ne__, Condition.__repr__, Initial.fields, Force.fields, Buffer.get_space, SpongeLayer.target_state, Conditions.__init__, Conditions.get_region, Conditions.has_condition, Conditions.to_pattern, Conditions.clear, Conditions.__setitem__, BoundaryConditions.__init__, BoundaryConditions.get_periodic_boundaries, BoundaryConditions.get_domain_boundaries, DomainConditions.__init__; [Casts] BufferCoord.polar, BufferCoord.spherical; [Layers] BufferCoord.__init__, BufferCoord.get_normalised_coordinate, SpongeFunction.constant, SpongeFunction.polynomial, SpongeFunction.penta, GridMapping.none, GridMapping.linear, GridMapping.exponential, GridMapping.tangential, GridMapping.__init__, GridMapping.polar_to_cartesian, GridMapping.deformation, GridMapping.length, DomainConditions.get_grid_deformation_function; [Conditions, Initial] Initial.fields; [Conditions, Layers] Buffer.function, Buffer.order, GridDeformation.dim, GridDeformation.x, GridDeformation.y, GridDeformation.z, GridDeformation.set_function, GridDeformation.get_space, GridDeformation.check_mapping, PSpongeLayer.high_order, PSpongeLayer.low_order, PSpongeLayer.is_equal_order, PSpongeLayer.get_pairs_of_polynomial_orders; [Conditions, Spaces] SpongeLayer.get_space; [Spaces] DomainConditions.get_buffer_function_, DomainConditions.reduce_psponge_layers_order_elementwise, DomainConditions.reduce_psponge_layers_order_facetwise; [OMesh] get_cylinder_omesh; [Cylinder] get_cylinder_mesh
* `dream/solver.py`: [Whole] BonusIntegrationOrder.vol, BonusIntegrationOrder.bnd, BonusIntegrationOrder.bbnd, BonusIntegrationOrder.bbbnd, FiniteElementMethod.order; [Lifecycle] NonlinearMethod.initialize, NewtonsMethod.damping_factor, DirectNonlinearSolver.initialize; [Lifecycle, Nonlinear] NewtonsMethod.update_solution, NonlinearSolver.method; [Lifecycle, Nonlinear, Whole] NonlinearSolver.max_iterations; [Lifecycle, Nonlinear, Options] NonlinearSolver.convergence_criterion; [Nonlinear] NonlinearSolver.log_iteration_error, NonlinearSolver.reset_status; [Condensation, Nonlinear] NonlinearSolver.set_iteration_error; [Lifecycle, Nonlinear, Transient] NonlinearSolver.solve; [Condensation, Lifecycle, Nonlinear, Transient] DirectNonlinearSolver.solve_update_step; [Initial] FiniteElementMethod.set_initial_conditions; [Compat, Lifecycle, Session] SolverConfiguration.initialize; [Compat, Hdg, Lifecycle, Spaces] SolverConfiguration.initialize_finite_element_spaces; [Hdg, Lifecycle, Spaces] SolverConfiguration.initialize_trial_and_test_functions, SolverConfiguration.initialize_gridfunctions; [Forms, Hdg, Lifecycle] SolverConfiguration.initialize_symbolic_forms; [FieldDict, Hdg, Lifecycle] SolverConfiguration.get_fields; [Compat] SolverConfiguration.set_boundary_conditions; [Layers] SolverConfiguration.set_grid_deformation; [SettingsText] SolverConfiguration.set_solver_documentation; [Session] SolverConfiguration.solve
* `dream/time.py`: [Floats, Lifecycle, Options, Time] Timer.interval; [Floats, Lifecycle, Time] Timer.step, Timer._set_digit; [Lifecycle, Time] Timer.t, TimeSchemes.initialize, TimeSchemes.set_initial_conditions, TimeSchemes.update_gridfunctions; [Basic, Floats, Lifecycle, Time] Timer.start; [Time] Timer.to_array, Timer.__call__, PseudoTimeSteppingConfig.max_time_step, PseudoTimeSteppingConfig.solver_iteration_update; [Lifecycle, Session, Time] TimeSchemes.initialize_level_gridfunctions; [Forms, Lifecycle] ImplicitSchemes.assemble; [Forms, Hdg, Transient] ImplicitSchemes.add_symbolic_temporal_forms; [Lifecycle] ImplicitSchemes.solve_current_time_level; [Registry, Time, Transient] ImplicitEuler.get_time_derivative; [Registry, Relax, Time, Transient] ImplicitEuler.get_current_level, ImplicitEuler.get_time_step; [Relax, Time, Transient] BDF2.get_time_derivative, BDF2.get_current_level, BDF2.get_time_step; [Forms] TimeConfig.add_symbolic_temporal_forms, StationaryConfig.assemble, TransientConfig.add_symbolic_temporal_forms, PseudoTimeSteppingConfig.add_symbolic_temporal_forms; [Forms, Output] StationaryConfig.start_solution_routine; [Lifecycle, Transient] TransientConfig.initialize, TransientConfig.set_initial_conditions; [Interrupted, Lifecycle, Output, Scenes, Session, Time, Transient] TransientConfig.start_solution_routine; [Time, Whole] PseudoTimeSteppingConfig.increment_at, PseudoTimeSteppingConfig.increment_factor; [Output, Scenes, Time, Transient] PseudoTimeSteppingConfig.start_solution_routine

## Functions that are not modelled

* `dream/_version.py`: only returns its argument, a stored object or a delegated call: version (5)
* `dream/bla.py`: only returns its argument, a stored object or a delegated call: inner (75)
* `dream/compressible/config.py`: only returns its argument, a stored object or a delegated call: CompressibleFiniteElement.gfu (21)
* `dream/compressible/eos.py`: abstract or empty: EquationOfState.density (15), EquationOfState.pressure (18), EquationOfState.temperature (21), EquationOfState.inner_energy (24), EquationOfState.specific_inner_energy (27), EquationOfState.speed_of_sound (30), EquationOfState.density_gradient (33), EquationOfState.pressure_gradient (36), EquationOfState.temperature_gradient (39), EquationOfState.characteristic_velocities (42), EquationOfState.characteristic_variables (46), EquationOfState.characteristic_amplitudes (50), EquationOfState.primitive_from_conservative (54), EquationOfState.primitive_from_characteristic (57), EquationOfState.primitive_convective_jacobian_x (60), EquationOfState.primitive_convective_jacobian_y (63), EquationOfState.conservative_from_primitive (66), EquationOfState.conservative_from_characteristic (69), EquationOfState.conservative_convective_jacobian_x (72), EquationOfState.conservative_convective_jacobian_y (75), EquationOfState.characteristic_from_primitive (78), EquationOfState.characteristic_from_conservative (81), EquationOfState.isentropic_density (84); only returns its argument, a stored object or a delegated call: IdealGas.heat_capacity_ratio (94)
* `dream/compressible/formulations/conservative.py`: abstract or empty: MixedMethod.add_mixed_finite_element_spaces (43); only returns its argument, a stored object or a delegated call: MixedMethod.fem (32), MixedMethod.TnT (36), MixedMethod.gfu (40), MixedMethod.get_cbc_viscous_terms (51), ConservativeFiniteElementMethod.method (821), ConservativeFiniteElementMethod.mixed_method (825), ConservativeFiniteElementMethod.get_temporal_integrators (851)
* `dream/compressible/riemann_solver.py`: only returns its argument, a stored object or a delegated call: HLLEM.theta_0 (109); other: RiemannSolver.get_convective_stabilisation_matrix (17)
* `dream/compressible/scaling.py`: abstract or empty: Scaling.velocity_magnitude (32), Scaling.speed_of_sound (35)
* `dream/compressible/solver.py`: only returns its argument, a stored object or a delegated call: CompressibleFlowSolver.characteristic_velocities (646), CompressibleFlowSolver.characteristic_variables (650), CompressibleFlowSolver.characteristic_amplitudes (655), CompressibleFlowSolver.primitive_from_conservative (660), CompressibleFlowSolver.primitive_from_characteristic (664), CompressibleFlowSolver.primitive_convective_jacobian_x (668), CompressibleFlowSolver.primitive_convective_jacobian_y (672), CompressibleFlowSolver.conservative_from_primitive (676), CompressibleFlowSolver.conservative_from_characteristic (680), CompressibleFlowSolver.conservative_convective_jacobian_x (684), CompressibleFlowSolver.conservative_convective_jacobian_y (688), CompressibleFlowSolver.characteristic_from_primitive (692), CompressibleFlowSolver.characteristic_from_conservative (696), CompressibleFlowSolver.isentropic_density (700)
* `dream/compressible/viscosity.py`: abstract or empty: DynamicViscosity.viscosity (19); only returns its argument, a stored object or a delegated call: Sutherland.measurement_temperature (45), Sutherland.measurement_viscosity (49); other: Sutherland.viscosity (52)
* `dream/config.py`: abstract or empty: configuration.__get__ (152), configuration.__get__ (156); only returns its argument, a stored object or a delegated call: ngsdict.__iter__ (119), ngsdict.__len__ (122), ngsdict.__repr__ (125), configuration.getter_check (177), configuration.setter_check (180), configuration.__call__ (183); other: is_notebook (14), ngsdict.to_py (87), ngsdict.__init__ (100), configuration.__set_name__ (138), configuration.__init__ (141)
* `dream/io.py`: abstract or empty: Stream.save_pre_time_routine (160), Stream.save_in_time_routine (163), Stream.save_post_time_routine (166); only returns its argument, a stored object or a delegated call: IOFolders.get_directory_paths (124), IOFolders.get_directory_names (127), Stream.open (157), Stream.close (169), VTKStream.subdivision (292), VTKStream.region (296), SensorStream.to_csv (564), Sensor.sensor_name (668), RegionSensor.integration_order (732), IOConfiguration.folders (887); other: path.__init__ (29), VTKStream.path (306), VTKStream.close (345), SensorStream.path (568), Sensor.close (721)
* `dream/mesh.py`: only returns its argument, a stored object or a delegated call: is_mesh_periodic (15), BufferCoord.x (49), BufferCoord.y (53), BufferCoord.z (57), BufferCoord.x0 (77), BufferCoord.xn (81), BufferCoord.shift (85), BufferCoord.length (89), GridMapping.__call__ (243), Conditions.__repr__ (552), DomainConditions.get_psponge_layers (585), DomainConditions.get_sponge_layers (588), DomainConditions.get_grid_deformations (591); other: DomainConditions.get_sponge_layer_function (599), DomainConditions.get_psponge_layer_function (604)
* `dream/solver.py`: abstract or empty: Solver.inverse (82), Solver.initialize (85), Solver.solve (96), NonlinearMethod.update_solution (137), NonlinearSolver.solve_update_step (213), FiniteElementMethod.add_finite_element_spaces (276), FiniteElementMethod.add_symbolic_spatial_forms (279), FiniteElementMethod.add_symbolic_temporal_forms (284), FiniteElementMethod.get_temporal_integrators (289), FiniteElementMethod.get_fields (292), FiniteElementMethod.set_boundary_conditions (300), SolverConfiguration.fem (324); only returns its argument, a stored object or a delegated call: Compile.realcompile (43), Compile.wait (47), Compile.keep_files (51), Optimizations.compile (62), Optimizations.static_condensation (66), Optimizations.bonus_int_order (70), SolverConfiguration.time (328), SolverConfiguration.linear_solver (332), SolverConfiguration.nonlinear_solver (336), SolverConfiguration.optimizations (340), SolverConfiguration.io (344); other: Solver.log_iteration_error (88), DirectLinearSolver.inverse (110), DirectNonlinearSolver.inverse (223), SolverConfiguration.__init__ (311), SolverConfiguration.info (348)
* `dream/time.py`: abstract or empty: TimeSchemes.add_symbolic_temporal_forms (77), TimeSchemes.assemble (83), TimeSchemes.solve_current_time_level (107), ImplicitSchemes.get_time_derivative (155), ImplicitSchemes.get_current_level (158), ImplicitSchemes.get_time_step (161), TimeConfig.assemble (215), TimeConfig.initialize (223), TimeConfig.start_solution_routine (229); only returns its argument, a stored object or a delegated call: TimeSchemes.dt (74), TimeConfig.is_stationary (212), TransientConfig.scheme (282), TransientConfig.timer (286), PseudoTimeSteppingConfig.scheme (338), PseudoTimeSteppingConfig.timer (342); other: TimeConfig.set_initial_conditions (226), TransientConfig.assemble (289), PseudoTimeSteppingConfig.assemble (361), PseudoTimeSteppingConfig.initialize (364), PseudoTimeSteppingConfig.set_initial_conditions (405)
