# Formal model of FreeGS

Source: `/repo` (freegs-plasma/freegs, pinned commit), read as text and never run.
Prover: Lean 4.33.0 with Mathlib. Build: `cd lean && lake build`.

## Layout

* `lean/Verif/Model/*.lean` : definitions that mirror the Python functions, branch by branch.
  Every definition cites the file and lines it models and states its simplifications.
* `lean/Verif/Spec/*.lean` : small specifications that do not mention the model's helpers
  (reachability, convexity, exact integrals, discrete equation, ...).
* `lean/Verif/Lemmas/*.lean` : helper lemmas.
* `lean/Verif/Props/*.lean` : the property theorems, with a concrete case beside each theorem.
* `properties.jsonl`, `MANIFEST.json`, `seeded/LOG.jsonl` : properties, claims, mutation log.

## Trusted base

* Lean's kernel. Every theorem depends on at most `propext`, `Classical.choice`, `Quot.sound`
  (checked with `#print axioms`). No other axioms, no `sorry`, no `native_decide`/`bv_decide`.
* The reading of the Python code that the model encodes. The line citations let a reader compare.
* Number model. Python floats are modelled by exact numbers: an arbitrary linearly ordered field `K`
  where only field operations and comparisons occur, and the real numbers where square roots,
  logarithms, powers or integrals occur. Rounding, overflow and NaN are outside the model, except
  where a theorem is stated for an arbitrary comparison (then it covers NaN as well).
* Library routines are parameters with stated assumptions: `scipy.integrate.romb` (a linear functional
  where the theorem needs it), `quad` (the exact integral), `ellipk`/`ellipe` (arbitrary functions),
  `RectBivariateSpline` (arbitrary, or interpolating at the nodes where stated), sparse LU
  `factorized` (returns a solution of the system), SLSQP/leastsq/L-BFGS (arbitrary result, or a result inside the
  bounds where stated), `random` (an arbitrary stream within the documented range), h5py
  (stores and returns what it is given; iterates names in lexicographic order), shapely intersection area (arbitrary function).
* Exceptions are values (`Except`). Python's negative indices, truthiness of `0.0` and `%` are modelled as written.
* Plotting, printing, file syntax of the external `freeqdsk` package are not modelled.

Every theorem name in MANIFEST.json was looked up with `#print axioms` in Lean. This found eight names of C100 and C103 with a wrong namespace (and one of C137 before its check), which are corrected.

Numbers have no NumPy type in the model. In the bounded flux fits `np.asarray(controlCurrents())` of integer currents is an integer array, and a start value moved to a limit is cut to an integer there. This is not modelled.

## What is modelled

| file | modelled | not modelled |
| --- | --- | --- |
| `boundary.py` | the three boundary functions | none |
| `coil.py`, `shaped_coil.py`, `filament_coil.py`, `multi_coil.py`, `pre_calc_coil.py` | constructors, flux, field, control response, moves, areas, forces, records, `populate_with_fils` | `__repr__`, `plot`, reading of `.mat` tables |
| `control.py` | `constrain`, `ConstrainPsi2D`, `ConstrainPsi2DAdvanced`, `ConstrainPsiNorm2D`, `ConstrainPsiNorm2DAdvanced` | inner algorithms of SLSQP, leastsq, L-BFGS-B |
| `critical.py` | all of `find_critical` (search, Newton iteration, classification, duplicates, ordering, filtering), `core_mask`, `find_psisurface`, `find_separatrix`, `find_safety` | splines (any function is allowed in their place) |
| `dump.py` | `write_equilibrium`, `read_equilibrium` | HDF5 byte format, labels that are paths |
| `equilibrium.py` | construction, solver choice, `solve`, flux and field at a point, `_updateBoundaryPsi`, `_updatePlasmaPsi`, forces, shape parameters, integrals, toroidal flux, midplane radii, `refine`, `coarsen`, `newDomain`; which arrays `solve` changes in place and what an exception leaves (`Verif/Model/Store.lean`) | plotting and printing |
| `fieldtracer.py` | domain and wall tests, `fieldDirection`, starting points | `odeint` |
| `geqdsk.py`, `divgeo.py`, `_divgeo.py` | the dictionary written; the whole of `read` (sizes, profiles, first solve, fits, iteration, control system left in the equilibrium, `domain`) | text syntax (package `freeqdsk`), plots |
| `gradshafranov.py` | all | none |
| `jtor.py` | all | `quad` is a parameter |
| `machine.py` | `Circuit`, `Solenoid`, `MirroredCoil`, `Wall`, sensors, `Machine`, the coils of `EmptyTokamak`, `TestTokamak`, `DIIID`, `MAST`, `MAST_sym`, `MASTU_simple`, `MASTU`, `TCV`, circuits of circuits | walls and sensors of the predefined machines, printing, plotting |
| `multigrid.py` | all | none |
| `optimise.py`, `optimiser.py` | all but the plot monitor | |
| `picard.py` | `solve` | plotting |
| `polygons.py`, `quadrature.py` | all | none |

## Findings

Statements about the unchanged code that are proved in the model and contradict what a user would expect. The theorem is given in brackets.

* `optimise` keeps the highest initial score [C02_initial_choice_is_highest]; with one control it raises, and the last control is never forced [C04]; the last index is never picked, and with ten agents agent 8 only by agents 5, 6 and 7 [C61].
* Limits of zero on `CoilRadius` and `CoilHeight` are not enforced [C05_zero_limit_ignored].
* `intersect` on open lines also tests the segment from the last to the first point of the first line [C08].
* `triangulate` never returns on a simple pentagon and gives a negative triangle for an L-shaped hexagon [C11].
* `MirroredCoil` puts both coils at +Z and overwrites current and control [C53]. `MultiCoil` ignores the turns of a single point [C54].
* The force on a coil in a circuit contains its own field [C20_circuit_wrong]. `max_coil_force` fails with circuits and solenoids and ignores the plasma [C64].
* `RogowskiSensor` ignores turns and raises for solenoids [C51].
* `eq.psi()` is stale after a coil is moved [C62]; the outline of a moved `ShapedCoil` is stale and a moved `PreCalcCoil` has an unchanged field [C63].
* `ConstrainPsi2DAdvanced` raises with default arguments and does not remove the offset of the target [C25, C65].
* `find_psisurface` can leave the domain from a start on the edge [C29_leaves_domain]; `innerOuterSeparatrix` can be wrong if the flux at the axis radius is outside [C55_outside_axis], and if the first column is already inside, the index -1 takes the flux of the last column [C55_first_column_wraps].
* `fpol(1)` is `|fvac|` [C33_fpol_edge_wrong_sign]; the constrained profiles ignore a given boundary flux [C69].
* Fourth-order matrix: `nx = 5` raises, `ny = 5` gives wrong rows silently [C36].
* `picard.solve` can count a change of boundary flux from an earlier step as convergence; `maxits = 0` means no limit [C39].
* The limiter flux is interpolated from the transposed flux map; with a negative current the boundary farther from the axis is taken [C40]. The closing side of a wall has no limiter points and points are stale after `geqdsk.read` [C52].
* `restrict(avg=True)` divides constants by four [C42_avg_quarters]. V-cycles fail on grids that cannot be halved [C43].
* `coarsen` and `newDomain` lose boundary function and order, `newDomain` uses the R size in Z [C44].
* `isPow2(0)` is true [C45_isPow2_zero]. G-EQDSK profiles are written at `k/n` and read at `k/(n-1)` [C47_edge]; the boundary does not start at its lowest point [C56_start]; reading with a larger domain never improves the resolution [C75_resolution_worse].
* HDF5 files lose areas, places of moved shaped coils and fractional turns; some circuits are written but cannot be read; own boundary functions cannot be read back [C48, C81].
* `poloidalBeta3` is beta times inductance times the volume in m^3 [C77_poloidalBeta3, C78].
* `tor_flux` is zero at the first value of its argument [C79_first_zero]; `rhotor` fails for rising flux and for single values [C80].
* Field tracer: the length decreases for negative toroidal field [C50_length_shrinks]; the wall test is right for walls of any shape in general position [C82_any_wall], but wrong behind corners, for tiny walls and if the middle of the domain is outside the wall [C82].
* `separatrix` fails without an X-point even for limited plasmas [C84_no_xpoint]; an X-point just left of straight above the axis is not avoided [C84_xpoint_missed].
* The safety factor normalises with the X-point flux, not the boundary flux, and is refused without X-point [C85_ignores_boundary, C85_no_xpoint].
* `q` of an array with one value outside 0.01 to 0.99 takes all values from an extrapolation [C86_mixed]; a Python list raises [C86_list].
* `shafranovShift` and `betaN` ignore `npoints` [C87_npoints_ignored, C77_radii].
* The normalised flux fits use the axis and boundary flux of the previous trial when a trial has no O-point [C88_history]; after a fit the stored boundary flux may belong to another trial [C88_stale_boundary]; `ConstrainPsiNorm2DAdvanced` fails without limits [C65_norm_default_limits_fail].
* `FilamentCoil(shape=...)` raises `ValueError` for ordinary outlines [C89_fails].
* `find_critical` accepts any field below one millitesla as a null, so the result depends on the scale of the flux; a singular Jacobian raises `LinAlgError` [C90_weak_field, C90_scale_fails]. On symmetric grids with an even number of rows nulls on the midplane are missed [C91_even_rows_missed, C91_middle_rows_not_searched].
* X-points halfway between two rows (C93): `core_mask` gives both of a mirrored pair of X-points to the lower row, so the mask of a symmetric flux is not symmetric (`C93_tie_fails`).
* Two magnetic axes one above the other (C93): the mask covers the half around the first axis only, so a symmetric doublet gets an asymmetric current (`C93_two_axes`).
* TestTokamak is not exactly symmetric (C94): the outlines of P1L and P1U are mirror images, but the diagonal along which each is cut into triangles is not, so equal currents give slightly different fluxes above and below the midplane (`C94_test_tokamak_fails`).
* The centre coil of MASTU is not symmetric (C94): none of the 284 strands of Pc is the mirror image of a strand (`C94_mastu_fails`). Unlike in MASTU_simple, the currents of MASTU's coils are totals over all strands: each `FilamentCoil` has one turn.
* Comparing machines can raise (C95): `TypeError` if a label is used twice (`C95_repeated_fails`), `AttributeError` for a wall against none or a coil against a circuit (`C95_wall_fails`, `C95_kind_fails`), `ValueError` for walls with different numbers of points.
* Equal machines can have different fields (C95): filament coils are compared by the centre of their outline, multi-coils by the mean of their filaments, shaped coils by their outline, which does not move with them, pre-calculated coils without their tables (`C95_filament_fails`, `C95_multi_fails`, `C95_shaped_fails`, `C95_precalc_fails`); equal point coils can have different forces (`C95_area_fails`).
* `==` is neither symmetric nor transitive for walls, because the tolerance of `numpy.allclose` is relative to the second argument, nor for a filament coil and a shaped coil (`C95_equivalence_fails`).
* After a solve of a flux without X-point (free boundary, limiter not checked) `psiN`, `psiNRZ`, `Btor`, `Btot` raise `TypeError`, because `psi_bndry` is `None` (`C97_no_boundary_fails`). A limited plasma without X-point has no mask, and its toroidal field outside the plasma is `fpol/R` (`C97_limited_fails`).
* The core mask is interpolated with cubic splines: between grid points outside the plasma the toroidal field differs from the vacuum field, in the wrong direction (`C97_mask_overshoot_fails`).
* Changed coil currents change `psi()` but not `psi_axis`, `psi_bndry`: until the next solve `psiN()` is not 0 on the axis (`C97_stale_currents_fails`).
* Multiplying all currents multiplies the equilibrium (C99) except where absolute thresholds or signs enter: the search for critical points (absolute field threshold, C90), the limiter (maximum of the flux, C40), `fpol`, which is multiplied by the modulus (`C99_pressure`).
* `intersectsWall` only looks for crossings (C100): a plasma beside or around the wall passes, as does one that leaves the wall through a corner or crosses sides whose determinant is below 1e-6 (`C100_beside_fails`, `C100_touching_fails`, `C100_fine_fails`). For limited plasmas and machines without a wall it raises (`C100_limited_fails`).
* With a negative toroidal field `follow` runs against the magnetic field when `backward` is false and along it when it is true, contrary to its documentation (`C101_direction_fails`).
* With `check_limited` and an X-point, only limiter points with `|Z| < 0.75 |Z of the X-point|` are looked at, measured from `Z = 0` (equilibrium.py:550-555). The same machine raised or lowered gives another plasma boundary (`C102_limiter_fails`), and with the X-point exactly at `Z = 0` no limiter point is left and `ValueError` is raised (`C102_limiter_level_fails`).
* `geqdsk.read` adds the flux of the coils as they are to the flux of the file before it looks for axis and mask: the result depends on the currents the coils carried before [C103_currents_before_fails]. Limited plasmas without X-point cannot be read: the mask is `None` [C103_no_xpoint_fails]. A file with a limiter cannot be read with a machine made without wall [C103_limiter_fails]; grids that are not square cannot be read with a machine with wall [C103_rectangular_fails]; `fit_sol=True` with `current_bounds` always raises [C103_fit_sol_bounds_fails]; with `domain` the mask and the normalisation come from the starting guess [C103_domain_fails]; with `current_bounds` the argument `maxits` is ignored [C103_ends].
* `picard.solve` with the default `maxits` comes back, but without `maxits` it can go on for ever although there is exactly one solution: it is enough that the linear solve answers a change of the flux with an equal change of the opposite sign [C104_oscillates_fails]; `blend = 0.5` then gives convergence [C104_blending].
* `optimise.optimise` can return an equilibrium whose solve failed although others of the first population were solved: the first choice of the best candidate takes the highest score, and a failed solve has the score `inf`; it stays until some candidate is replaced (`C105_returned`, second half). The docstring says that the equilibrium given is deep copied, but it is itself solved and is the first member of the population (`C105_argument_is_solved`).
* `Machine.takeMeasurements` raises `TypeError` for a machine made without `sensors`, and stops at the first Rogowski loop if there is a solenoid; `printMeasurements` stops at a sensor made with `status=False`; sensors of different classes or angles are equal when they are in the same place, and loops with different numbers of points cannot be compared [C106].
* No Rogowski sensor can measure `TCV`: the ohmic circuit contains a solenoid, which has no `inShape` [C51_tcv_rogowski_fails]. With current in T1, T2 or T3 the flux of `TCV` is not symmetric, there is no such coil above the midplane [C94_tcv_fails].
* C111: `freeBoundaryHagenow` evaluates the flux at a fixed displacement of `1e-2` from the edge (boundary.py), whatever the grid. Its values converge to the flux one centimetre outside the domain; a free-boundary solve with it keeps an error of the size of the change of flux over that centimetre. A domain whose left edge lies within a centimetre of the axis makes the observation radius zero or negative.
* C112: a `FilamentCoil` given without a shape takes as its position the mean of five points, the first corner of the box twice, so `R` and `Z` lie at two fifths of the box and not in its middle. Moving a coil leaves `shape` behind. Lists of different lengths are accepted: `zip` drops the rest while `npoints` counts the radii, and current is lost.
* C113: `ConstrainPsi2D` with unequal weights does not ignore constant offsets in the best way: the weights enter the mean once but the squares twice, so other currents with another constant can be closer to the target than those found (`C113_offset_fails`).
* C117: `MultiCoil.from_numpy_array` asks for a field `npoints`, which its dtype does not have (it should be `mirror`), and raises `ValueError` for every record. `FilamentCoil` inherits `Coil.to_numpy_array`, whose five values do not fit its seven fields. `PreCalcCoil` inherits `Coil.from_numpy_array`, which makes a `Coil` whose `R` is the number of outline points and whose `Z` and `current` are arrays.
* C118: `FieldTracer.follow` works for one-dimensional arrays of starts only: numbers give `IndexError`, tables `IndexError` or `RuntimeError`, because the flags keep the shape of the starts while the mask has one dimension. If the normalised flux does not exceed one on the line outward from the axis, `traceFieldLines` starts the lines next to the axis and says nothing.
* C119: a machine in another size is not the same problem: von Hagenow's boundary takes the flux exactly 1 cm outside the grid, `find_critical` stops at a field of 1 mT and merges points closer than about 3 mm, the fields of coils are differences with a step of 1 mm, and in a control request with both X-points and flux values the weight of the X-points relative to the fluxes falls with the square of the size.
* C120: `Equilibrium(psi=a)` keeps the array `a`; every later `solve` overwrites its edge (with the multigrid solver all of it). Two equilibria
  made from one array, or in one machine, change each other, and the interpolation, axis and boundary flux of the other are not updated.
  The array given as `Jtor` is kept as well. von Hagenow's boundary calls the solver on `plasma_psi` itself: with `MGJacobi` this overwrites
  the flux, so the final solve starts from the auxiliary solution.
* C121: `solve` assigns the new flux before `_updateBoundaryPsi` and the current and `Jtor` after it: an exception in between leaves a new flux
  with the old current and current density. `picard.solve` raises `RuntimeError` at `maxits` after the control has changed the coils, so
  `psi_bndry`, `psi_axis` and the core mask are those of the flux before.
* C122: in `restrict` the neighbours of a point are summed in lines that begin with `+(`, which Python takes as separate statements: the next
  level gets every second residual instead of a mean. An error that alternates in sign then looks smooth there, and the correction increases
  it: for every number of smoothing steps there are grids where one V-cycle multiplies the error by any factor; without steps some
  residuals are never reduced. With enough steps per level the cycles converge.
* C124: a coil with the default area that carries no current has area zero (`AreaCurrentLimit`). `getForces` then divides by a minor radius of zero and multiplies the infinite logarithm by zero: the radial force is `nan`. Every coil of a new machine is in this state (`C124_no_current_fails`).
* C125: the inverse of the default fourth-order matrix has entries of the wrong sign. With the edge held at zero a current density that is positive at every inner point can give a negative plasma flux next to a corner (`C125_default_fails`, a 9 x 9 grid); with `order=2` this cannot happen.
* C136: `Profile.fpol` is the positive root, whatever the sign of `fvac`. With a negative `fvac` the field of `Btor` is positive in the core and negative outside it, and reversing `fvac` leaves the toroidal field in the core as it was (`C136_reversed_fails`, `C136_negative_fails`). With `f_func` given to `ProfilesPprimeFfprime` the field is reversed everywhere (`C136_reversed_given`).
* C138: `current_lims` has one pair per coil of the machine in `constrain`, but one pair per controlled coil in `ConstrainPsi2DAdvanced` and `ConstrainPsiNorm2DAdvanced`, where pair `i` goes to the `i`-th controlled coil. The docstrings of the latter do not say which is meant, and longer lists are accepted. With one list for both, a coil without control in front of a controlled one makes the fit use the limits of another coil [C138_order_fails].

## Plan per property
* **C01 pickUnique returns distinct allowed indices.** Model `pickUnique` with the random draws as a list argument constrained to numpy's half-open range; induction on the draws with a counting invariant on the sorted exclusion list.
* **C02 optimise returns the lowest-scoring solution.** Model `optimise` as a state machine over an arbitrary random stream. The code keeps the highest score of the initial population, so the claim is false: prove a concrete counterexample and a `_partial` theorem (never worse than any accepted trial, at most the worst initial score).
* **C03 optimise never makes a population slot worse.** Invariant of the generation step by induction over generations and agents, for an arbitrary transitive score comparison.
* **C04 optimise accepts any non-empty control list and can force any control.** numpy `randint` excludes the upper limit: model the call with its error; prove failure for one control and that the last control is never forced; partial: works for two or more.
* **C05 Coil position controls keep the coil inside the given limits.** Model truthiness of the limit; prove the clamp for non-zero limits, refute for a zero limit.
* **C06 weighted_sum is the weighted sum of its measures.** Induction over the argument list.
* **C07 Closed polygon intersection test is sound and complete.** Model the double loop; algebra of the 2x2 solve gives the parametric crossing; both directions.
* **C08 Open polyline intersection test uses every segment.** Same model with open flags; refuted by a concrete pair of segments; partial: exact description of which segments are tested.
* **C09 Polygon area is a geometric invariant.** List induction over cyclic sums and ring identities.
* **C10 Triangulation conserves area and vertex count.** Model the ear-clipping loop as a step function; invariant over the number of removed vertices.
* **C11 Triangulation returns for every simple polygon and produces properly oriented triangles.** Refuted: a simple pentagon with no accepted ear (the loop never ends) and a simple quadrilateral with a negatively oriented triangle. Partial: proved for all convex polygons.
* **C12 Quadrature rules are normalised and exact to their degree.** Explicit rules; exactness against the true double integral over the triangle.
* **C13 Polygon quadrature is a normalised average over the polygon.** From 10 and 12.
* **C14 Moving a shaped coil equals building it at the new place.** Translation equivariance of triangulation and quadrature.
* **C15 Green's function symmetries.** Real model with arbitrary elliptic integral functions; algebra.
* **C16 Green's field symmetries.** Finite differences of 15.
* **C17 Fields superpose linearly in the coil currents.** Model coils, circuits, solenoids in one inductive type; induction over the coil list; dictionary of Greens functions keyed by label.
* **C18 Circuit currents stay proportional.** State machine over API operations; invariant by induction on histories.
* **C19 Control interface addresses exactly the controlled coils in order.** Induction over the coil list.
* **C20 Force evaluation is free of side effects and excludes the coil's own field.** Stateful evaluation model in which reading the field re-synchronises circuits; proved for direct coils, refuted for coils in circuits.
* **C21 Vertical forces between coils balance.** Double sum antisymmetry using 15.
* **C22 Coil control meets the requested constraints when they can be met.** Rows of the system as the code builds them; linearity from 19.
* **C23 Default control currents minimise the regularised residual.** Convexity identity for the quadratic form; Mathlib matrices.
* **C24 Coil current limits are respected.** Bounds list as the code builds it, induction over coils.
* **C25 Flux-map fitting ignores a constant offset.** Algebra of weighted averages; refuted for the advanced class.
* **C26 The core mask is exactly the connected core region.** Well-founded model of the scan-line flood fill; invariant; equality with reachability.
* **C27 Duplicate removal keeps one representative of each cluster.** List induction.
* **C28 Critical points are ordered as documented.** Model of sort as stable insertion by key; list lemmas.
* **C29 find_psisurface brackets the requested surface and stays in the domain.** argmax model, clipping algebra.
* **C30 Profile constraint: total current and axis pressure are met.** Linear functional for romb; exact integral for quad; field algebra.
* **C31 Profile constraint: total current and poloidal beta are met.** Same as 30.
* **C32 Current density is consistent with the flux functions.** Pointwise algebra.
* **C33 Profiles match the vacuum at the plasma edge.** Interval integral facts; sign of fvac refutes `fpol(1)=fvac` for negative fvac.
* **C34 Linear solve satisfies the discrete Grad-Shafranov equation.** Matrix rows from 35; solver returns a solution.
* **C35 Second-order matrix agrees with the operator and obeys a maximum principle.** Discrete maximum principle on a finite grid.
* **C36 Fourth-order matrix is exact on low-degree polynomials.** Stencil polynomial identities; index wrap for ny=5 refuted.
* **C37 Boundary functions change exactly the edge.** Loops over edge indices; extensional description.
* **C38 von Hagenow edge derivative is exact to fourth degree and outward.** Polynomial identity.
* **C39 Picard iteration returns only when converged and respects maxits.** Loop model over an arbitrary environment; induction over iterations.
* **C40 Limited/diverted decision.** Decision model with abstract critical points and spline; transposition and sign refuted; partial.
* **C41 Multigrid leaves an exact solution unchanged.** Induction over levels.
* **C42 Restriction and interpolation are consistent.** Index arithmetic; the averaging lines are separate statements in the code, refuting the constant-preservation with avg.
* **C43 V-cycle grids fit together.** Arithmetic induction.
* **C44 Changing resolution keeps the domain and settings.** Record model of Equilibrium; refuted for settings dropped; partial.
* **C45 Power-of-two helpers.** Bitwise lemma on natural numbers.
* **C46 G-EQDSK round trip of geometry and normalised flux.** Field algebra.
* **C47 G-EQDSK round trip of profiles.** Refuted (endpoint conventions differ); partial: exact relation between the two grids.
* **C48 HDF5 round trip of coils.** Encoding/decoding of coil records; refuted parts as separate theorems.
* **C49 Shape parameters are mutually consistent.** argmin/argmax over lists.
* **C50 A traced field line never restarts.** State machine over evaluation sequences.
* **C51 Sensors report the enclosed current and respect their status.** Lists of coils with arbitrary enclosed fraction function.
* **C52 Limiter points cover the wall.** Piecewise linear interpolation model; refuted for the closing segment.
* **C53 MirroredCoil is an up-down pair carrying the requested current.** Refuted on all inputs with Z not 0.
* **C54 MultiCoil field is the sum over its turns.** List sums; refuted for single point with several turns.
* **C55 Midplane separatrix radii are bracketed.** argmax/argmin and interpolation algebra.
* **C56 G-EQDSK boundary contour is closed and keeps all points.** List rotation lemmas; start point refuted.
* **C57 DivGeo output grid matches the domain.** Arithmetic.
* **C58 Solenoid behaves as equally spaced turns.** linspace model, list sums.
* **C59 Filament coil is the average of its filaments and moves rigidly.** List sums and permutations.
* **C60 Beta definitions combine harmonically.** Field algebra.
* **C61 pickUnique can return every allowed index.** Refuted for the last index from the loop invariant of C01; partial: exact stream that returns a small index. Exact set of indices that can be returned by counting the free indices below (`Lemmas/PickUnique`).
* **C62 Equilibrium flux reflects the present coils.** State machine of C18 extended by moves; refuted after a move, proved for histories without moves and after the tables are created again.
* **C63 Moving a coil moves its field and its place.** Displaced environment as specification; proved for four kinds, refuted for the outline of ShapedCoil and the tables of PreCalcCoil.
* **C64 Optimiser measures of current and force.** List maximum specification (attained and upper bound); refuted for forces with circuits and with plasma.
* **C65 Bounded flux-map fits keep the controlled currents within their limits.** Model of the clipping loop and bounds list, induction over the controls; refuted for the default arguments (TypeError), so partial.
* **C66 Shaped coil response is turns times the average over its outline.** Unfold the fold over the quadrature points; reuse 13.
* **C67 Greens is the flux of a circular current filament.** Model/Greens with the elliptic integrals as interval integrals; substitution and evenness give the vector potential integral; positivity by comparison of integrands.
* **C68 GreensBr and GreensBz are the Biot-Savart field.** Differentiate the flux integral under the integral sign, integrate by parts over the filament, mean value theorem.
* **C69 A boundary flux given by the caller is used.** Model the beginning of the Jtor methods; prove the boundary stored is the one given for the class with given functions, and that the two constrained classes ignore it.
* **C70 A linear solve leaves the equilibrium consistent with itself.** Model the equilibrium as a record of its attributes and solve as a state transformer over abstract library routines; prove the frame and idempotence lemmas for the boundary update and combine with C34.
* **C71 A converged Picard iteration is a self-consistent equilibrium.** Instantiate the model of the Picard loop with the model of the equilibrium; combine C30, C31, C32, C39 and C70.
* **C72 The multigrid solver is linear.** Relational induction over the levels: every operation (Jacobi step, restriction, sub-solve, interpolation) preserves `w = u + a v` on the grid; the direct solver by uniqueness of the solution.
* **C73 Jacobi iteration converges for the Grad-Shafranov matrix.** Weighted maximum norm with weight `ny^2 + 1 - y^2`, for which the off-diagonal row sums are smaller than the diagonal.
* **C74 LaplaceSparse is the matrix of LaplacianOp.** Row by row evaluation of the matrix-vector product.
* **C75 Reading a G-EQDSK file onto another domain.** Model of the size computation with unassigned variables as values; the claim on the resolution is refuted for every input.
* **C76 Integrals over the plasma respect order.** Model/Global; all weights of Romberg integration are positive (Lemmas/Romberg, by bounds on the extrapolation coefficients, induction on the column), exactness for linear integrands gives the volume of the domain.
* **C77 Figures of merit agree with each other.** Model/Global; field identities after inverting the do-blocks. poloidalBeta3 is shown to be beta times inductance times volume, hence not consistent.
* **C78 Dimensionless figures of merit are dimensionless.** Model/Global; homogeneity of romb2 and of the shape parameters. False for poloidalBeta3, which changes like s^3 (proved).
* **C79 Toroidal flux.** Model/Global; false as stated (starts at zero at the first value given), proved: additivity, exactness for affine q, error bound for monotone q, monotonicity.
* **C80 Toroidal flux coordinate.** Model/Global; proved for the profile of 101 values and falling flux, refuted for rising flux, single values and lists not starting at the axis.
* **C81 HDF5 round trip of settings.** Model write and read on the settings; prove what is kept, what becomes the default, and that own boundary functions cannot be read back.
* **C82 Wall test of the field line tracer.** Orientation form of the crossing test, parity of crossings; convex walls by the first side met along the line of sight; counterexamples for corners, small walls and a middle outside the wall.
* **C83 Starting points of traced lines.** Closed form of the linspace.
* **C84 Separatrix points lie on the last closed flux surface.** Real model with `Complex.arg` for arctan2; intermediate value theorem on each ray from C29; angles modulo 2 pi.
* **C85 Safety factor is the field line pitch integral.** Riemann sums and chord lengths converge to the curve integral; scaling by algebra through the ray search.
* **C86 q profile values do not depend on which other values are asked for.** Model with the interpolation as parameter; induction over the values; witness with a rippled profile.
* **C87 Shafranov shift joins the geometric and the magnetic axis.** Algebra over the shape model of C49.
* **C88 Normalised flux fits minimise a function of the coil currents alone.** Optimisers as trees of questions and answers; induction over the tree; witnesses with a flux without O-point and with a trial after the best one.
* **C89 A coil outline is filled with filaments inside it.** Real model; a square inside the outline gives enough points for small spacings; the mixture of numbers and one-element arrays is modelled as ValueError.
* **C90 Critical points do not depend on offset, height, sign or scale of the flux.** Model of find_critical with an arbitrary spline; one simulation lemma for all stages (search, Newton iteration, classification, duplicates, ordering, visibility). Scale: refuted, the null test is an absolute limit of one millitesla; general theorem on weak fields and a witness without any null.
* **C91 Every field null away from the edge is found.** Nulls on grid points are found (partial), with the right type for every quadratic flux; refuted in general: on symmetric grids with an even number of rows the two rows next to the midplane have equal field strength, so no strict minimum exists and every null on the midplane is missed, for every quadratic flux. Between the grid points: the Newton iteration is proved to converge (the distance at least halves in each step, by a bound quadratic in it) from every grid point near a null with non-singular, slowly varying second derivatives (`RegularNull`, which follows from smoothness, C91_smooth_is_regular). So such a null is found whenever some block of grid points around it has a weaker field inside than on its rim and no two neighbours with exactly equal field; for nearly isotropic nulls on square cells the first condition always holds (C91_isotropic_partial). What is missing is exactly the case of equal neighbours, for which the property is refuted, and strongly anisotropic nulls.
* **C92 The direct solve converges to the true solution at second order.** Comparison function F/2 (Z-Zmin)(Zmax-Z)+E and the discrete maximum principle (C35) bound the solution; Taylor's theorem with integral remainder bounds the difference between the five-point operator and the differential operator by M4 h^2/12 and M3 h^2/(6R).
* **C93 Up-down symmetric input gives an up-down symmetric equilibrium.** The matrix commutes with the reversal of rows and has one solution for every right-hand side, so the solution of symmetric data is symmetric; Romberg's rule is unchanged by reversing the samples; the Green's function depends on heights through their difference squared; the set the core mask marks is mapped onto itself; induction over Picard.Run. Counterexamples for the two excluded cases by evaluation.
* **C94 Predefined machines can be made, have distinct labels and are symmetric.** The machines are written as values of the machine model, with all tables of machine.py as rational numbers; the flux is a sum over coils (C17), each pair of coils is exchanged by the mirror, and the solenoids are symmetric by reversal of `linspace`. The failures are computed with a polynomial Green's function.
* **C95 Comparison of machines.** Every `__eq__` is modelled with its exceptions and with Python's choice of the method to call; `sorted` is an insertion sort on labels whose comparison can raise. Distinct labels make the sorted lists unique, so equality is equality of the sets of labelled coils; for point coils, circuits of them and solenoids this is equality up to areas. The other classes and the exceptions are counterexamples.
* **C96 The field of the coils obeys the vacuum field equations.** The field of a machine is written as a sum over filaments, coil class by coil class; curl and divergence by algebra over the sum; the derivatives of the fields of a loop (under the integral sign) cancel after an integration by parts. The bounds on the same derivatives give the accuracy of GreensBr and GreensBz (C68).
* **C97 The field of an equilibrium belongs to its flux.** Model/Fields; the coil part of the error by the accuracy of the Green's fields (C68) summed over the filaments (C96); counterexamples from the definition of a cubic spline through five points.
* **C98 Equilibria are in force balance.** C32 gives the current density, C33 the derivatives of pressure and f; chain rule and field algebra.
* **C99 Multiplying all currents multiplies the equilibrium.** Each step commutes with multiplication of all fluxes: boundary conditions, solvers and integrals are linear, normalised flux and mask are invariant, the control objective is homogeneous of degree 2 with a unique minimiser; induction over the iteration. For k = -1 the search for critical points is shown to commute, so the statement holds for the whole calculation.
* **C100 A plasma that leaves the wall is reported.** Even-odd rule as specification of inside; the number of sides crossed by a segment in general position has the parity of the change of inside-ness (sum over the closed polygon modulo 2), so a separatrix with a point inside and one outside has a side that crosses the wall. Counterexamples for plasmas beside or around the wall, crossings at corners and polygons with short sides.
* **C101 Traced field lines lie on flux surfaces.** Exact solutions of the system whose right hand side is the model of fieldDirection; chain rule with the joint derivative of the flux (continuity of the Biot-Savart integrals), mean value inequality, Cartesian coordinates, uniqueness of solutions. The integrator itself is not modelled.
* **C102 The height of the machine does not matter.** Relation `Raises` between two environments, preserved by every function; exact equality of outcomes (errors too) for machine, control, operator, boundary, profiles and linear solve, then the Picard iteration by simulation. The limiter selection by absolute height is the counterexample.
* **C103 Reading a G-EQDSK file returns the equilibrium the file describes, on the file's grid and within the bounds given.** Model all of read with library routines as parameters (Model/GeqdskRead); prove what is returned by invariance of the fits and the iteration (Props/GeqdskRead), the reproduction of an exactly described equilibrium by an invariant over the iteration (Props/ReadBack), and the cases in which reading fails as general theorems.
* **C104 Picard iteration converges under a contraction.** Loop model of picard.solve with an arbitrary equilibrium; induction over the passes with the distance as potential; Banach's fixed point theorem on the flux maps; stability of the linear solve (C92, C107) for the equilibrium on a grid; positive Romberg weights for the slope of the free boundary
* **C105 Optimising an equilibrium only accepts converged solutions.** Model of optimise.optimise on top of the generic optimiser with a measure that changes the object and the Picard model; invariants over the chain of populations, convergence by C39
* **C106 Taking the measurements of a machine.** Model of the sensor list and its loop with the machine as state; induction over the sensors; exceptions as values with the state left behind; refute equality, printing of sensors made off, missing sensors and Rogowski loops beside solenoids
* **C107 The default fourth-order solve is well posed and converges.** Energy method: the one-sided rows are centred rows with an extrapolated value beyond the edge, summation by parts leaves a quadratic form at each end that is shown positive, the first-derivative term is a sum of products of `psi dR / R`; a discrete Poincare inequality gives stability, Taylor's formula up to the edge gives the truncation error (`C107_solvable`, `C107_stability`, `C107_largest`, `C107_fourth_order`, `C107_converges`).
* **C108 Circuits may contain solenoids and circuits.** Mutual inductive type of sources and member lists; specification by the weighted list of leaves; induction over the size for the loops that assign currents before reading. TCV is an instance (C94).
* **C109 Integrals over the grid are exact for polynomials and converge.** Closed form of the trapezium column, Faulhaber's formula with vanishing odd Bernoulli numbers, Richardson factors; positive weights and Weierstrass for continuous functions, compactness for the inner integral, sandwich for Riemann integrable functions. Order of accuracy (`C109_rate`): a table over two intervals is the sum of the tables over each, so by induction column r has an error of order 2r+2 (Taylor's polynomial on one panel), and later columns keep it up to a factor six; in two dimensions the finite sum is exchanged with the integral.
* **C110 The free-boundary solve converges to the flux of the current density.** Uniform convergence of the Romberg sums over a compact family (edge points), maximum principle with inexact edge values (C92); for the default solver the quadrature error is a smooth function, by differentiation under the integral sign, so that the solution is that of a perturbed exact problem (C107). Green's function of the code by C67. Rate (`C110_rate`): C109_rate for the integrand and its derivatives in the place bounds the perturbation by the fourth power of the spacing.
* **C111 Von Hagenow's boundary condition gives the flux of the plasma current one centimetre outside the edge.** Green's second identity on the rectangle with edge terms; second-order convergence of the one-sided normal derivatives from the error bound of the fixed-boundary solve near the edge; uniform convergence of the Romberg sums over the four sides; maximum principle with inexact edge values (C92).
* **C112 A filament coil given without an outline is the box around its filaments.** Extreme values of the lists; the shoelace formula. The position is proved not to be the middle of the box (the repeated corner is counted twice), the outline not to move, and unpaired filaments to lose their share of the current.
* **C113 A fit to a flux map leaves the currents of the closest flux in the machine.** Model the calls with the minimiser as a parameter. Specification: weighted mean and weighted squares as sums over the grid points. Show that the squares of the code's residual are the specified mismatch, and that the machine afterwards holds the minimum. The offset is proved for weights that are all equal or zero and refuted for others.
* **C114 Coil control does not depend on the order of requests and coils.** Sums over rows that do not see the sign of a row; equality of the problem handed to the optimiser. For the coils: carry current changes over a permutation by induction, show that limits, total, errors and objective agree, and use uniqueness of the minimum.
* **C115 Ampère's law for the field of a machine.** derivatives of the flux of a filament (C96) and Green's theorem on rectangles show that the circulation does not change while the rectangle does not pass over the filament; for a large rectangle the far field is bounded and the line on the axis integrates to mu0; sums over the list of filaments; the finite difference by C68
* **C116 A free-boundary solve gives the flux in unbounded space.** Ampère's law for a filament (C115) gives the strength of the singularity of Green's function; Green's identity on large rectangles without a small square then represents the flux as the integral over the current density (the fundamental solution); with it the hypotheses of C110 and C111 on the edge follow from conditions in unbounded space; for the default solver Green's function is continued smoothly across its source, which does not change its values between the plasma and the edge Rate (`C116_rate`): the smooth continuation of the filament's flux times a current density with four derivatives is smooth in the source too.
* **C117 A coil converted to a record and back is the same coil.** Model structured NumPy scalars (fields with names and types), the five dtypes, both conversions of each class including the inherited ones. Prove the round trip for point coils and unmoved shaped coils, that other classes refuse a record, that the record of a multi-coil determines it, and for all multi-coils, filament coils and pre-calculated coils that the round trip fails and how.
* **C118 Traced field lines start where they should and stay apart.** Model the flat vector, the function handed to odeint with the shape of the flags, follow and traceFieldLines, with odeint as parameter. Prove by induction on the vector that each triple belongs to one line, that an exact solution of the system consists of field lines through the starts, and the shape and first row for every integrator that returns the start first; locate the starts by the search of C29. Refute for starts given as numbers or tables and for plasmas whose edge is not found.
* **C119 The same arrangement in another size.** One environment is the other in another size (`Resizes`); machine, boundary, operator, search, mask, profiles and control are shown to map resized inputs to resized outputs, then the iteration follows step by step. The search for critical points is compared with a search with tolerances relative to the size. The parts with absolute numbers get counterexamples.
* **C120 A calculation changes only the equilibrium it is asked for.** Model: a world of arrays, machines and equilibria that refer to each other by number; every assignment of solve, _updateBoundaryPsi, the boundary functions, the solvers and Picard iteration writes to it in order (Verif/Model/Store.lean). Proof: frame invariants call by call, induction on passes and on histories, and a refinement proof that the world computes what the model of values (C70, C38) computes. The cases in which arrays or machines are shared are refuted by concrete worlds.
* **C121 What is left after an exception.** Model: as for C120; a call returns the exception and the world with the changes made so far. Proof: case analysis over the points of exception, all-or-nothing of the boundary loops, an invariant through the passes of Picard iteration, and a relational proof that a linear solve does not use what _updateBoundaryPsi left. Exceptions after the change of the flux, and the control at the limit of passes, are refuted by concrete worlds.
* **C122 Multigrid cycles converge.** Model of Model/Multigrid.lean. Bound the effect of Jacobi steps by the weighted norm of C73, that of the correction by the stability estimate C92, then induct on the levels. Counterexamples for few steps by comparison functions for errors that alternate in sign.
* **C123 Currents in the same direction attract.** Write the flux as an integral over the inverse of the clipped elliptic parameter and show it strictly monotone by comparing with the mean value, as in C67. The field follows for every difference step, the force of a machine by summing over its filaments (C96) and the force formula of C20.
* **C124 The self-force of a coil points outward.** Force formula of C20 with the machine empty but for the coil; bound the logarithm. For a coil without current follow the area through AreaCurrentLimit.
* **C125 More current gives more flux.** For the second-order matrix: the minimum principle of C35 on the difference of the two solutions minus the smallest difference at the edge, and positivity of the Green's function (C67) and of Romberg's weights for the edge. For the fourth-order matrix: a flux on a 9 x 9 grid with a negative value next to a corner whose current density is positive at every inner point, with uniqueness from C107.
* **C126 Coil control depends continuously on request and plasma.** The objective is strongly convex along the segment between both solutions, and the segment keeps all limits; so each solution beats the other by the gap between them, and adding both inequalities gives the bound. SLSQP is an argument assumed to return a minimiser.
* **C127 Repeated coil control meets the request ever better.** Strong convexity gives the three-point inequality of a proximal step; two adjustments are one adjustment by the sum, so the change left over stays admissible; sum over the calls by induction. SLSQP is an argument assumed to return a minimiser.
* **C128 With limits, coil control has exactly one solution.** The admissible changes are closed and the objective is continuous and at least gamma^2 times the squared change, so a minimum exists on a box; strong convexity makes it unique. SLSQP is an argument assumed to solve problems that have a solution.
* **C129 Reported forces are the rate of change of the magnetic energy.** Props/VirtualWork.lean. Energy of filament lists as specification; one filament is taken out of the list by the symmetry of Greens (C15); the fields are differences of the flux (C96), the force is C20; the mean value theorem with the derivatives from C96_vacuum gives the second part. Coils in circuits (C129_circuit): the flux of the coil itself is even in the height, so only the radial force has an additional term, which the theorem gives exactly.
* **C130 A larger gamma trades accuracy for smaller current changes.** Props/GammaControl.lean. Both optimality inequalities with the strong convexity of C126/C127, added.
* **C131 Reciprocity and positive energy of the solve.** Props/Reciprocity.lean. The weighted operator is a divergence on the grid; summation by parts in both directions gives a symmetric, positive form.
* **C132 More requests, wider limits and more coils in coil control.** Props/MoreRequests.lean. The errors of joint requests are the sum of the errors; the gap of the strictly convex objective (C127, call_step) is used for both results; changes for more coils are the old ones with zeros.
* **C133 The solve gives the flux of least energy.** Props/EnergyPrinciple.lean. Summation by parts from C131 turns the discrete equation into stationarity of a quadratic form that is positive for maps that vanish on the edge.
* **C134 The field of one coil.** Props/FilamentField.lean. C68 gives the Biot-Savart integral at a nearby radius. Inside, the integrand is positive. Outside, integration by parts turns it into a comparison of the mean distance with the mean inverse distance of the source elements, settled by pairing opposite elements.
* **C135 Flux fits with more coils or wider limits.** Compare two calls of the fit: show that the flux depends on labels and currents only, not on the control attribute, so that the currents found with fewer coils are allowed with more, and use the optimality of C113.
* **C136 The strength and direction of the vacuum toroidal field.** Show that the current density of the three profile classes does not use fvac, so that whole Picard runs are equal; fpol from its definition over the reals; Btor at grid points inside and outside the core.
* **C137 Machines that make the same field are interchangeable.** Show that the linear system, the limits and the result of coil control depend on the machine through currents, responses and fields only; a simulation between two Picard runs whose states differ in the machine only.
* **C138 One list of current limits means the same to all fits.** C24 for constrain. For the flux fits the place of a controlled coil among the controlled ones (induction over the coil list) and C65; refuted for a coil without control in front of a controlled one, so partial.
