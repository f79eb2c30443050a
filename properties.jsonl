{"id": "C01", "title": "pickUnique returns distinct allowed indices", "statement": "optimiser.pickUnique(N, m, e) returns exactly m pairwise different integers, each in 0..N-1 and none of them listed in e; when m > N-len(e) it raises AssertionError instead.", "quantifier": "all N, m, all lists e of different indices below N, all outcomes of the random generator", "why_tests_cant": "The outcome depends on a random stream; a test sees a few draws, and an off-by-one in the skip loop only shows for particular combinations of exclusions and draws.", "anchors": ["freegs/optimiser.py:pickUnique"]}
{"id": "C02", "title": "optimise returns the lowest-scoring solution", "statement": "The object returned by optimiser.optimise has the lowest measure among the original object and every agent of the final population.", "quantifier": "all objects, control lists, measures, N>=4, maxgen, CR, F and random streams", "why_tests_cant": "Depends on the random stream and on the number of generations; a test with many generations on an easy objective hides a wrong initial choice.", "anchors": ["freegs/optimiser.py:optimise"]}
{"id": "C03", "title": "optimise never makes a population slot worse", "statement": "In every generation of optimiser.optimise the population keeps N members, the score in each slot is at most the score that slot had before, each stored score is the measure of the stored object, and the best score passed to monitor never increases.", "quantifier": "all generations, all random streams, all measures and controls", "why_tests_cant": "Monotonicity is a statement about every generation of every run; tests look at one short run.", "anchors": ["freegs/optimiser.py:optimise"]}
{"id": "C04", "title": "optimise accepts any non-empty control list and can force any control", "statement": "optimiser.optimise runs for every non-empty list of controls, and each control can be the one that is always taken from the differential combination.", "quantifier": "all non-empty control lists and all random streams", "why_tests_cant": "The upper bound convention of the random integer generator matters only for particular list lengths and draws.", "anchors": ["freegs/optimiser.py:optimise"]}
{"id": "C05", "title": "Coil position controls keep the coil inside the given limits", "statement": "After CoilRadius(name, minimum, maximum).set(eq, value) the coil radius lies in [minimum, maximum] and equals value if value was already inside; the same for CoilHeight with the height; no other coil is moved.", "quantifier": "all machines, coil names, values, and limits with minimum <= maximum, including limits equal to zero and absent limits", "why_tests_cant": "Truthiness of the limit values makes special values of the limits behave differently; a test with one positive pair of limits cannot see it.", "anchors": ["freegs/optimise.py:CoilRadius", "freegs/optimise.py:CoilHeight"]}
{"id": "C06", "title": "weighted_sum is the weighted sum of its measures", "statement": "weighted_sum(*args)(eq) equals the sum over the arguments of weight*measure(eq), with weight 1 for a bare callable, for any mix and order of bare callables and (callable, weight) pairs.", "quantifier": "all argument lists and equilibria", "why_tests_cant": "Argument lists have unbounded length and arbitrary mixtures.", "anchors": ["freegs/optimise.py:weighted_sum"]}
{"id": "C07", "title": "Closed polygon intersection test is sound and complete", "statement": "polygons.intersect on two closed polygons returns True exactly when some edge of the first and some edge of the second, whose direction cross product is at least 1e-6 in magnitude, cross at a point strictly inside both; it is symmetric in the polygons and unchanged if both are moved by the same vector.", "quantifier": "all pairs of polygons of any length", "why_tests_cant": "Infinitely many geometric configurations; soundness and completeness are statements about all of them.", "anchors": ["freegs/polygons.py:intersect"]}
{"id": "C08", "title": "Open polyline intersection test uses every segment", "statement": "polygons.intersect with closed1=False and closed2=False reports a crossing whenever any segment of the first polyline properly crosses any segment of the second, and never reports a crossing of a segment that is not part of the polylines.", "quantifier": "all pairs of polylines of any length", "why_tests_cant": "Only the last segment of a polyline is affected by the wrap-around, so samples miss it.", "anchors": ["freegs/polygons.py:intersect"]}
{"id": "C09", "title": "Polygon area is a geometric invariant", "statement": "polygons.area does not change when the vertex list is rotated or the polygon is translated, changes sign when the vertex order is reversed, scales with the square of the size, and cutting a polygon along a diagonal adds up the areas of the two parts; clockwise(p) is area(p) > 0.", "quantifier": "all polygons of any length and all translations, rotations of the list and diagonals", "why_tests_cant": "Universal geometric law over polygons of unbounded size.", "anchors": ["freegs/polygons.py:area", "freegs/polygons.py:clockwise"]}
{"id": "C10", "title": "Triangulation conserves area and vertex count", "statement": "Whenever polygons.triangulate returns for a polygon with n >= 3 vertices it returns exactly n-2 triangles, every triangle corner is a vertex of the polygon, the triangle areas add up to the absolute area of the polygon, and every triangle except possibly the last has non-negative area; fewer than 3 vertices raise AssertionError.", "quantifier": "all polygons of any length", "why_tests_cant": "Holds for every run of the ear-clipping loop, whichever ears are chosen.", "anchors": ["freegs/polygons.py:triangulate"]}
{"id": "C11", "title": "Triangulation returns for every simple polygon and produces properly oriented triangles", "statement": "polygons.triangulate returns, and all triangles have non-negative area, for every simple polygon.", "quantifier": "all simple polygons with at least 3 vertices", "why_tests_cant": "Termination of a search loop cannot be observed by running finitely many polygons.", "anchors": ["freegs/polygons.py:triangulate", "freegs/shaped_coil.py:ShapedCoil"]}
{"id": "C12", "title": "Quadrature rules are normalised and exact to their degree", "statement": "quadrature.triangle_quad weights add to one (to within 1e-15 for the 6-point rule) and the weighted point average equals the exact mean over the triangle for all polynomials of degree 1 (n=1) and 2 (n=3), and up to a stated rounding of the tabulated constants for degree 4 (n=6); any other n raises ValueError.", "quantifier": "all triangles, all polynomials of the given degree", "why_tests_cant": "Exactness is a statement about all triangles and all polynomials of a degree.", "anchors": ["freegs/quadrature.py:triangle_quad"]}
{"id": "C13", "title": "Polygon quadrature is a normalised average over the polygon", "statement": "For every polygon of non-zero area on which triangulation returns, quadrature.polygon_quad returns n points per triangle, the weights add to one, constants are averaged exactly and the average of a linear function is its value at the polygon's centroid.", "quantifier": "all polygons with at least 3 vertices and non-zero area, all linear functions", "why_tests_cant": "Universal over polygons of unbounded size.", "anchors": ["freegs/quadrature.py:polygon_quad", "freegs/quadrature.py:average"]}
{"id": "C14", "title": "Moving a shaped coil equals building it at the new place", "statement": "Setting R or Z of a ShapedCoil moves the coil rigidly: afterwards R or Z reads back the new value and the flux and field responses equal those of a ShapedCoil built from the translated outline with the same turns.", "quantifier": "all outlines, displacements, turns and any sequence of moves", "why_tests_cant": "Equality for all outlines and all move sequences.", "anchors": ["freegs/shaped_coil.py:ShapedCoil.R", "freegs/shaped_coil.py:ShapedCoil.Z", "freegs/shaped_coil.py:ShapedCoil.controlPsi"]}
{"id": "C15", "title": "Green's function symmetries", "statement": "gradshafranov.Greens(Rc, Zc, R, Z) is unchanged by exchanging source and observation point, by shifting both heights, and by reflecting both heights.", "quantifier": "all real positions", "why_tests_cant": "Continuous family of positions.", "anchors": ["freegs/gradshafranov.py:Greens"]}
{"id": "C16", "title": "Green's field symmetries", "statement": "GreensBr is odd and GreensBz is even under reflection about the plane of the source; GreensBr vanishes in that plane; both are unchanged by a common vertical shift.", "quantifier": "all real positions", "why_tests_cant": "Continuous family of positions.", "anchors": ["freegs/gradshafranov.py:GreensBr", "freegs/gradshafranov.py:GreensBz"]}
{"id": "C17", "title": "Fields superpose linearly in the coil currents", "statement": "Machine.psi, Br and Bz equal the sum over coils and circuits of current times the response per unit current (controlPsi, controlBr, controlBz), and flux computed from createPsiGreens/calcPsiFromGreens equals psi evaluated directly, in every machine whose labels are distinct, for whatever currents are set after the Greens functions were created.", "quantifier": "all machines, all currents, all evaluation points, any sequence of current changes", "why_tests_cant": "Ranges over machines of any size and all histories of current changes.", "anchors": ["freegs/machine.py:Machine.psi", "freegs/machine.py:Machine.createPsiGreens", "freegs/machine.py:Machine.calcPsiFromGreens", "freegs/coil.py:Coil.psi"]}
{"id": "C18", "title": "Circuit currents stay proportional", "statement": "After any sequence of reads, current settings and control adjustments through the machine or circuit, each coil in a Circuit carries its multiplier times the circuit current.", "quantifier": "all circuits and all sequences of API operations", "why_tests_cant": "Ranges over unbounded histories.", "anchors": ["freegs/machine.py:Circuit.current", "freegs/machine.py:Circuit.psi", "freegs/machine.py:Circuit.Br", "freegs/machine.py:Machine.controlAdjust", "freegs/machine.py:Machine.setControlCurrents"]}
{"id": "C19", "title": "Control interface addresses exactly the controlled coils in order", "statement": "controlCurrents after setControlCurrents(v) returns v, after controlAdjust(d) returns the old list plus d; coils with control off keep their current; the resulting flux and field change by the sum of d[i] times the i-th entry of controlPsi/controlBr/controlBz.", "quantifier": "all machines with any mix of coil kinds and control flags, all vectors of matching length, all points", "why_tests_cant": "Ranges over machines of any size and all vectors.", "anchors": ["freegs/machine.py:Machine.controlCurrents", "freegs/machine.py:Machine.setControlCurrents", "freegs/machine.py:Machine.controlAdjust", "freegs/machine.py:Machine.controlPsi"]}
{"id": "C20", "title": "Force evaluation is free of side effects and excludes the coil's own field", "statement": "Coil.getForces leaves all currents as they were and the magnetic part of the force uses the field of everything except the coil itself, for a coil listed directly in the machine and for a coil inside a circuit.", "quantifier": "all machines, currents and plasma fields", "why_tests_cant": "The temporary zeroing of the current interacts with circuits re-synchronising currents; only visible for particular machine structures.", "anchors": ["freegs/coil.py:Coil.getForces", "freegs/machine.py:Circuit.getForces", "freegs/machine.py:Circuit.Br"]}
{"id": "C21", "title": "Vertical forces between coils balance", "statement": "For a machine of plain coils (Coil objects, listed directly or inside circuits) with no plasma the vertical forces reported by getForces add up to zero; for two coils they are equal and opposite.", "quantifier": "all machines of any number of Coil objects, directly or in circuits, all positions, turns and currents", "why_tests_cant": "Universal physical law over machines of unbounded size.", "anchors": ["freegs/coil.py:Coil.getForces", "freegs/gradshafranov.py:GreensBr"]}
{"id": "C22", "title": "Coil control meets the requested constraints when they can be met", "statement": "If the linear system set up by control.constrain is solved exactly by the returned current changes, then after the call Br and Bz vanish at every requested X-point, the flux is equal at both points of every isoflux pair and has the requested value at every psivals point; in general the remaining constraint error after the call is the residual of the linear system.", "quantifier": "all machines, all lists of X-points, isoflux pairs and psi values, all plasma fields", "why_tests_cant": "Ranges over constraint lists and machines of any size.", "anchors": ["freegs/control.py:constrain.__call__"]}
{"id": "C23", "title": "Default control currents minimise the regularised residual", "statement": "The starting current change used by control.constrain is the unique minimiser of ||A x - b||^2 + gamma^2 ||x||^2 for every gamma other than zero, and the matrix inverted is then always invertible.", "quantifier": "all constraint matrices, right hand sides and non-zero gamma", "why_tests_cant": "Optimality over a continuum and all matrix sizes.", "anchors": ["freegs/control.py:constrain.__call__"]}
{"id": "C24", "title": "Coil current limits are respected", "statement": "If the optimiser honours the bounds it is given, then after control.constrain with current_lims every controlled coil's current lies in its own limits, the total of absolute controlled currents is at most max_total_currents, and uncontrolled coils keep their current.", "quantifier": "all machines with any mix of controlled and uncontrolled coils, all limits and currents", "why_tests_cant": "Index alignment between limits and coils matters only for particular patterns of control flags.", "anchors": ["freegs/control.py:constrain.__call__"]}
{"id": "C25", "title": "Flux-map fitting ignores a constant offset", "statement": "The residual minimised by ConstrainPsi2D does not change when a constant is added to the target flux or to the plasma flux; the same for ConstrainPsi2DAdvanced.", "quantifier": "all flux maps, weights with non-zero sum, and offsets", "why_tests_cant": "Universal over maps, weights and offsets.", "anchors": ["freegs/control.py:ConstrainPsi2D.psi_difference", "freegs/control.py:ConstrainPsi2DAdvanced.psi_difference"]}
{"id": "C26", "title": "The core mask is exactly the connected core region", "statement": "critical.core_mask terminates and returns an array of zeros and ones; away from the X-point neighbourhoods a grid point is 1 exactly when it is the start point or can be reached from the O-point's grid point through grid neighbours with normalised flux below one that avoid the X-point neighbourhoods; inside those neighbourhoods a point is 1 exactly when its normalised flux is below one.", "quantifier": "all grid sizes, all flux arrays, O-points and X-point lists", "why_tests_cant": "Reachability and termination of a flood fill for all grids.", "anchors": ["freegs/critical.py:core_mask"]}
{"id": "C27", "title": "Duplicate removal keeps one representative of each cluster", "statement": "The duplicate removal used for O- and X-points returns a sub-list in which no two points are closer than the tolerance and such that every input point is within the tolerance of a kept one; applying it twice changes nothing.", "quantifier": "all point lists", "why_tests_cant": "Universal over lists of unbounded length.", "anchors": ["freegs/critical.py:find_critical.remove_dup"]}
{"id": "C28", "title": "Critical points are ordered as documented", "statement": "If find_critical returns O-points then the first is the one nearest the middle of the domain, the X-points are in order of distance in flux from that O-point, and every returned point passed the field-null test.", "quantifier": "all candidate lists", "why_tests_cant": "Universal over candidate lists.", "anchors": ["freegs/critical.py:find_critical"]}
{"id": "C29", "title": "find_psisurface brackets the requested surface and stays in the domain", "statement": "The point returned by find_psisurface lies on the search line inside the domain rectangle, and if the sampled flux crosses the value it lies between the two consecutive samples that bracket the first crossing, at the linear interpolation of the value; otherwise the start of the line is returned.", "quantifier": "all lines starting inside the domain, all sampled flux sequences of any length", "why_tests_cant": "Universal over sampled profiles and geometry.", "anchors": ["freegs/critical.py:find_psisurface"]}
{"id": "C30", "title": "Profile constraint: total current and axis pressure are met", "statement": "With ConstrainPaxisIp, the current density returned by Jtor integrates (with the code's own quadrature) to Ip and the pressure on axis equals paxis.", "quantifier": "all flux maps, masks, parameters for which the normalisation integrals do not vanish", "why_tests_cant": "Universal over flux maps and parameters.", "anchors": ["freegs/jtor.py:ConstrainPaxisIp.Jtor", "freegs/jtor.py:Profile.pressure"]}
{"id": "C31", "title": "Profile constraint: total current and poloidal beta are met", "statement": "With ConstrainBetapIp, the current density returned by Jtor integrates to Ip and the poloidal beta formed from the resulting pressure and field integrals equals betap.", "quantifier": "all flux maps, masks, fields and parameters for which the normalisation integrals do not vanish", "why_tests_cant": "Universal over flux maps and parameters.", "anchors": ["freegs/jtor.py:ConstrainBetapIp.Jtor"]}
{"id": "C32", "title": "Current density is consistent with the flux functions", "statement": "Inside the plasma mask the Jtor returned by the profile classes equals R*pprime(psi_n) + ffprime(psi_n)/(mu0 R); outside the mask it is zero.", "quantifier": "all profiles, flux maps, masks and grid points", "why_tests_cant": "Universal over profiles and points.", "anchors": ["freegs/jtor.py:ConstrainPaxisIp", "freegs/jtor.py:ConstrainBetapIp", "freegs/jtor.py:ProfilesPprimeFfprime"]}
{"id": "C33", "title": "Profiles match the vacuum at the plasma edge", "statement": "pressure(1) = 0 and fpol(1) = fvac for every profile, and pressure at any normalised flux is the integral of pprime from there to the edge times (psi_axis - psi_bndry).", "quantifier": "all profiles and all fvac", "why_tests_cant": "Universal over profiles; sign of fvac matters.", "anchors": ["freegs/jtor.py:Profile.pressure", "freegs/jtor.py:Profile.fpol"]}
{"id": "C34", "title": "Linear solve satisfies the discrete Grad-Shafranov equation", "statement": "After Equilibrium.solve with the direct solver, plasma_psi satisfies the discrete equation Delta* psi = -mu0 R Jtor at every interior grid point and equals on the edge the values set by the boundary function.", "quantifier": "all grid sizes, current densities and boundary functions", "why_tests_cant": "Universal over grids and sources.", "anchors": ["freegs/equilibrium.py:Equilibrium.solve", "freegs/gradshafranov.py:GSsparse", "freegs/multigrid.py:MGDirect"]}
{"id": "C35", "title": "Second-order matrix agrees with the operator and obeys a maximum principle", "statement": "GSsparse applied to a flux array equals GSElliptic in the interior and the array itself on the edge; for Rmin >= 0 the equation A psi = b has at most one solution, and if the source is non-positive inside and the edge values are non-negative then psi is non-negative everywhere.", "quantifier": "all grid sizes, all domains with Rmin >= 0, all arrays", "why_tests_cant": "Invertibility and positivity for all grid sizes.", "anchors": ["freegs/gradshafranov.py:GSsparse", "freegs/gradshafranov.py:GSElliptic"]}
{"id": "C36", "title": "Fourth-order matrix is exact on low-degree polynomials", "statement": "GSsparse4thOrder reproduces Delta* exactly at every interior point for all polynomials of degree at most 4 in R and in Z, and keeps edge values, on every grid accepted by Equilibrium.", "quantifier": "all grid sizes and polynomials", "why_tests_cant": "Index wrap-around appears only for particular grid sizes; exactness is over all polynomials.", "anchors": ["freegs/gradshafranov.py:GSsparse4thOrder"]}
{"id": "C37", "title": "Boundary functions change exactly the edge", "statement": "fixedBoundary and freeBoundary change no interior value of psi and set every edge value (to zero, respectively to the integral of Greens function times current density); the free-boundary edge values are linear in Jtor and independent of the previous psi, and applying them twice is the same as once.", "quantifier": "all grid sizes, arrays and current densities", "why_tests_cant": "Universal over grid sizes and arrays.", "anchors": ["freegs/boundary.py:fixedBoundary", "freegs/boundary.py:freeBoundary"]}
{"id": "C38", "title": "von Hagenow edge derivative is exact to fourth degree and outward", "statement": "The one-sided differences used in freeBoundaryHagenow give the outward normal derivative exactly for all polynomials of degree at most 4 on all four sides.", "quantifier": "all polynomials of degree at most 4, all spacings and edge positions", "why_tests_cant": "Exactness over all polynomials.", "anchors": ["freegs/boundary.py:freeBoundaryHagenow"]}
{"id": "C39", "title": "Picard iteration returns only when converged and respects maxits", "statement": "picard.solve returns normally only if the last step met the flux and boundary tolerances (and is limited, if wait_for_limited); with positive maxits it performs at most maxits+1 linear solves and otherwise raises RuntimeError; the convergence lists returned have one entry per solve.", "quantifier": "all equilibria, profiles, constraint functions, tolerances and behaviours of the solver", "why_tests_cant": "Ranges over every possible behaviour of the inner solve.", "anchors": ["freegs/picard.py:solve"]}
{"id": "C40", "title": "Limited/diverted decision", "statement": "When limits are checked, the plasma boundary flux is the one of X-point and limiter that is closest to the axis, is_limited is reported exactly when the limiter sets it, and the limiter flux is the flux map evaluated at the limiter points.", "quantifier": "all flux maps, signs of current, grid shapes, limiter points and X-points", "why_tests_cant": "Sign, shape and transposition of the array matter only in special cases.", "anchors": ["freegs/equilibrium.py:Equilibrium._updateBoundaryPsi"]}
{"id": "C41", "title": "Multigrid leaves an exact solution unchanged", "statement": "For any number of levels, cycles and smoothing steps the solver built by createVcycle returns its starting guess unchanged if that guess already solves A x = b, and Jacobi smoothing leaves x unchanged only if it solves the equation.", "quantifier": "all levels, iteration counts, matrices with non-zero diagonal and right hand sides", "why_tests_cant": "Induction over levels; unbounded parameters.", "anchors": ["freegs/multigrid.py:createVcycle", "freegs/multigrid.py:MGJacobi", "freegs/multigrid.py:smoothJacobi"]}
{"id": "C42", "title": "Restriction and interpolation are consistent", "statement": "restrict undoes interpolate at all interior points; both are linear and map zero to zero; interpolate returns 2n-1 points per n; a constant interior field is restricted to the same constant (with and without avg).", "quantifier": "all grid sizes and arrays", "why_tests_cant": "Universal over grid sizes and arrays.", "anchors": ["freegs/multigrid.py:restrict", "freegs/multigrid.py:interpolate"]}
{"id": "C43", "title": "V-cycle grids fit together", "statement": "At each level of createVcycle the restricted array has exactly the size the next level's solver expects, and the recursion ends for every nx, ny, nlevels >= 1.", "quantifier": "all nx, ny, nlevels", "why_tests_cant": "Universal over sizes.", "anchors": ["freegs/multigrid.py:createVcycle", "freegs/multigrid.py:restrict", "freegs/multigrid.py:interpolate"]}
{"id": "C44", "title": "Changing resolution keeps the domain and settings", "statement": "refine and coarsen keep the domain limits, the boundary function and the order of the scheme, refine then coarsen restores grid size and interior flux, and newDomain keeps the resolution of the input unless told otherwise.", "quantifier": "all equilibria and grid sizes", "why_tests_cant": "Universal over grids; non-square grids and non-default settings matter.", "anchors": ["freegs/equilibrium.py:refine", "freegs/equilibrium.py:coarsen", "freegs/equilibrium.py:newDomain"]}
{"id": "C45", "title": "Power-of-two helpers", "statement": "isPow2(n) is true exactly for the powers of two and ceilPow2(x) is the smallest power of two not below x, so a grid resized by geqdsk.read has 2^k+1 points.", "quantifier": "all non-negative integers", "why_tests_cant": "All integers.", "anchors": ["freegs/geqdsk.py:isPow2", "freegs/geqdsk.py:ceilPow2"]}
{"id": "C46", "title": "G-EQDSK round trip of geometry and normalised flux", "statement": "The quantities written by geqdsk.write and interpreted by geqdsk.read restore the domain limits, vacuum f, plasma current, and the normalised flux at every grid point.", "quantifier": "all domains, flux maps with psi_axis != psi_bndry, non-zero R0", "why_tests_cant": "Universal over domains and maps.", "anchors": ["freegs/geqdsk.py:write", "freegs/geqdsk.py:read"]}
{"id": "C47", "title": "G-EQDSK round trip of profiles", "statement": "A profile written by geqdsk.write is assigned by geqdsk.read to the same normalised flux values.", "quantifier": "all profiles and grid sizes", "why_tests_cant": "Universal over profiles; the mismatch of endpoints shows only when comparing both sides.", "anchors": ["freegs/geqdsk.py:write", "freegs/geqdsk.py:read"]}
{"id": "C48", "title": "HDF5 round trip of coils", "statement": "Writing and reading restores every coil of a machine: position, outline, turns, current, control flag, circuit structure and multipliers, and area; machines with any supported coil type can be written.", "quantifier": "all machines", "why_tests_cant": "Universal over machines and coil kinds.", "anchors": ["freegs/dump.py:OutputFile.write_equilibrium", "freegs/dump.py:OutputFile.read_equilibrium", "freegs/coil.py:Coil.to_numpy_array", "freegs/machine.py:Circuit.to_numpy_array", "freegs/machine.py:Solenoid.to_numpy_array", "freegs/shaped_coil.py:ShapedCoil.to_numpy_array"]}
{"id": "C49", "title": "Shape parameters are mutually consistent", "statement": "aspectRatio*inverseAspectRatio = 1, elongation is the mean of upper and lower elongation, triangularity is the mean of upper and lower triangularity and lies in [-1,1], the geometric axis lies inside the bounding box of the separatrix, and all are unchanged by a vertical shift.", "quantifier": "all separatrix point lists with positive width", "why_tests_cant": "Universal over separatrices.", "anchors": ["freegs/equilibrium.py:Equilibrium.geometricAxis", "freegs/equilibrium.py:Equilibrium.minorRadius", "freegs/equilibrium.py:Equilibrium.elongation", "freegs/equilibrium.py:Equilibrium.triangularity"]}
{"id": "C50", "title": "A traced field line never restarts", "statement": "In the field line tracer, once a line has left the domain or hit the wall its evolution flag stays zero for all later evaluations and its position and length stop changing; tracing backward reverses the direction of motion but still increases length.", "quantifier": "all field lines, walls, and all sequences of evaluation points", "why_tests_cant": "Ranges over histories of evaluations.", "anchors": ["freegs/fieldtracer.py:FieldTracer"]}
{"id": "C51", "title": "Sensors report the enclosed current and respect their status", "statement": "A sensor with status False never changes its measurement; a Rogowski sensor without plasma reports the sum over all coils of enclosed fraction times total current (turns included); sensor readings are linear in the currents.", "quantifier": "all machines, sensors and currents", "why_tests_cant": "Universal over machines.", "anchors": ["freegs/machine.py:RogowskiSensor.get_measure", "freegs/machine.py:PoloidalFieldSensor.get_measure", "freegs/machine.py:FluxLoopSensor.get_measure", "freegs/machine.py:Sensor.get_measure"]}
{"id": "C52", "title": "Limiter points cover the wall", "statement": "Machine.generate_limit_points returns points that lie on the closed wall contour, at equal arc-length spacing, including the closing segment, and the limiter points always belong to the machine's current wall.", "quantifier": "all walls and numbers of points", "why_tests_cant": "Universal over walls.", "anchors": ["freegs/machine.py:Machine.generate_limit_points", "freegs/geqdsk.py:read"]}
{"id": "C53", "title": "MirroredCoil is an up-down pair carrying the requested current", "statement": "MirroredCoil(R, Z, current, ...) creates two coils at +Z and -Z with the given current and control flag.", "quantifier": "all R, Z, currents and flags", "why_tests_cant": "Universal over arguments.", "anchors": ["freegs/machine.py:MirroredCoil"]}
{"id": "C54", "title": "MultiCoil field is the sum over its turns", "statement": "MultiCoil responses equal the sum of single-turn responses of its turns with polarity; a single-point MultiCoil with n turns responds like a Coil with n turns; with mirror and polarity the response has the corresponding symmetry.", "quantifier": "all turn lists, polarities and points", "why_tests_cant": "Universal over turn lists.", "anchors": ["freegs/multi_coil.py:MultiCoil"]}
{"id": "C55", "title": "Midplane separatrix radii are bracketed", "statement": "innerOuterSeparatrix returns radii with Rin at most the axis grid radius and Rout at least it, each between the two neighbouring grid points where the normalised flux crosses one.", "quantifier": "all flux profiles along the row", "why_tests_cant": "Universal over profiles.", "anchors": ["freegs/equilibrium.py:Equilibrium.innerOuterSeparatrix"]}
{"id": "C56", "title": "G-EQDSK boundary contour is closed and keeps all points", "statement": "The boundary written by geqdsk.write is a closed contour (first point equals last) that visits every separatrix point once in reversed order, starting from the lowest point.", "quantifier": "all separatrix point lists", "why_tests_cant": "Universal over contours.", "anchors": ["freegs/geqdsk.py:write"]}
{"id": "C57", "title": "DivGeo output grid matches the domain", "statement": "The R and Z coordinates written by the DivGeo writer start at the lower and end at the upper domain limit in equal steps, and the written flux is relative to the boundary flux.", "quantifier": "all domains and grid sizes with at least two points", "why_tests_cant": "Universal over grids.", "anchors": ["freegs/_divgeo.py:write"]}
{"id": "C58", "title": "Solenoid behaves as equally spaced turns", "statement": "A Solenoid with Ns turns produces the sum of the fields of Ns single-turn coils, equally spaced from Zsmin to Zsmax inclusive, all carrying the solenoid current.", "quantifier": "all solenoids with at least two turns, all points", "why_tests_cant": "Universal over sizes.", "anchors": ["freegs/machine.py:Solenoid"]}
{"id": "C59", "title": "Filament coil is the average of its filaments and moves rigidly", "statement": "FilamentCoil responses are turns times the mean of the single filament responses, do not depend on the order of the filaments, and setting R or Z shifts every filament by the same amount.", "quantifier": "all filament lists, turns and displacements", "why_tests_cant": "Universal over filament lists.", "anchors": ["freegs/filament_coil.py:FilamentCoil"]}
{"id": "C60", "title": "Beta definitions combine harmonically", "statement": "totalBeta satisfies 1/totalBeta = 1/poloidalBeta + 1/toroidalBeta when both are non-zero.", "quantifier": "all values", "why_tests_cant": "Universal over values.", "anchors": ["freegs/equilibrium.py:Equilibrium.totalBeta"]}
{"id": "C61", "title": "pickUnique can return every allowed index", "statement": "For every N, m >= 1 and exclusion list e with m <= N-len(e), every index in 0..N-1 outside e is returned by optimiser.pickUnique(N, m, e) for some state of the random generator.", "quantifier": "all sizes, exclusion lists and random generator states", "why_tests_cant": "A test sees finitely many random draws, so it cannot tell an unreachable index from an unlucky one.", "anchors": ["freegs/optimiser.py: pickUnique"]}
{"id": "C62", "title": "Equilibrium flux reflects the present coils", "statement": "The coil part of Equilibrium.psi() equals Machine.psi evaluated on the grid, after any history of changing currents, control flags and coil positions.", "quantifier": "all machines with distinct labels, all histories of API calls, all points", "why_tests_cant": "The claim ranges over all histories; a test that never moves a coil after building the equilibrium cannot see a stale table.", "anchors": ["freegs/equilibrium.py:Equilibrium.psi", "freegs/equilibrium.py:Equilibrium.__init__", "freegs/machine.py:Machine.calcPsiFromGreens"]}
{"id": "C63", "title": "Moving a coil moves its field and its place", "statement": "Setting R or Z of any coil object displaces its flux and field responses and the fraction of it enclosed by a Rogowski loop by the same amount.", "quantifier": "all coil kinds, displacements, points and loops", "why_tests_cant": "Universal over coil kinds, shapes and displacements.", "anchors": ["freegs/coil.py:Coil.R", "freegs/shaped_coil.py:ShapedCoil.R", "freegs/filament_coil.py:FilamentCoil.R", "freegs/multi_coil.py:MultiCoil.R", "freegs/machine.py:RogowskiSensor.get_measure"]}
{"id": "C64", "title": "Optimiser measures of current and force", "statement": "optimise.max_abs_coil_current(eq) is the largest absolute current of any coil or circuit and optimise.max_coil_force(eq) is the largest force magnitude on any coil of the machine in the equilibrium.", "quantifier": "all machines and currents", "why_tests_cant": "Universal over machines, including those with circuits and solenoids.", "anchors": ["freegs/optimise.py:max_abs_coil_current", "freegs/optimise.py:max_coil_force"]}
{"id": "C65", "title": "Bounded flux-map fits keep the controlled currents within their limits", "statement": "If the bounded optimiser stays within the bounds whenever it is started inside them, then after ConstrainPsi2DAdvanced or ConstrainPsiNorm2DAdvanced each controlled coil's current lies between the two numbers of its limit, given in either order; start values outside are moved to the nearest limit; uncontrolled coils are untouched; the documented default arguments work.", "quantifier": "all machines, limits, targets, weights and optimisers that honour bounds", "why_tests_cant": "no finite set of limits and start values covers all orders, lengths and optimiser results", "anchors": ["freegs/control.py:ConstrainPsi2DAdvanced", "freegs/control.py:ConstrainPsiNorm2DAdvanced"]}
{"id": "C66", "title": "Shaped coil response is turns times the average over its outline", "statement": "The response of a ShapedCoil at a point is its number of turns times the quadrature average of the single-filament response over the outline.", "quantifier": "all outlines, quadrature orders and evaluation points", "why_tests_cant": "a test compares a few coils with a reference value and cannot show that no factor is lost for other outlines", "anchors": ["freegs/shaped_coil.py:ShapedCoil.controlPsi", "freegs/shaped_coil.py:ShapedCoil.controlBr", "freegs/shaped_coil.py:ShapedCoil.controlBz"]}
{"id": "C67", "title": "Greens is the flux of a circular current filament", "statement": "For source and observation radii above zero, Greens(Rc, Zc, R, Z) equals the poloidal flux per radian R*A_phi at (R, Z) of a circular filament of radius Rc at height Zc carrying one ampere, whenever its elliptic parameter is inside the clipping range; it is positive everywhere, also at the filament itself.", "quantifier": "all source and observation points with positive radius", "why_tests_cant": "An identity between a closed formula and an integral over all points of the plane.", "anchors": ["freegs/gradshafranov.py:Greens"]}
{"id": "C68", "title": "GreensBr and GreensBz are the Biot-Savart field", "statement": "GreensBr(Rc, Zc, R, Z) equals the radial Biot-Savart field of the filament at a point within eps of (R, Z), and GreensBz the vertical field at a radius rho within eps of R times rho/R, whenever no argument of Greens is clipped in between.", "quantifier": "all source and observation points and steps eps", "why_tests_cant": "The error of a finite difference over a continuum of points.", "anchors": ["freegs/gradshafranov.py:GreensBr", "freegs/gradshafranov.py:GreensBz"]}
{"id": "C69", "title": "A boundary flux given by the caller is used", "statement": "If the caller gives psi_bndry to solve (Equilibrium.solve or picard.solve), the profile uses this flux as the plasma boundary.", "quantifier": "all flux maps, profiles and given boundary fluxes", "why_tests_cant": "A test with one profile class and a boundary flux that happens to equal the X-point flux does not notice that the argument is ignored.", "anchors": ["freegs/jtor.py:ConstrainPaxisIp.Jtor", "freegs/jtor.py:ConstrainBetapIp.Jtor", "freegs/jtor.py:ProfilesPprimeFfprime.Jtor"]}
{"id": "C70", "title": "A linear solve leaves the equilibrium consistent with itself", "statement": "After eq.solve returns, the plasma flux solves the discrete Grad-Shafranov equation for the current density the equilibrium reports, its edge values are those of the boundary condition for that current density, the plasma current is the integral of that current density, and axis, boundary flux, limiter contact and core mask are those of the new total flux.", "quantifier": "All grids, profiles, given or computed current densities, boundary functions, and earlier states of the equilibrium", "why_tests_cant": "A test looks at a few equilibria with a tolerance; that every attribute was refreshed from the same flux, whatever state was left by earlier calls, is a statement about all histories.", "anchors": ["freegs/equilibrium.py:Equilibrium.solve", "freegs/equilibrium.py:Equilibrium._updateBoundaryPsi", "freegs/equilibrium.py:Equilibrium._updatePlasmaPsi"]}
{"id": "C71", "title": "A converged Picard iteration is a self-consistent equilibrium", "statement": "If picard.solve returns with a profile that fixes the axis pressure (or poloidal beta) and the plasma current, then the plasma flux solves the discrete Grad-Shafranov equation with p' and ff' evaluated on a flux map within the tolerance of the final one, the plasma current is the one asked for and so is the axis pressure (or poloidal beta).", "quantifier": "All starting states, coil controls, tolerances, blending factors and numbers of iterations", "why_tests_cant": "Convergence tests check a handful of runs; the statement combines the loop, the profiles, the linear solve and the boundary update for every run that returns.", "anchors": ["freegs/picard.py:solve", "freegs/equilibrium.py:Equilibrium.solve", "freegs/jtor.py:ConstrainPaxisIp.Jtor", "freegs/jtor.py:ConstrainBetapIp.Jtor"]}
{"id": "C72", "title": "The multigrid solver is linear", "statement": "The result of a solver made by createVcycle depends linearly on starting guess and right-hand side together, so the error of the result is what the solver makes of the error of the guess with right-hand side zero, whatever the right-hand side.", "quantifier": "all matrices, levels, cycles, smoothing steps, guesses, right-hand sides", "why_tests_cant": "Universal over arrays and recursion depth.", "anchors": ["freegs/multigrid.py:createVcycle", "freegs/multigrid.py:MGJacobi", "freegs/multigrid.py:MGDirect"]}
{"id": "C73", "title": "Jacobi iteration converges for the Grad-Shafranov matrix", "statement": "With setSolverVcycle(nlevels=1, direct=False) the error from any starting guess is reduced geometrically in the number of Jacobi steps, with a rate below one that depends only on the grid, so any accuracy is reached.", "quantifier": "all domains with Rmin >= 0, grids of at least 2 x 2 points, guesses, right-hand sides, step counts", "why_tests_cant": "A limit over unboundedly many iterations.", "anchors": ["freegs/multigrid.py:MGJacobi", "freegs/equilibrium.py:setSolverVcycle", "freegs/gradshafranov.py:GSsparse"]}
{"id": "C74", "title": "LaplaceSparse is the matrix of LaplacianOp", "statement": "The sparse matrix made by LaplaceSparse, applied to an array, gives what LaplacianOp gives inside and the array itself on the edge.", "quantifier": "all sizes of at least 2 x 2, lengths, arrays", "why_tests_cant": "Universal over sizes and arrays.", "anchors": ["freegs/multigrid.py:LaplaceSparse", "freegs/multigrid.py:LaplacianOp"]}
{"id": "C75", "title": "Reading a G-EQDSK file onto another domain", "statement": "geqdsk.read with the domain keyword solves on the domain asked for with a resolution as good as that of the file or better.", "quantifier": "all file sizes of at least 2 x 2, spacings and domains", "why_tests_cant": "Universal over domains and sizes.", "anchors": ["freegs/geqdsk.py:read"]}
{"id": "C76", "title": "Integrals over the plasma respect order", "statement": "plasmaVolume is never negative, positive once a point counts as plasma, at most the volume of the domain and equal to it without a mask, and grows with the mask; pressure_ave lies between any bounds of the pressure inside the plasma; betas, inductances and thermal energy are not negative when the pressure is not; values outside the plasma have no influence.", "quantifier": "all grids, masks with values in [0,1], fields and pressures", "why_tests_cant": "Depends on the sign of every Romberg weight on every grid size, which no finite set of grids settles.", "anchors": ["freegs/equilibrium.py:Equilibrium.plasmaVolume", "freegs/equilibrium.py:Equilibrium.pressure_ave", "freegs/equilibrium.py:Equilibrium.poloidalBeta", "freegs/equilibrium.py:Equilibrium.w_th"]}
{"id": "C77", "title": "Figures of merit agree with each other", "statement": "internalInductance equals internalInductance3; internalInductance1 and 2 differ from it by the documented elongation and radius factors; w_th is 3/2 of pressure_ave times plasmaVolume; qcyl, betaN and effectiveElongation follow from the radii; the definitions of the poloidal beta are mutually consistent.", "quantifier": "all equilibria", "why_tests_cant": "Relations between functions for all inputs.", "anchors": ["freegs/equilibrium.py:Equilibrium.internalInductance", "freegs/equilibrium.py:Equilibrium.internalInductance1", "freegs/equilibrium.py:Equilibrium.poloidalBeta3", "freegs/equilibrium.py:Equilibrium.qcyl", "freegs/equilibrium.py:Equilibrium.betaN"]}
{"id": "C78", "title": "Dimensionless figures of merit are dimensionless", "statement": "Multiplying all lengths by s and all magnetic fields by b (pressure by b^2, current and f by s b) leaves the betas, internal inductances, betaN, qcyl and effective elongation unchanged.", "quantifier": "all equilibria, all positive s and non-zero b", "why_tests_cant": "Universal over equilibria and scale factors.", "anchors": ["freegs/equilibrium.py:Equilibrium.poloidalBeta", "freegs/equilibrium.py:Equilibrium.poloidalBeta2", "freegs/equilibrium.py:Equilibrium.poloidalBeta3", "freegs/equilibrium.py:Equilibrium.toroidalBeta", "freegs/equilibrium.py:Equilibrium.betaN"]}
{"id": "C79", "title": "Toroidal flux", "statement": "tor_flux gives for each poloidal flux the toroidal flux enclosed: -1/(2 pi) times the integral of q from the axis, the same in whatever list the flux is given, growing outwards for positive q.", "quantifier": "all lists of flux values and all safety factor profiles", "why_tests_cant": "Universal over lists and profiles.", "anchors": ["freegs/equilibrium.py:Equilibrium.tor_flux"]}
{"id": "C80", "title": "Toroidal flux coordinate", "statement": "rhotor is 0 at the axis, 1 at the boundary, and increases in between, for either sign of the current and any list of flux values.", "quantifier": "all lists of flux values and positive safety factor profiles", "why_tests_cant": "Universal over lists and profiles.", "anchors": ["freegs/equilibrium.py:Equilibrium.rhotor"]}
{"id": "C81", "title": "HDF5 round trip of settings", "statement": "Writing an equilibrium to HDF5 and reading it gives an equilibrium with the same domain, number of points, plasma flux, plasma current, boundary condition, order of the solver, limiter check, wall, sensors and reference radius; writing does not change the equilibrium.", "quantifier": "all equilibria and machines", "why_tests_cant": "Ranges over all settings of an equilibrium; tests compare one configuration.", "anchors": ["freegs/dump.py:OutputFile.write_equilibrium", "freegs/dump.py:OutputFile.read_equilibrium", "freegs/equilibrium.py:Equilibrium.__init__"]}
{"id": "C82", "title": "Wall test of the field line tracer", "statement": "In the field line tracer a position is treated as outside exactly if it lies outside the wall polygon, whatever the number of wall points and their sense.", "quantifier": "all walls, domain middles and positions", "why_tests_cant": "Ranges over all polygons and points; degenerate lines of sight are never hit by tests.", "anchors": ["freegs/fieldtracer.py:FieldTracer.wallDomain"]}
{"id": "C83", "title": "Starting points of traced lines", "statement": "traceFieldLines starts the given number of lines evenly spaced across the given width outside the separatrix, none of them on or inside it.", "quantifier": "all widths, positions and numbers of lines", "why_tests_cant": "Holds for every number of lines.", "anchors": ["freegs/fieldtracer.py:traceFieldLines"]}
{"id": "C84", "title": "Separatrix points lie on the last closed flux surface", "statement": "eq.separatrix(ntheta) returns ntheta points in order round the magnetic axis, equally spaced in poloidal angle, inside the domain, each on the surface of the boundary flux up to the search resolution, and none in the direction of the X-point.", "quantifier": "all equilibria, boundary fluxes, critical points and numbers of points", "why_tests_cant": "The accuracy must hold for every continuous flux map; the angle comparison fails only for a thin range of X-point positions.", "anchors": ["freegs/critical.py:find_separatrix", "freegs/equilibrium.py:Equilibrium.separatrix"]}
{"id": "C85", "title": "Safety factor is the field line pitch integral", "statement": "find_safety returns, for each normalised flux, the line integral of f/(R^2 Bp) round the flux surface of that normalised flux divided by 2 pi, up to an error that vanishes with the number of poloidal points; it has the sign of f and scales with the field ratio.", "quantifier": "all equilibria, flux values and numbers of poloidal points", "why_tests_cant": "A limit statement about all resolutions and all flux maps.", "anchors": ["freegs/critical.py:find_safety"]}
{"id": "C86", "title": "q profile values do not depend on which other values are asked for", "statement": "eq.q(psinorm) returns at each position the value that q returns for that value alone, for scalars, lists and arrays; without argument npsi equally spaced values strictly inside the plasma.", "quantifier": "all equilibria, interpolations and lists of normalised flux", "why_tests_cant": "Ranges over all arrays, including mixtures of ordinary and near-edge values.", "anchors": ["freegs/equilibrium.py:Equilibrium.q"]}
{"id": "C87", "title": "Shafranov shift joins the geometric and the magnetic axis", "statement": "eq.shafranovShift(npoints) added to eq.geometricAxis(npoints) is the magnetic axis.", "quantifier": "all separatrices, axes and numbers of points", "why_tests_cant": "For all equilibria and point counts.", "anchors": ["freegs/equilibrium.py:Equilibrium.shafranovShift"]}
{"id": "C88", "title": "Normalised flux fits minimise a function of the coil currents alone", "statement": "The differences that ConstrainPsiNorm2D and ConstrainPsiNorm2DAdvanced minimise depend only on the currents tried, vanish exactly when the normalised flux equals the target wherever the weight is not zero, and do not change when all fluxes are scaled and shifted; after the fit the stored axis and boundary flux belong to the final currents.", "quantifier": "all equilibria, targets, weights, coil systems and terminating optimisers", "why_tests_cant": "The value must not depend on the history of trials of an adaptive optimiser; ranges over all optimisers.", "anchors": ["freegs/control.py:ConstrainPsiNorm2D", "freegs/control.py:ConstrainPsiNorm2DAdvanced", "freegs/equilibrium.py:Equilibrium._updateBoundaryPsi"]}
{"id": "C89", "title": "A coil outline is filled with filaments inside it", "statement": "FilamentCoil(shape=..., Nfils=N) ends and places filaments inside the outline only, no two at the same place.", "quantifier": "all outlines with an area, numbers of filaments", "why_tests_cant": "Termination of a loop over ever finer grids for all outlines.", "anchors": ["freegs/filament_coil.py:populate_with_fils"]}
{"id": "C90", "title": "Critical points do not depend on offset, height, sign or scale of the flux", "statement": "Adding a constant to the flux, moving grid and flux vertically, reversing the sign of the flux or multiplying it by a positive number does not change which O- and X-points find_critical returns, nor their order; the flux of each point changes accordingly.", "quantifier": "all grids, fluxes, splines, constants, shifts and scale factors", "why_tests_cant": "A test compares a few fluxes; independence of the units needs all scale factors, including those that take the field below the fixed tolerance of the null test.", "anchors": ["freegs/critical.py:find_critical"]}
{"id": "C91", "title": "Every field null away from the edge is found", "statement": "Every point of the domain at which the poloidal field vanishes, at least two grid points away from the edge, is returned by find_critical as an O-point or, without discarding, as an X-point, unless it is a duplicate.", "quantifier": "all grids, fluxes with isolated nulls, positions of nulls", "why_tests_cant": "Tests place nulls at convenient places; whether a null is found depends on where it falls between the grid points.", "anchors": ["freegs/critical.py:find_critical"]}
{"id": "C92", "title": "The direct solve converges to the true solution at second order", "statement": "With the second-order solver, the flux found by Equilibrium.solve for a current density Jtor differs from any smooth solution of the Grad-Shafranov equation on the domain by at most the error of the boundary values plus (Zmax-Zmin)^2/8 times (mu0 Rmax times the error of Jtor plus a constant times dR^2 plus a constant times dZ^2), at every grid point and on every grid; refining the grid makes the error smaller than any tolerance; and no right-hand side or boundary value is amplified by more than 1 and (Zmax-Zmin)^2/8 respectively, whatever the resolution.", "quantifier": "Every domain with Rmin>0 (Rmin>=0 for stability), every grid size, every flux with four bounded derivatives, every error in the current density and in the boundary values.", "why_tests_cant": "A test compares a few resolutions of one analytic solution; a bound with explicit constants for every smooth solution, and no growth of the amplification with resolution, needs the maximum principle and Taylor's theorem.", "anchors": ["freegs/equilibrium.py:Equilibrium.solve", "freegs/gradshafranov.py:GSsparse", "freegs/multigrid.py:MGDirect"]}
{"id": "C93", "title": "Up-down symmetric input gives an up-down symmetric equilibrium", "statement": "If the coils give a flux that is the same above and below the middle of the domain, the initial plasma flux is symmetric, the control system keeps the coils symmetric, and in every flux given to a linear solve the magnetic axis lies at the middle height and the X-points come in mirrored pairs, then the equilibrium that picard.solve returns has a symmetric flux and a symmetric current density, after any number of steps; this holds for the direct solver of either order, for fixed, free and von Hagenow boundaries and for all three kinds of profiles. Without the condition on the axis, or if an X-point lies exactly halfway between two grid rows, the core mask of a symmetric flux need not be symmetric.", "quantifier": "Every grid with an odd number of rows, every symmetric set of coils, every profile, every number of Picard steps.", "why_tests_cant": "A test runs one symmetric machine to rounding error; that no step of any length of iteration can break the symmetry needs invariance of every part of the calculation.", "anchors": ["freegs/picard.py:solve", "freegs/equilibrium.py:Equilibrium.solve", "freegs/boundary.py:freeBoundary", "freegs/boundary.py:freeBoundaryHagenow", "freegs/critical.py:core_mask", "freegs/gradshafranov.py:GSsparse", "freegs/gradshafranov.py:GSsparse4thOrder", "freegs/jtor.py"]}
{"id": "C94", "title": "Predefined machines can be made, have distinct labels and are symmetric", "statement": "Every predefined machine (EmptyTokamak, TestTokamak, DIIID, MAST, MAST_sym, MASTU_simple, MASTU, TCV) can be made without an exception, and its coils have distinct labels, also within each circuit. In the machines built up-down symmetric (all but DIIID; in TCV with no current in T1, T2, T3, which exist only below), equal currents in upper and lower coils give a flux that is the same above and below the midplane, whatever the currents are; the circuits for vertical control (P6; P61 and P62) give a flux of opposite sign above and below.", "quantifier": "Every predefined machine, every set of currents, every point, every Green's function with mirror symmetry.", "why_tests_cant": "A test evaluates the flux for some currents at some points to a tolerance; the tables have hundreds of entries and the claim is exact for all currents and points.", "anchors": ["freegs/machine.py:TestTokamak", "freegs/machine.py:DIIID", "freegs/machine.py:MAST", "freegs/machine.py:MAST_sym", "freegs/machine.py:MASTU_simple", "freegs/machine.py:MASTU", "freegs/machine.py:EmptyTokamak", "freegs/shaped_coil.py:ShapedCoil", "freegs/filament_coil.py:FilamentCoil", "freegs/machine.py:TCV"]}
{"id": "C95", "title": "Comparison of machines", "statement": "machine == other is an equivalence that does not depend on the order of the coils; two equal machines give the same flux, field and forces; a machine read back from a file is equal to the one that was written; comparing two machines never raises an exception.", "quantifier": "Every pair of machines, every number of coils of every class, every wall.", "why_tests_cant": "A test compares one machine with its copy; that equality is symmetric, that it implies equal fields and that no pair of machines makes it raise are statements about all pairs.", "anchors": ["freegs/machine.py:Machine.__eq__", "freegs/machine.py:Circuit.__eq__", "freegs/machine.py:Solenoid.__eq__", "freegs/machine.py:Wall.__eq__", "freegs/coil.py:Coil.__eq__", "freegs/multi_coil.py:MultiCoil.__eq__", "freegs/shaped_coil.py:ShapedCoil.__eq__"]}
{"id": "C96", "title": "The field of the coils obeys the vacuum field equations", "statement": "The flux, radial and vertical field of a machine (Machine.psi, Br, Bz) are sums over the same filaments with the same currents. The field derives from the flux (R Br = -dpsi/dZ, R Bz = dpsi/dR, as central differences over a millimetre), has no divergence, and where no filament is within the clipping distance of Greens the flux satisfies the Grad-Shafranov equation without current.", "quantifier": "Every machine of coils, circuits and solenoids, every set of currents, every point.", "why_tests_cant": "A test compares the field with a difference of the flux at some points of one machine, to a tolerance; that the coils add no current anywhere in the domain is a statement about derivatives at all points.", "anchors": ["freegs/machine.py:Machine.psi", "freegs/machine.py:Machine.Br", "freegs/machine.py:Machine.Bz", "freegs/coil.py:Coil.controlPsi", "freegs/multi_coil.py:MultiCoil.controlPsi", "freegs/machine.py:Solenoid.controlPsi", "freegs/gradshafranov.py:Greens"]}
{"id": "C97", "title": "The field of an equilibrium belongs to its flux", "statement": "After a solve, psiRZ agrees with psi() at the grid points; psiN is 0 on the magnetic axis and 1 at the plasma boundary; Br and Bz are the derivatives of psiRZ; Btor is fpol(psiN)/R in the plasma and fvac()/R outside, and lies between the two near the boundary; Bpol and Btot are the lengths of the field vector. All of these can be asked of every equilibrium that was solved.", "quantifier": "Every equilibrium, every profile, every point.", "why_tests_cant": "A test compares field and flux at a few points of one equilibrium; the error of the field depends on the distance to every coil and the interpolated mask is wrong only between certain grid points.", "anchors": ["freegs/equilibrium.py:Equilibrium.Br", "freegs/equilibrium.py:Equilibrium.Bz", "freegs/equilibrium.py:Equilibrium.Bpol", "freegs/equilibrium.py:Equilibrium.Btor", "freegs/equilibrium.py:Equilibrium.Btot", "freegs/equilibrium.py:Equilibrium.psiN", "freegs/equilibrium.py:Equilibrium.psiNRZ", "freegs/equilibrium.py:Equilibrium.psiRZ"]}
{"id": "C98", "title": "Equilibria are in force balance", "statement": "At every grid point in the plasma, the toroidal current density of a profile object, its pressure and its toroidal field balance: J x B = grad p, whatever flux function has the values of the flux array; outside the plasma there is no current. With a flux that solves the Grad-Shafranov equation, J is also the current of the poloidal field.", "quantifier": "Every flux array, every profile class and parameter, every grid point, every differentiable flux function through the array.", "why_tests_cant": "A test can check a force balance residual on one grid to a tolerance that mixes it with the error of the discretisation; the relation between current density, pressure and toroidal field is exact and for all profiles.", "anchors": ["freegs/jtor.py:ConstrainPaxisIp.Jtor", "freegs/jtor.py:ConstrainBetapIp.Jtor", "freegs/jtor.py:ProfilesPprimeFfprime.Jtor", "freegs/jtor.py:Profile.pressure", "freegs/jtor.py:Profile.fpol"]}
{"id": "C99", "title": "Multiplying all currents multiplies the equilibrium", "statement": "If the currents of all coils, the plasma current, the vacuum field, the starting flux, any given boundary flux and the absolute tolerance are multiplied by the same number, every quantity of the calculated equilibrium with the dimension of a flux, field or current is multiplied by that number, pressures by its square, and positions, masks, flags and number of iterations are the same; the control system makes the multiplied changes. In particular reversal of all currents reverses the equilibrium.", "quantifier": "all machines, grids, profiles, options, starting fluxes, control requests and factors k (k = -1 for the whole calculation with the real search for critical points)", "why_tests_cant": "relates two runs for every input; the symmetry has to survive every branch of search, mask, profiles, boundary, solver, control and convergence test", "anchors": ["freegs/picard.py::solve", "freegs/equilibrium.py::Equilibrium.solve, Equilibrium._updateBoundaryPsi", "freegs/jtor.py::ConstrainPaxisIp.Jtor, ConstrainBetapIp.Jtor, ProfilesPprimeFfprime.Jtor", "freegs/control.py::constrain.__call__", "freegs/critical.py::find_critical, core_mask", "freegs/boundary.py"]}
{"id": "C100", "title": "A plasma that leaves the wall is reported", "statement": "intersectsWall is True exactly if the plasma boundary crosses the wall, so a plasma that is not wholly inside the wall is reported and an optimiser using no_wall_intersection rejects it; limited plasmas and machines without a wall get an answer too.", "quantifier": "all separatrices, wall polygons (convex or not) and their relative positions", "why_tests_cant": "Ranges over all pairs of polygons; crossings at corners and short sides are measure-zero or machine-specific cases no test hits.", "anchors": ["freegs/equilibrium.py:Equilibrium.intersectsWall", "freegs/optimise.py:no_wall_intersection", "freegs/polygons.py:intersect"]}
{"id": "C101", "title": "Traced field lines lie on flux surfaces", "statement": "An exact solution of the equations given to the integrator keeps its poloidal flux up to the error of the coil fields, is tangent to the magnetic field (along it forward, against it backward), its length is its length in space, its toroidal angle is the safety factor integral over the poloidal path, and following it backward returns to the start along the same path.", "quantifier": "all equilibria, starting points, angles and field lines away from the coils", "why_tests_cant": "Statements about all solutions of a differential equation and all fields; tests follow single lines.", "anchors": ["freegs/fieldtracer.py:FieldTracer.fieldDirection", "freegs/fieldtracer.py:FieldTracer.follow", "freegs/equilibrium.py:Equilibrium.psiRZ"]}
{"id": "C102", "title": "The height of the machine does not matter", "statement": "If the coils, the wall, the computational domain and all requested X-points, isoflux points and flux values are raised by the same distance, the calculation takes the same steps and ends with the same flux, currents, current density and core mask, with all positions raised by that distance.", "quantifier": "every machine of point, shaped, filament and unmirrored multi coils, circuits and solenoids, every distance, every domain, every kind of profile, boundary condition, control request, optimiser and starting state", "why_tests_cant": "The invariance is a statement about every arrangement and every distance; a test compares two heights of one machine, and the existing code breaks the invariance only with a limiter and an X-point at particular heights.", "anchors": ["freegs/equilibrium.py:Equilibrium.solve", "freegs/equilibrium.py:Equilibrium._updateBoundaryPsi", "freegs/picard.py:solve", "freegs/control.py:constrain", "freegs/machine.py:Machine", "freegs/boundary.py", "freegs/critical.py"]}
{"id": "C103", "title": "Reading a G-EQDSK file returns the equilibrium the file describes, on the file's grid and within the bounds given", "statement": "If geqdsk.read returns an equilibrium, it lies on the domain of the file with the file's grid sizes or the next larger ones of the form 2^n + 1, uses the profiles of the file, and has the given machine with nothing changed but the controlled currents, the reference radius and the wall taken from the file; with current_bounds the controlled currents are within them. It satisfies the discrete Grad-Shafranov equation with the profile functions of the file up to the tolerance of the iteration, which ends after at most maxits + 1 linear solves. A file that describes an equilibrium of the machine exactly is read as that equilibrium, whatever currents the coils carried before and whether the plasma is limited or not.", "quantifier": "All files, machines, arguments, profile functions, optimisers (as strategies that choose the next currents from all answers so far), solvers and critical-point routines; any number of iterations", "why_tests_cant": "Tests read one or two files with one machine and compare a few numbers loosely; they cannot cover all profiles, currents before, optimiser paths and numbers of iterations", "anchors": ["freegs/geqdsk.py:read", "freegs/control.py:ConstrainPsi2D", "freegs/control.py:ConstrainPsiNorm2D", "freegs/control.py:ConstrainPsiNorm2DAdvanced", "freegs/picard.py:solve", "freegs/equilibrium.py:Equilibrium.solve"]}
{"id": "C104", "title": "Picard iteration converges under a contraction", "statement": "If one step of the Picard iteration reduces some distance from a solution by a factor below one, picard.solve returns, within a number of linear solves that is known in advance from the factor, the distance at the start and atol; if the linear solve brings any two flux maps closer by a factor q below one, there is exactly one self-consistent flux for the coil currents and the flux that is returned differs from it by at most q/(1-q) times the last entry of the convergence list. For an equilibrium on a grid this is so when (g + height^2/8 mu0 Rmax) times the slope of the current density is below one, g being the slope of the edge values; with the default fourth-order solver the two terms have other, explicit constants, and for the free boundary g is the area of the domain times the largest Green's function. Without such a condition and without maxits the call need not come back; blending can mend that.", "quantifier": "all equilibria, profiles, coil currents, initial fluxes, tolerances, blends, grid sizes and domains", "why_tests_cant": "a test runs one equilibrium from one start and sees one number of iterations; that every start comes back, with an error bound, is a statement about all of them", "anchors": ["freegs/picard.py:solve", "freegs/equilibrium.py:Equilibrium.solve"]}
{"id": "C105", "title": "Optimising an equilibrium only accepts converged solutions", "statement": "In optimise.optimise(eq, controls, measure, ...) every candidate in every population that the monitor sees has either an infinite score or is an equilibrium that picard.solve returned as converged (last change below 1e-10 or a thousandth of the flux range), scored by the user's measure; a candidate whose solve or measure raised an exception never takes the place of another one; and the equilibrium that is returned was solved and measured exactly if all candidates of the first population could be solved or any candidate was replaced in a later generation.", "quantifier": "Every equilibrium, every control list, measure, population size, number of generations and random stream, and every way the solves may fail", "why_tests_cant": "The outcome depends on random candidates, on which of their solves fail, and on the whole history of the population", "anchors": ["freegs/optimise.py:optimise", "freegs/optimiser.py:optimise", "freegs/picard.py:solve"]}
{"id": "C106", "title": "Taking the measurements of a machine", "statement": "machine.takeMeasurements(eq) sets the measurement of every sensor that is on to its reading of the coil currents and the plasma, whatever the other sensors, their order and earlier measurements; sensors that are off are left alone; the coil currents, control flags and responses of the machine do not change; and printMeasurements prints every sensor. Sensors are equal only if they measure the same thing.", "quantifier": "Every machine, every list of sensors of any class, with or without plasma", "why_tests_cant": "Sensors, their order, status and the coils of the machine vary without bound, and the field evaluation writes coil currents inside circuits", "anchors": ["freegs/machine.py:Machine.takeMeasurements", "freegs/machine.py:Machine.printMeasurements", "freegs/machine.py:Sensor.__eq__", "freegs/machine.py:Sensor.__init__"]}
{"id": "C107", "title": "The default fourth-order solve is well posed and converges", "statement": "With the default settings (fourth-order matrix, direct solver), on every grid with at least nine points each way whose inner edge is at least two grid steps from the axis: the linear system has exactly one solution for every right-hand side; with zero edge values the root mean square of the flux is at most twice the squared height of the domain times the root mean square of the source; and if the edge values and the current density are those of a solution of the Grad-Shafranov equation with bounded fifth and sixth derivatives, the root-mean-square error shrinks with the fourth power of the grid steps and the largest error tends to zero as the grid is refined.", "quantifier": "all domains, grid sizes, right-hand sides, smooth exact solutions and current densities within a tolerance", "why_tests_cant": "A test solves a few sizes for one analytic solution; it cannot show that no grid size gives a singular or badly conditioned matrix, nor bound the error for every smooth solution.", "anchors": ["freegs/gradshafranov.py: GSsparse4thOrder", "freegs/multigrid.py: MGDirect", "freegs/equilibrium.py: Equilibrium.solve"]}
{"id": "C108", "title": "Circuits may contain solenoids and circuits", "statement": "The members of a circuit may be coils, solenoids and circuits, to any depth. Its field is its current times the weighted sum of the fields of its coils and solenoids at unit current, the weight being the product of the multipliers; its response for control is the same sum. Assigning its current or reading its field sets every coil and solenoid to weight times current, so that currents assigned to members are lost; assigning the control flag reaches all members. The flux from a table of Green's functions equals the flux.", "quantifier": "Every nested circuit, every current, every point, every Green's function, every machine of such circuits.", "why_tests_cant": "A test builds a circuit of one shape; the claim is an induction over all nestings.", "anchors": ["freegs/machine.py:Circuit", "freegs/machine.py:Solenoid", "freegs/machine.py:TCV", "freegs/machine.py:Machine"]}
{"id": "C109", "title": "Integrals over the grid are exact for polynomials and converge", "statement": "Plasma current, volume, edge flux and the integrals in the figures of merit are repeated Romberg sums over the grid times the spacings. On 2^k+1 by 2^l+1 points they are exact for polynomials of degree up to 2k+1 in the radius and 2l+1 in the height; for continuous functions the error is at most twice the area times the distance to the nearest such polynomial; for functions with 2r+2 bounded derivatives the error is of order 2r+2 in the spacing, for every r up to k; under refinement they converge to the integral for every function integrable in the sense of Riemann, also with a jump at the plasma edge.", "quantifier": "Every rectangle, every polynomial of these degrees, every Riemann integrable density, every sequence of refined grids.", "why_tests_cant": "A test compares a few densities on a few grids to a tolerance; exactness and convergence are for all densities and all refinements.", "anchors": ["freegs/equilibrium.py:Equilibrium.solve", "freegs/equilibrium.py:Equilibrium.plasmaVolume", "freegs/boundary.py:freeBoundary", "freegs/jtor.py:ConstrainPaxisIp.Jtor"]}
{"id": "C110", "title": "The free-boundary solve converges to the flux of the current density", "statement": "Take a current density that vanishes on the edge of the domain, and the solution F of the Grad-Shafranov equation for it whose edge values are the flux of this current by Green's function. The plasma flux which the free boundary condition and the solver calculate from the values of the current density on the grid converges to F as the grid is refined: uniformly with the second-order solver, in root mean square with the default fourth-order solver. If the integrand is smooth in the source too, the default solve is accurate to fourth order in the spacing. With the Green's function of the code the edge values are those of the law of Biot and Savart if the current keeps away from the edge.", "quantifier": "all domains with positive inner radius, all smooth solutions and current densities, all continuous Green's functions, all tolerances, all sufficiently fine grids of 2^k+1 by 2^l+1 points, all exact sparse solvers", "why_tests_cant": "A test compares two resolutions for one plasma and one tolerance; that the limit exists and is the flux of this current, however the grid is refined, is a statement about infinitely many grids and all plasmas.", "anchors": ["freegs/boundary.py: freeBoundary", "freegs/equilibrium.py: Equilibrium.solve", "freegs/multigrid.py: MGDirect", "freegs/gradshafranov.py: GSsparse, GSsparse4thOrder, Greens"]}
{"id": "C111", "title": "Von Hagenow's boundary condition gives the flux of the plasma current one centimetre outside the edge", "statement": "With freeBoundaryHagenow (hagenow=True), the flux values set on the edge of the domain converge under refinement, uniformly over the edge, to the flux of the toroidal current density by the law of Biot and Savart at the places one centimetre outside the edge; values inside the domain are not changed. A free-boundary solve with this condition comes within any tolerance of the true flux, above the change of the flux over that centimetre.", "quantifier": "every rectangular domain from two centimetres off the axis, at most a hundred metres wide and high; every current density for which the fixed-boundary problem has a smooth solution; every grid of 2^k+1 by 2^l+1 points from some size on; every initial flux and every factorisation", "why_tests_cant": "Tests compare a few grids and a few profiles; the claim is a limit over all grids, uniform over the edge, for all current densities.", "anchors": ["freegs/boundary.py:freeBoundaryHagenow", "freegs/gradshafranov.py:Greens", "freegs/gradshafranov.py:GSsparse", "freegs/equilibrium.py:Equilibrium.solve"]}
{"id": "C112", "title": "A filament coil given without an outline is the box around its filaments", "statement": "FilamentCoil(Rfil, Zfil) without a shape is drawn as the smallest box around its filaments and has the area of this box, its position is the middle of the box, moving it moves outline and filaments together, and lists of different lengths are refused.", "quantifier": "all lists of radii and heights, currents and numbers of turns", "why_tests_cant": "Universal over filament lists; the position enters optimisation and the movement of the coil.", "anchors": ["freegs/filament_coil.py:FilamentCoil"]}
{"id": "C113", "title": "A fit to a flux map leaves the currents of the closest flux in the machine", "statement": "Let the minimiser used by ConstrainPsi2D return the least sum of squares of what it is given. After the constraint has been called, the flux (coils and plasma), less its weighted mean, is at least as close to the target, less its mean, as with any other currents in the controlled coils; the currents in the machine are those found, not added to the old ones; nothing else in the machine changes. If some currents give the target up to a constant, the flux afterwards is the target plus a constant wherever the weight is not zero. ConstrainPsi2DAdvanced does the same among the currents within its limits. Constant offsets are ignored in the best way: no constant and no currents come closer to the target.", "quantifier": "every target, weight array, grid, machine and controlled currents, every minimiser that returns a minimum", "why_tests_cant": "tests fit one target with one machine; that no other currents are closer is a statement about all currents", "anchors": ["freegs/control.py ConstrainPsi2D.__call__", "freegs/control.py ConstrainPsi2D.psi_difference", "freegs/control.py ConstrainPsi2DAdvanced.__call__"]}
{"id": "C114", "title": "Coil control does not depend on the order of requests and coils", "statement": "Calling constrain with the X-points, isoflux pairs and flux values listed in another order, or with an isoflux pair written the other way round, has exactly the same outcome. With gamma other than zero and an optimiser that solves its problem, listing the coils of the machine in another order (together with their limits) leaves every coil with the same current, and the call succeeds in one order if it succeeds in the other.", "quantifier": "every machine, plasma, set of requests, limits, total current, every reordering of them; every optimiser for the requests, every optimiser that finds the minimum for the coils", "why_tests_cant": "tests use one order; that no order matters is a statement about all permutations", "anchors": ["freegs/control.py constrain.__call__", "freegs/machine.py Machine.controlAdjust"]}
{"id": "C115", "title": "Ampère's law for the field of a machine", "statement": "The line integral of the poloidal magnetic field about any rectangle in the R-Z plane whose sides keep clear of the filaments of the machine is mu0 times the sum of the currents of the filaments that pass through it, with the current in the direction of the toroidal angle positive. For the field derived from the reported flux this is exact; for the field that the machine reports by Br and Bz, which takes differences over a millimetre, the deviation is bounded by the error of the difference times the length of the way.", "quantifier": "every machine of coils, circuits and solenoids that compute their field from Green's functions, all currents and turns, every rectangle at positive radius that keeps clear of the filaments", "why_tests_cant": "a test can integrate along a few rectangles for a few machines, and only numerically; the law is a statement on elliptic integrals for every filament position and every rectangle", "anchors": ["freegs/machine.py: Machine.psi, Machine.Br, Machine.Bz, Circuit, Solenoid", "freegs/coil.py: Coil.controlPsi, Coil.controlBr, Coil.controlBz", "freegs/gradshafranov.py: Greens, GreensBr, GreensBz"]}
{"id": "C116", "title": "A free-boundary solve gives the flux in unbounded space", "statement": "For a plasma whose current flows within the computational domain there is only one flux that satisfies the Grad-Shafranov equation in all space, vanishes on the axis and has no field at infinity. Under refinement a free-boundary solve converges to this flux, so the edge of the domain has no influence on the limit; with the default solver and a current density with four continuous derivatives the error is of fourth order in the spacing. With von Hagenow's condition it converges to within a fiftieth of the greatest derivative of the flux within a centimetre of the edge, since the values are taken one centimetre outside.", "quantifier": "every domain, every current density within it that keeps clear of the edge, every flux with bounded fourth derivatives in the domain, every tolerance", "why_tests_cant": "a test compares a few domains with each other; that the limit is the solution in unbounded space, for every plasma, is a statement about a limit and about infinitely many points", "anchors": ["freegs/boundary.py: freeBoundary, freeBoundaryHagenow", "freegs/gradshafranov.py: Greens", "freegs/equilibrium.py: Equilibrium.solve"]}
{"id": "C117", "title": "A coil converted to a record and back is the same coil", "statement": "For every coil class, the record that to_numpy_array returns contains what is needed to make the coil again, and from_numpy_array of the same class makes an equal coil from it; the other classes refuse the record.", "quantifier": "all coils of the classes Coil, ShapedCoil, FilamentCoil, MultiCoil and PreCalcCoil, with any positions, outlines, numbers of filaments, turns and currents", "why_tests_cant": "A test converts a few coils of the classes someone thought of; the statement is about every coil of every class, and the classes which inherit their conversions are the ones left out.", "anchors": ["freegs/coil.py:Coil.to_numpy_array", "freegs/coil.py:Coil.from_numpy_array", "freegs/shaped_coil.py:ShapedCoil.to_numpy_array", "freegs/multi_coil.py:MultiCoil.to_numpy_array", "freegs/multi_coil.py:MultiCoil.from_numpy_array", "freegs/pre_calc_coil.py:PreCalcCoil.to_numpy_array", "freegs/filament_coil.py:FilamentCoil"]}
{"id": "C118", "title": "Traced field lines start where they should and stay apart", "statement": "Each line that FieldTracer.follow returns is the field line through its own start, with one row for each angle and the start with length zero in the first row, whatever the number and arrangement of the starts; traceFieldLines returns lines in both directions from equally spaced starts just outside the plasma edge at the height of the axis.", "quantifier": "all equilibria, arrays of starts of any shape, numbers of lines, points and turns, widths, flux maps, and integrators that return the start first (exact integrators for the lines)", "why_tests_cant": "A test follows a few lines in one equilibrium. That no two lines get mixed up in the flat vector handed to the integrator, and that the starts are outside the plasma, has to hold for every number of lines and every flux map.", "anchors": ["freegs/fieldtracer.py:FieldTracer.follow", "freegs/fieldtracer.py:FieldTracer.fieldDirection", "freegs/fieldtracer.py:traceFieldLines", "freegs/fieldtracer.py:LineCoordinates"]}
{"id": "C119", "title": "The same arrangement in another size", "statement": "With all lengths (coils, wall, grid, requested places, reference radius) multiplied by l > 0 and all currents the same, an equilibrium calculation ends after the same number of steps with the flux multiplied by l, the current density and the pressure divided by l^2, p' divided by l^3, f f' divided by l, the same f, the same core mask, and the same coil currents from the control system when its requested fluxes and its regularisation are multiplied by l; the operator, the free boundary, the profiles, the linear solve and the Picard iteration scale one by one.", "quantifier": "all machines without tables of fields, grids, splines that scale, profiles of the three kinds, requests, start fluxes, numbers of steps and all l > 0", "why_tests_cant": "A test compares a few sizes and a few machines; the absolute numbers in the code (1 cm, 1 mT, the step of the difference in the field) matter only for some sizes, and the absence of all other absolute numbers has to be shown for every input.", "anchors": ["freegs/gradshafranov.py: Greens, GreensBr, GreensBz, GSsparse, GSsparse4thOrder", "freegs/boundary.py: freeBoundary, freeBoundaryHagenow", "freegs/critical.py: find_critical, core_mask", "freegs/jtor.py: ConstrainPaxisIp, ConstrainBetapIp, ProfilesPprimeFfprime", "freegs/control.py: constrain", "freegs/equilibrium.py: solve", "freegs/picard.py: solve"]}
{"id": "C120", "title": "A calculation changes only the equilibrium it is asked for", "statement": "Making an equilibrium, eq.solve and Picard iteration, whether they return or raise, change no array of the caller, no other equilibrium and no other machine; arrays given as Jtor or psi to solve are unchanged. Whatever is done afterwards - making and changing arrays, setting currents, solving for others, exceptions included - an equilibrium stays exactly as it is as long as no call is addressed to it, its machine or its arrays. What a calculation gives depends only on the values in its arrays, not on which arrays they are.", "quantifier": "all boundary functions, solvers (in place or not), profile objects, controls, numbers of equilibria, machines and arrays, all ways in which names refer to the same array, all histories of calls and all points at which a call raises", "why_tests_cant": "A test sees one assignment of names to arrays and one history; whether an in-place update reaches an array that somebody else holds depends on all of them.", "anchors": ["freegs/equilibrium.py:Equilibrium.__init__", "freegs/equilibrium.py:Equilibrium.solve", "freegs/equilibrium.py:Equilibrium._updatePlasmaPsi", "freegs/boundary.py:freeBoundary", "freegs/boundary.py:freeBoundaryHagenow", "freegs/boundary.py:fixedBoundary", "freegs/multigrid.py:MGJacobi.__call__", "freegs/picard.py:solve"]}
{"id": "C121", "title": "What is left after an exception", "statement": "When eq.solve raises, the plasma is either as before or the flux is completely the new one and only current and current density are the old ones; interpolation and flux, and current and current density, always belong together; an exception that came before the flux changed has no effect on any later solve; Picard iteration without control that stops at its limit of passes leaves a consistent equilibrium.", "quantifier": "all exceptions at all points of solve and of Picard iteration, all boundary functions of the code, solvers, profile objects and controls, all states before, all later calls", "why_tests_cant": "A test provokes one exception at one point and looks at a few attributes; it cannot go through every point at which library routines, profiles, limiter tests or controls may raise and every later call.", "anchors": ["freegs/equilibrium.py:Equilibrium.solve", "freegs/equilibrium.py:Equilibrium._updateBoundaryPsi", "freegs/equilibrium.py:Equilibrium._updatePlasmaPsi", "freegs/boundary.py:freeBoundary", "freegs/boundary.py:freeBoundaryHagenow", "freegs/picard.py:solve", "freegs/jtor.py:ConstrainPaxisIp.Jtor", "freegs/jtor.py:ConstrainBetapIp.Jtor"]}
{"id": "C122", "title": "Multigrid cycles converge", "statement": "Each V-cycle of a solver made by setSolverVcycle reduces the error: whatever the grid, the number of levels, the right-hand side and the starting guess, repeated cycles approach the solution of the Grad-Shafranov matrix equation, and with enough smoothing steps per level each cycle reduces the largest error by any wanted factor.", "quantifier": "all domains with Rmin >= 0, grids with at least two points in each direction, numbers of levels, cycles and smoothing steps, right-hand sides and starting guesses", "why_tests_cant": "A test runs a few grids and right-hand sides; convergence is a statement about all grids and all errors, in particular those a smooth test problem does not contain.", "anchors": ["freegs/multigrid.py: MGJacobi.__call__, createVcycle, restrict, interpolate", "freegs/equilibrium.py: Equilibrium.setSolverVcycle"]}
{"id": "C123", "title": "Currents in the same direction attract", "statement": "At a fixed radius the flux of a coil falls with the distance in height, so its radial field points outward above it and inward below it. If all other currents of a machine are positive and lie at or below a coil, getForces reports that the coil is pulled down if its own current is positive and pushed up if it is negative; correspondingly for a coil at or below all others. Two coils at different heights attract each other if their currents have the same direction and repel each other if not. Clipping of the elliptic parameter and the difference over two millimetres do not change any of this.", "quantifier": "every machine, every position, radius, current and number of turns, every class of coil whose field is computed, with or without plasma", "why_tests_cant": "the sign of a force must be right for every arrangement; a test compares a few numbers, and the clipping and the difference step act only in particular places", "anchors": ["freegs/gradshafranov.py: Greens, GreensBr", "freegs/coil.py: Coil.getForces", "freegs/machine.py: Machine.getForces, Machine.Br"]}
{"id": "C124", "title": "The self-force of a coil points outward", "statement": "A coil on its own that carries a current and is not wider than its major radius feels a finite force that points outward and has no vertical part. A coil that carries no current feels no force.", "quantifier": "every class of coil, every radius, area, current and number of turns", "why_tests_cant": "holds for every coil, and the failing case is the state of every machine before currents are found, which tests of forces skip", "anchors": ["freegs/coil.py: Coil.getForces, AreaCurrentLimit, Coil.area"]}
{"id": "C125", "title": "More current gives more flux", "statement": "If the toroidal current density is nowhere lower at any grid point, the plasma flux returned by a solve is nowhere lower, with the edge held at zero (fixedBoundary) as well as with the edge values of freeBoundary; a current density that is nowhere negative gives a flux that is nowhere negative.", "quantifier": "all domains right of the axis, all grids, all pairs of current densities ordered point by point, all earlier fluxes, all exact direct solvers", "why_tests_cant": "a comparison of two solutions for every ordered pair of current densities; a test compares a few, and the sign of the flux near a corner depends on the whole grid", "anchors": ["freegs/equilibrium.py:Equilibrium.solve", "freegs/boundary.py:freeBoundary", "freegs/boundary.py:fixedBoundary", "freegs/gradshafranov.py:GSsparse", "freegs/gradshafranov.py:GSsparse4thOrder"]}
{"id": "C126", "title": "Coil control depends continuously on request and plasma", "statement": "Two calls of constrain on the same coils with the same points, limits and gamma, but other requested flux values or another plasma, leave controlled currents whose difference (root of the sum of squares), times 2*gamma, is at most the difference of the constraint errors found at the start; with current limits and a limit of the total current too.", "quantifier": "all machines, all requests, all plasma fields, all limits, all optimisers that solve the problem handed to them", "why_tests_cant": "a Lipschitz bound for every pair of requests; a test compares a few pairs", "anchors": ["freegs/control.py:constrain", "freegs/machine.py:Machine.controlAdjust", "freegs/machine.py:Machine.controlCurrents"]}
{"id": "C127", "title": "Repeated coil control meets the request ever better", "statement": "Calling constrain again and again for the same plasma never makes the constraint errors larger (once the currents are within the limits, as they are after each call), and after n calls the squared errors exceed those of any admissible choice of currents by at most gamma^2 times the squared distance to it divided by n; so if the request can be met within the limits, the errors go to zero although each single call is regularised. If a call changes no current, no admissible currents have smaller errors.", "quantifier": "all machines, all requests and limits, all numbers of calls, all admissible currents to compare with, all optimisers that solve the problem handed to them", "why_tests_cant": "it is about call histories of every length; a test makes a few calls for one machine", "anchors": ["freegs/control.py constrain.__call__", "freegs/machine.py Machine.controlAdjust Machine.controlCurrents"]}
{"id": "C128", "title": "With limits, coil control has exactly one solution", "statement": "If a request has at least one constraint and a regularisation, and some currents keep its limits (one pair per coil, and a limit of the total current), then exactly one change of the controlled currents keeps the limits and makes the squared constraint errors plus gamma^2 times the squared change minimal; constrain with an optimiser that solves solvable problems succeeds and leaves these currents.", "quantifier": "all real machines, requests, plasma fields and limits that can be kept", "why_tests_cant": "existence and uniqueness over a continuum of currents; a test sees one answer and cannot tell whether another is as good", "anchors": ["freegs/control.py constrain.__call__", "freegs/machine.py Machine.controlAdjust"]}
{"id": "C129", "title": "Reported forces are the rate of change of the magnetic energy", "statement": "For a plain Coil listed directly in a machine of coils, circuits and solenoids without plasma, the vertical force of getForces is the difference of the machine's magnetic interaction energy (for each pair of filaments, current times the poloidal flux of the other) with the coil one millimetre higher and one millimetre lower, divided by two millimetres, with all currents kept; the radial force without the coil's force on itself is the same with the radius. For a plain Coil in a circuit the vertical force is the same difference; the radial force contains besides the coil's current times the field that GreensBz gives for the coil at its own place. With exact elliptic integrals and no other filament within the clipping distance the forces are derivatives of the energy at a place within a millimetre of the coil.", "quantifier": "every machine without pre-calculated coils, every plain coil in it, all positions and currents", "why_tests_cant": "The energy is a sum over all pairs of filaments and the identity rests on the symmetry of the Green's function; tests compare forces of single arrangements with stored numbers.", "anchors": ["freegs/coil.py:Coil.getForces", "freegs/machine.py:Machine.psi", "freegs/gradshafranov.py:Greens", "freegs/gradshafranov.py:GreensBr", "freegs/gradshafranov.py:GreensBz"]}
{"id": "C130", "title": "A larger gamma trades accuracy for smaller current changes", "statement": "Two calls of constrain on the same equilibrium that differ only in gamma: the larger gamma gives the smaller (or equal) sum of squared current changes and leaves the larger (or equal) sum of squared constraint errors, with or without current limits, and the two changes of current differ by little if the two gammas do. For small gamma the errors come as near as one likes to the smallest that any admissible currents give. Among all admissible changes that leave no larger errors the call makes the smallest one.", "quantifier": "every machine, plasma, request, limits and pair of gammas, for an optimiser that solves its problems", "why_tests_cant": "Monotone dependence on a real parameter for all machines and requests; tests run single values of gamma.", "anchors": ["freegs/control.py:constrain.__call__"]}
{"id": "C131", "title": "Reciprocity and positive energy of the solve", "statement": "For the second-order solve with the edge held at zero: the flux at one inner grid point of a current at another equals the flux at the other of the same current at the first, up to factors 1 - (dR/2R)^2 known exactly (equal for the same radius); for any two current densities the sum of current times flux (with that weight) is the same whichever of the two makes the flux; the sum for a current and its own flux is never negative and is zero only without current inside.", "quantifier": "every grid from 2 x 2 on, every domain with 0 <= Rmin, all pairs of current densities and pairs of inner points, every solver of the linear system", "why_tests_cant": "Symmetry of an inverse matrix for every grid size, weighted by the radius; tests solve single grids.", "anchors": ["freegs/gradshafranov.py:GSsparse", "freegs/equilibrium.py:Equilibrium.solve", "freegs/boundary.py:fixedBoundary"]}
{"id": "C132", "title": "More requests, wider limits and more coils in coil control", "statement": "If constrain is called with further X-points, isoflux pairs or flux values besides given ones, the further requests are met better than without asking for them (sum of squared errors), the given ones are met no better (squared errors plus gamma squared times the squared current changes), twice gamma squared times the squared difference of the two current changes is at most the squared error of the further requests without asking, and asking for something that would have been so anyway changes nothing. With wider limits of the currents, or with more coils controlled, squared errors plus gamma squared times squared changes do not grow; limits that the result for wider limits keeps anyway change nothing.", "quantifier": "every machine, plasma, requests, gamma, limits, number of coils; every optimiser that solves its problem", "why_tests_cant": "The comparison is between two runs for every arrangement and set of requests; tests run single requests.", "anchors": ["freegs/control.py:constrain.__call__", "freegs/machine.py:Machine.controlAdjust", "freegs/machine.py:Machine.controlPsi"]}
{"id": "C133", "title": "The solve gives the flux of least energy", "statement": "With the second-order operator on every grid, and whatever boundary condition, the flux returned by the linear solve has less energy than every other flux map with the same edge values: half the sum over the grid of the squared poloidal field times radius (differences between neighbours) minus mu0 times the sum of current density times flux. With the edge held at zero the energy of the field is half that of the current in its own flux, and no flux map that is zero on the edge gives a larger value of twice current times flux minus the field energy.", "quantifier": "every grid with two or more points each way, every domain with Rmin at least zero, every current density, boundary condition and competing flux map", "why_tests_cant": "The comparison is with all other flux maps on grids of every size.", "anchors": ["freegs/gradshafranov.py:GSsparse", "freegs/equilibrium.py:Equilibrium.solve", "freegs/boundary.py:fixedBoundary"]}
{"id": "C134", "title": "The field of one coil", "statement": "With exact elliptic integrals and where Greens does not clip: the flux of a filament rises with the radius up to the radius of the filament, at every height, and in the plane of the filament falls beyond it; GreensBz has the corresponding sign; the field reported for a single coil with current vanishes nowhere at points at least a millimetre from coil and axis, so one coil alone makes no X-point or O-point; where the field of a machine of positive currents vanishes, some current lies at least as high, some at least as low and some at no larger radius (up to a millimetre); the innermost coil of a machine whose other currents are positive and lie at larger radii is pulled outward by them if its current is positive and pressed inward if it is negative.", "quantifier": "every filament position, observation point, current, machine", "why_tests_cant": "Tests evaluate the Green's functions at chosen points; the sign holds at every point by an inequality of elliptic integrals.", "anchors": ["freegs/gradshafranov.py:Greens", "freegs/gradshafranov.py:GreensBz", "freegs/gradshafranov.py:GreensBr", "freegs/coil.py:Coil.getForces", "freegs/machine.py:Machine.Bz"]}
{"id": "C135", "title": "Flux fits with more coils or wider limits", "statement": "If the optimiser returns the least value there is, fitting the coil currents to a flux map with ConstrainPsi2D after switching control on for further coils gives a flux at least as close to the target as without, in the weighted sum of squares; and fitting with ConstrainPsi2DAdvanced within wider current limits gives a flux at least as close as within narrower ones.", "quantifier": "every machine with coils, solenoids and circuits, starting currents, target, array of weights, table of Green's functions, limits in either order", "why_tests_cant": "A test compares two fits of one machine; the comparison must hold for every machine, every set of further coils and all limits.", "anchors": ["freegs/control.py:ConstrainPsi2D", "freegs/control.py:ConstrainPsi2DAdvanced", "freegs/machine.py:Machine.calcPsiFromGreens", "freegs/machine.py:Machine.setControlCurrents"]}
{"id": "C136", "title": "The strength and direction of the vacuum toroidal field", "statement": "A calculation with another fvac and all else equal goes through the same steps and ends with the same flux, current density, coil currents and pressure, or the same exception; the square of fpol differs by the difference of the squares of the vacuum values in the whole plasma, and fpol is at least as large with a stronger field. Reversing fvac reverses the toroidal field at every point.", "quantifier": "every profile class and its parameters, every equilibrium, coil control, number of iterations and point", "why_tests_cant": "A test calculates one equilibrium with one value of fvac, nearly always a positive one; the independence holds for every run, and the direction matters only for negative values.", "anchors": ["freegs/jtor.py:Profile.fpol", "freegs/jtor.py:ConstrainPaxisIp", "freegs/jtor.py:ConstrainBetapIp", "freegs/jtor.py:ProfilesPprimeFfprime", "freegs/equilibrium.py:Equilibrium.Btor", "freegs/picard.py:solve"]}
{"id": "C137", "title": "Machines that make the same field are interchangeable", "statement": "If two machines have the same currents and responses of the controlled entries, in order, and the same flux and field everywhere, then coil control makes the same changes to both, and a whole calculation with the one and with the other raises the same exception or returns the same equilibrium and list of changes, the machines making the same field again at the end. In particular a coil, circuit or solenoid without current and control may be added anywhere (with any entry in the list of current limits), an entry may be replaced by another of the same response, current and control, and a solenoid by a circuit of its turns.", "quantifier": "every pair of machines, every request of coil control, limits, profile class, options and number of iterations", "why_tests_cant": "A test compares one calculation for two machines; the claim is about all machines that look the same from outside and all runs.", "anchors": ["freegs/machine.py:Machine", "freegs/machine.py:Solenoid", "freegs/machine.py:Circuit", "freegs/control.py:constrain", "freegs/picard.py:solve", "freegs/equilibrium.py:Equilibrium.solve"]}
{"id": "C138", "title": "One list of current limits means the same to all fits", "statement": "A list current_lims with one pair per coil of the machine keeps every controlled coil within its own pair, in control.constrain and in the bounded flux fits ConstrainPsi2DAdvanced and ConstrainPsiNorm2DAdvanced, whichever coils are controlled.", "quantifier": "every machine with any pattern of control attributes, every list of limits, every optimiser that stays within the bounds it is given", "why_tests_cant": "Which pair is used for which coil depends on the pattern of control attributes, and there are exponentially many patterns for each length of the coil list.", "anchors": ["freegs/control.py:constrain", "freegs/control.py:ConstrainPsi2DAdvanced", "freegs/control.py:ConstrainPsiNorm2DAdvanced"]}
